import Verif.BellRoles

/-! # From compiled routes to what they do -/

namespace Verif.Apply

open Verif Verif.Quantum

variable {K : Type} [Field K]

theorem route_mid {t c : Cell} {mid : List Cell} : ((List.range mid.length).map fun j => cellOf (t :: mid ++ [c]) (j + 1)) = mid := by
  apply List.ext_getElem?
  intro j
  by_cases hj : j < mid.length
  · rw [List.getElem?_map, List.getElem?_range hj, Option.map_some, List.getElem?_eq_getElem hj]
    congr 1
    apply cellOf_some
    simp [List.getElem?_append_left hj, List.getElem?_eq_getElem hj]
  · rw [List.getElem?_eq_none (by simp; omega), List.getElem?_eq_none (by omega)]

theorem cellOf_first {t c : Cell} {mid : List Cell} : cellOf (t :: mid ++ [c]) 0 = t := cellOf_some rfl

theorem cellOf_last {t c : Cell} {mid : List Cell} : cellOf (t :: mid ++ [c]) (mid.length + 1) = c :=
  cellOf_some (by simp)

theorem cellOf_second {t c : Cell} {mid : List Cell} {u : Cell} (h : mid.head? = some u) : cellOf (t :: mid ++ [c]) 1 = u := by
  apply cellOf_some
  cases mid with
  | nil => cases h
  | cons a l => simpa using h

theorem cellOf_penult {t c : Cell} {mid : List Cell} {u : Cell} (h : mid.getLast? = some u) : cellOf (t :: mid ++ [c]) mid.length = u := by
  apply cellOf_some
  cases mid with
  | nil => cases h
  | cons a l =>
    rw [List.getLast?_eq_getElem?] at h
    show ((a :: l) ++ [c])[l.length]? = some u
    rw [List.getElem?_append_left (by simp)]
    exact h

theorem layered_cnot {w : K} (h2 : (2 : K) ≠ 0) {t c u v : Cell} {mid : List Cell} (hn : (t :: mid ++ [c]).Nodup) (hl : 2 ≤ mid.length) {F : Nat → Spot} {p : Phases}
    (h : Sofar (t :: mid ++ [c]) F ((t :: mid ++ [c]).length - 1) p) (hlast : (F ((t :: mid ++ [c]).length - 2)).hi = .kept) {sd : Sides} (hu : mid.head? = some u) (hv : mid.getLast? = some v)
    (s0 : sd t u = some .X) (sN : sd c v = some .Z) (x : Nat → Run) :
    LDoes w sd (p.p1.l1 ++ p.p1.l2 ++ p.p2.l1 ++ p.p2.l2) x [t, c] mid [] [c, t] (gateCX c t) := by
  obtain ⟨a, b, d, e, hlay⟩ := h.lay
  obtain ⟨ks, ι, e1, e2, e3⟩ := hlay.net hn (by simp) h.inner
  have hlen : (t :: mid ++ [c]).length = mid.length + 2 := by simp
  rw [hlen] at e2 e3 hlast
  have h0 := h.first (by simp)
  have := e2.cnot (w := w) h2 (by omega) (sd := sd) e3 h0 hlast
    (by rw [cellOf_first, show 1 = 0 + 1 from rfl, cellOf_second hu]; exact s0)
    (by rw [show mid.length + 2 - 1 = mid.length + 1 by omega, cellOf_last, Nat.add_sub_cancel, cellOf_penult hv]; exact sN) x
  rw [mid_eq, show mid.length + 2 - 1 = mid.length + 1 by omega, Nat.add_sub_cancel, route_mid, cellOf_first, cellOf_last, ← e1] at this
  exact this

theorem compileWhole_does {w : K} (h2 : (2 : K) ≠ 0) {cn : BellCNOT} {t c u v : Cell} {mid : List Cell} {l : Layers} (hn : (t :: mid ++ [c]).Nodup) (hl : 2 ≤ mid.length)
    (hc : compileWhole cn (t :: mid ++ [c]) {} = .ok l) {sd : Sides} (hu : mid.head? = some u) (hv : mid.getLast? = some v)
    (s0 : sd t u = some .X) (sN : sd c v = some .Z) (x : Nat → Run) : LDoes w sd (l.l1 ++ l.l2) x [t, c] mid [] [c, t] (gateCX c t) := by
  have hlen : 4 ≤ (t :: mid ++ [c]).length := by simp; omega
  obtain ⟨l', k1, k2, g1, g2, g3, g4⟩ := compileWhole_lays (c := cn) (l := {}) hn hlen 0
  rw [hc] at g1
  cases g1
  obtain ⟨p1, p2⟩ := lays_empty g2
  obtain ⟨w1, w2, w3⟩ := whole_roles (t := 0) hlen
  have hs : Sofar (t :: mid ++ [c]) (wholeSpot (t :: mid ++ [c]).length 0) ((t :: mid ++ [c]).length - 1) ⟨l, {}⟩ :=
    ⟨⟨k1, k2, [], [], p1, p2, .nil, .nil, fun k => by simpa using whole_count g3 g4 k⟩, w1, fun _ => w2⟩
  simpa using layered_cnot (w := w) h2 hn hl hs w3 hu hv s0 sN x

theorem compileEdpc_does {w : K} (h2 : (2 : K) ≠ 0) {cn : BellCNOT} {s : DSlice} {e : List (Nat × BoundaryType) × BoundaryType} {t c u v : Cell} {mid : List Cell} {p : Phases}
    (hn : (t :: mid ++ [c]).Nodup) (hl : 2 ≤ mid.length) (he : endpoints s (t :: mid ++ [c]) = .ok e)
    (hc : compileEdpc cn (t :: mid ++ [c]) e.1 e.2 = .ok p) {sd : Sides} (hu : mid.head? = some u) (hv : mid.getLast? = some v)
    (s0 : sd t u = some .X) (sN : sd c v = some .Z) (x : Nat → Run) : LDoes w sd (p.p1.l1 ++ p.p1.l2 ++ p.p2.l1 ++ p.p2.l2) x [t, c] mid [] [c, t] (gateCX c t) := by
  have hlen : 4 ≤ (t :: mid ++ [c]).length := by simp; omega
  obtain ⟨F, g1, g2⟩ := compileEdpc_sofar hn he hlen hc
  exact layered_cnot h2 hn hl g1 g2 hu hv s0 sN x

theorem bellInit_does {w : K} (h2 : (2 : K) ≠ 0) {b : BellInit} {t c : Cell} {mid : List Cell} {ls : List LocalInstr} (hn : (t :: mid ++ [c]).Nodup)
    (hc : bellInitLocals b (t :: mid ++ [c]) = .ok ls) {sd : Sides} (x : Nat → Run) : LDoes w sd ls x [] (t :: mid ++ [c]) [t, c] [c] (bellPair t c) := by
  have hlen : (t :: mid ++ [c]).length = mid.length + 2 := by simp
  obtain ⟨l, k1, k2, g1, g2, g3, g4⟩ := compile_lays (ty := .prep) (a := 0) (e := (t :: mid ++ [c]).length - 1) (rev := false) (p := some b.side1) (q := some b.side2) (l := {})
    (F := seg .prep 0 ((t :: mid ++ [c]).length - 1) false 0) hn 0 (by omega) (by omega) (fun _ _ _ => rfl)
  unfold bellInitLocals at hc
  rw [g1] at hc
  cases hc
  obtain ⟨p1, p2⟩ := lays_empty g2
  have hs := (g3.splits g4).2.2
  have hlay : Layered (t :: mid ++ [c]) (seg .prep 0 ((t :: mid ++ [c]).length - 1) false 0) ((t :: mid ++ [c]).length - 1) ⟨l, {}⟩ k1 k2 [] [] :=
    ⟨p1, p2, .nil, .nil, fun k => by simpa using hs k⟩
  obtain ⟨ks, ι, e1, e2, e3⟩ := hlay.net hn (by omega) fun j hj => seg_inner (Nat.zero_le _) (by omega)
  rw [hlen] at e2 e3
  have := e2.bell (w := w) h2 (by omega) (sd := sd) e3 (seg_lo ..) (seg_hi _ _ _ _ _ _ (by omega)) x
  rw [mid_eq, show mid.length + 2 - 1 = mid.length + 1 by omega, Nat.add_sub_cancel, route_mid, cellOf_first, cellOf_last, ← e1] at this
  simpa using this

end Verif.Apply
