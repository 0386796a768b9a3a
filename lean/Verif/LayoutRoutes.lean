import Verif.LayoutJoined
import Verif.RouterProps

/-! # On a generated layout the first route is always found (C79) -/

namespace Verif.Layouts.Walks

open Verif Verif.Layouts Verif.Layouts.Spec
open Verif.Router.Spec

theorem path {g : Grid} {t : CellType} {a b : Cell} (h : Joined g t a b) : ∃ r : List Cell, r.head? = some b ∧ r.getLast? = some a ∧ Linked Touching r ∧ ∀ c ∈ r, At g c t := by
  induction h with
  | refl h => exact ⟨[a], rfl, rfl, trivial, fun c hc => by rw [List.mem_singleton.1 hc]; exact h⟩
  | @step b c _ ht ha ih =>
    obtain ⟨r, h1, h2, h3, h4⟩ := ih
    cases r with
    | nil => cases h1
    | cons x r =>
      cases h1
      refine ⟨c :: b :: r, rfl, by rw [List.getLast?_cons_cons]; exact h2, ⟨touching_symm ht, h3⟩, fun y hy => ?_⟩
      rcases List.mem_cons.1 hy with rfl | hy
      · exact ha
      · exact h4 y hy

theorem linked_ends {R : Cell → Cell → Prop} {x y a : Cell} : ∀ {r : List Cell} {b : Cell}, Linked R r → r.head? = some b → r.getLast? = some a → R x b → R a y → Linked R (x :: (r ++ [y]))
  | [], _, _, h, _, _, _ => by cases h
  | [c], _, _, h1, h2, h3, h4 => by cases h1; cases h2; exact ⟨h3, h4, trivial⟩
  | c :: d :: r, _, h, h1, h2, h3, h4 => by
    cases h1
    rw [List.getLast?_cons_cons] at h2
    exact ⟨h3, linked_ends h.2 rfl h2 h.1 h4⟩

theorem linked_all {R : Cell → Cell → Prop} : ∀ {r : List Cell}, (∀ a ∈ r, ∀ b, R b a) → Linked (fun b a => R b a) r
  | [], _ => trivial
  | [_], _ => trivial
  | _ :: b :: r, h => ⟨h b (by simp) _, linked_all fun a ha => h a (by simp [ha])⟩

/-- Only a qubit cell holds a given id, and only one does. -/
theorem placed {g : Grid} {o : Options} {h w : Nat} {L : Layout} {k : Regions} (hl : LayoutOf g o h w L k) {ids : List Nat} {s : DSlice} (hs : Shows g ids s) (hr : s.rows = h) (hc : s.cols = w)
    (hn : ids.Nodup) {a : Nat} (ha : a ∈ ids) : ∃ c p, At g c .qubit ∧ s.cells c = some p ∧ Square p (some a) ∧ Names s a c := by
  obtain ⟨i, hi, e⟩ := List.getElem_of_mem ha
  have ei : ids[i]? = some a := by rw [List.getElem?_eq_getElem hi, e]
  obtain ⟨cs, h1, h2, h3, h4⟩ := hs.qubits
  obtain ⟨c, p, e1, e2, e3⟩ := h3 i a ei
  have hat := (h2 c).1 (List.mem_of_getElem? e1)
  have hb := hl.rect.of_at hat
  refine ⟨c, p, hat, e2, e3, ⟨hb.1, by omega, hb.2.2.1, by omega, p, e2, e3.2.2.1⟩, ?_⟩
  rintro ⟨x, y⟩ ⟨x1, x2, y1, y2, q, hq, hid⟩
  dsimp only at x1 x2 y1 y2
  obtain ⟨x, rfl⟩ := Int.eq_ofNat_of_zero_le x1
  obtain ⟨y, rfl⟩ := Int.eq_ofNat_of_zero_le y1
  have hx : x < g.length := by rw [hl.rect.1]; omega
  have hy : y < (g[x]).length := by rw [hl.rect.2 _ (List.getElem_mem hx)]; omega
  have hk : At g ⟨x, y⟩ (g[x])[y] := ⟨x, y, g[x], rfl, List.getElem?_eq_getElem hx, List.getElem?_eq_getElem hy⟩
  have none : ∀ {P : DensePatch → Prop}, (∃ q, s.cells ⟨x, y⟩ = some q ∧ P q) → (∀ q, P q → q.id = none) → False := by
    rintro P ⟨q', e', hP⟩ hid'
    rw [hq] at e'; cases e'
    rw [hid' q hP] at hid; cases hid
  have empty : s.cells ⟨x, y⟩ = .none → False := fun e' => by rw [hq] at e'; cases e'
  generalize (g[x])[y] = kind at hk
  cases kind with
  | qubit =>
    obtain ⟨i', hi', e'⟩ := List.getElem_of_mem ((h2 _).2 hk)
    have ei' : cs[i']? = some ⟨x, y⟩ := by rw [List.getElem?_eq_getElem hi', e']
    cases ea : ids[i']? with
    | none => exact (empty (h4 i' _ ei' ea)).elim
    | some a' =>
      obtain ⟨c', p', f1, f2, f3⟩ := h3 i' a' ea
      rw [ei'] at f1; cases f1
      rw [hq] at f2; cases f2
      rw [f3.2.2.1] at hid; cases hid
      obtain ⟨hi2, e2'⟩ := List.getElem?_eq_some_iff.1 ea
      have : i' = i := (List.getElem_inj hn).1 (e2'.trans e.symm)
      subst this
      rw [ei'] at e1; cases e1; rfl
  | routing => exact (empty (hs.free _ (.inl hk))).elim
  | ancilla => exact (empty (hs.free _ (.inr (.inl hk)))).elim
  | rotated => exact (empty (hs.free _ (.inr (.inr (.inl hk))))).elim
  | dynamic => exact (empty (hs.free _ (.inr (.inr (.inr hk))))).elim
  | ystate => exact (none (hs.ystates _ hk) fun q h => h.2.2.1).elim
  | magic => exact (none (hs.reserved _ hk) fun q h => h.2.2).elim
  | dead => exact (none (hs.dead _ hk) fun q h => h.2).elim
  | distillation d => exact (none (hs.factories _ d hk) fun q h => h.2.2).elim

/-- The side through which an operator is measured. -/
def smoothFor (op : Pauli) : Bool := op == .Z

theorem offers {s : DSlice} {a c : Cell} {p : DensePatch} {id : Option Nat} {op : Pauli} (hp : s.cells a = some p) (hq : Square p id) (ho : op = .X ∨ op = .Z) (hb : Beside (smoothFor op) a c) :
    Offers s a c op ∧ Touching a c := by
  rcases ho with rfl | rfl
  · rcases hb with h | h
    · exact ⟨⟨p, _, hp, h, .inl ⟨rfl, by rw [hq.2.2.2]; rfl⟩⟩, _, h⟩
    · exact ⟨⟨p, _, hp, h, .inl ⟨rfl, by rw [hq.2.2.2]; rfl⟩⟩, _, h⟩
  · rcases hb with h | h
    · exact ⟨⟨p, _, hp, h, .inr ⟨rfl, by rw [hq.2.2.2]; rfl⟩⟩, _, h⟩
    · exact ⟨⟨p, _, hp, h, .inr ⟨rfl, by rw [hq.2.2.2]; rfl⟩⟩, _, h⟩

theorem found {g : Grid} {o : Options} {h w : Nat} {L : Layout} {k : Regions} (hl : LayoutOf g o h w L k) {ids : List Nat} {s : DSlice} (hs : Shows g ids s) (hr : s.rows = h) (hc : s.cols = w)
    (hn : ids.Nodup) (hin : ∀ c, s.inRange c = false → s.cells c = none) {a b : Nat} (ha : a ∈ ids) (hb : b ∈ ids) {sop top : Pauli} (h1 : sop = .X ∨ sop = .Z) (h2 : top = .X ∨ top = .Z)
    (hj : ∀ a b, At g a .qubit → At g b .qubit → ∃ c d, Beside (smoothFor sop) a c ∧ Beside (smoothFor top) b d ∧ Joined g .routing c d) (pick : Search.Pick) (stop edpc : Bool) :
    ∃ r, Router.find L pick stop edpc s a sop b top = .ok (some r) := by
  obtain ⟨ca, pa, a1, a2, a3, a4⟩ := placed hl hs hr hc hn ha
  obtain ⟨cb, pb, b1, b2, b3, b4⟩ := placed hl hs hr hc hn hb
  obtain ⟨c, d, k1, k2, k3⟩ := hj ca cb a1 b1
  obtain ⟨o1, t1⟩ := offers a2 a3 h1 k1
  obtain ⟨o2, t2⟩ := offers b2 b3 h2 k2
  obtain ⟨r, r1, r2, r3, r4⟩ := path k3
  have hL := hl.eq
  have hfar : L.furthest = ⟨(h : Int) - 1, (w : Int) - 1⟩ := by rw [hL]
  have hpos := hl.hpos
  have hwpos := hl.wpos
  have hf : Fits L s := by
    unfold Fits
    rw [hfar, hr, hc]
    dsimp only
    omega
  have hne : r ≠ [] := by rintro rfl; cases r1
  refine Router.Spec.c35_found (r := r) pick stop hf ?_ a4 b4 ⟨linked_ends r3 r1 r2 t2 (touching_symm t1), ?_, fun x hx => .inl (hs.free x (.inl (r4 x hx))), ?_, ?_, ?_⟩
  · intro _ x p hx hid
    have hx' : s.inRange x = true := by
      cases e : s.inRange x
      · rw [hin x e] at hx; cases hx
      · rfl
    simp only [DSlice.inRange, Bool.and_eq_true, decide_eq_true_eq] at hx'
    have hH : ∀ id, p.id = some id → Holds s id x := fun id h => ⟨by omega, by omega, by omega, by omega, p, hx, h⟩
    rcases hid with hid | hid
    · have := a4.2 x (hH _ hid)
      subst this
      rw [hx] at a2; cases a2
      rw [a3.2.1]; simp
    · have := b4.2 x (hH _ hid)
      subst this
      rw [hx] at b2; cases b2
      rw [b3.2.1]; simp
  · intro x hx
    have := hl.rect.of_at (r4 x hx)
    unfold OnGrid
    rw [hfar]
    dsimp only
    omega
  · intro _
    refine linked_all fun x hx y hT => ?_
    obtain ⟨p, _, hp, _⟩ := hT
    rw [hs.free x (.inl (r4 x hx))] at hp
    cases hp
  · intro x hx
    rw [List.getLast?_cons_of_ne_nil hne, r2] at hx
    cases hx
    exact o1
  · intro x hx
    rw [List.head?_append, r1] at hx
    cases hx
    exact o2

end Verif.Layouts.Walks

namespace Verif.Layouts.Spec

open Verif Verif.Layouts

/-- C79: when the computation starts on an EDPC layout with at least one lane, the search finds a route between any two qubits and for any two operators, with edge-disjoint routing and without,
and whatever the order in which cells are expanded. -/
theorem c79_edpc_route (n lanes : Nat) (condensed explicit ystates : Bool) (o : Options) (ids : List Nat) (hl : 0 < lanes) (hfit : (n.sqrt + 2) * (lanes + 1) + 11 < 2 ^ 64) (hn : ids.Nodup)
    (hle : ids.length ≤ n) :
    ∃ L s, makeEdpc n lanes condensed explicit ystates o = .ok L ∧ DSlice.init L ids = .ok s ∧
      ∀ a ∈ ids, ∀ b ∈ ids, ∀ sop top, sop = .X ∨ sop = .Z → top = .X ∨ top = .Z → ∀ pick stop edpc, ∃ r, Router.find L pick stop edpc s a sop b top = .ok (some r) := by
  obtain ⟨g, h, w, L, k, e, hL, hcnt, hj, -⟩ := Walks.edpc_joined n lanes condensed explicit ystates o hl hfit
  obtain ⟨s, e1, e2, e3, e4, -⟩ := init_shows (ids := ids) hL (by rw [hL.eq]; simpa [hcnt] using hle)
  exact ⟨L, s, e, e1, fun a ha b hb sop top h1 h2 pick stop edpc =>
    Walks.found hL e2 e3 e4 hn (Apply.init_inv hn e1).inside ha hb h1 h2 (fun a b ha hb => hj a b ha hb _ _) pick stop edpc⟩

/-- Ten qubits with one lane in the condensed layout. -/
example : ∃ L s, makeEdpc 10 1 true false true {} = .ok L ∧ DSlice.init L [3, 5, 7] = .ok s ∧ ∀ pick, ∃ r, Router.find L pick false true s 3 .X 7 .Z = .ok (some r) := by
  obtain ⟨L, s, h1, h2, h3⟩ := c79_edpc_route 10 1 true false true {} [3, 5, 7] (by omega) (by
    have : Nat.sqrt 10 ≤ 10 := Nat.sqrt_le_self _
    omega) (by decide) (by decide)
  exact ⟨L, s, h1, h2, fun pick => h3 3 (by decide) 7 (by decide) .X .Z (.inl rfl) (.inr rfl) pick false true⟩

/-- C79: when the computation starts on a compact layout, the search finds a route between any two qubits for the operator Z on both. -/
theorem c79_compact_route (n : Nat) (o : Options) (noClogging : Bool) (ids : List Nat) (hn : ids.Nodup) (hle : ids.length ≤ n) :
    ∃ L s, makeCompact n o noClogging = .ok L ∧ DSlice.init L ids = .ok s ∧
      ∀ a ∈ ids, ∀ b ∈ ids, ∀ pick stop edpc, ∃ r, Router.find L pick stop edpc s a .Z b .Z = .ok (some r) := by
  obtain ⟨g, h, w, L, k, e, hL, hcnt, hj⟩ := Walks.compact_joined n o noClogging
  obtain ⟨s, e1, e2, e3, e4, -⟩ := init_shows (ids := ids) hL (by rw [hL.eq]; simpa [hcnt] using hle)
  exact ⟨L, s, e, e1, fun a ha b hb pick stop edpc => Walks.found hL e2 e3 e4 hn (Apply.init_inv hn e1).inside ha hb (.inr rfl) (.inr rfl) hj pick stop edpc⟩

/-- Three qubits. -/
example : ∃ L s, makeCompact 3 {} true = .ok L ∧ DSlice.init L [0, 1, 2] = .ok s ∧ ∀ pick, ∃ r, Router.find L pick false false s 1 .Z 2 .Z = .ok (some r) := by
  obtain ⟨L, s, h1, h2, h3⟩ := c79_compact_route 3 {} true [0, 1, 2] (by decide) (by decide)
  exact ⟨L, s, h1, h2, fun pick => h3 1 (by decide) 2 (by decide) pick false false⟩

end Verif.Layouts.Spec
