import Verif.LayoutEdpc

/-! # Any two qubits of a generated layout can be connected (C79) -/

namespace Verif.Layouts.Spec

open Verif.Router.Spec (Faces Touching)

/-- A walk from cell to touching cell on which nothing is placed. -/
inductive Free (L : Layout) : Cell → Cell → Prop
  | refl {c} : Vacant L c → Free L c c
  | step {a b c} : Free L a b → Touching b c → Vacant L c → Free L a c

/-- The cell above or below, where an idle qubit is smooth, or the one to the left or to the right, where it is rough. -/
def Beside (smooth : Bool) (a b : Cell) : Prop :=
  if smooth then Faces a b .top ∨ Faces a b .bottom else Faces a b .left ∨ Faces a b .right

/-- A corner of the square that lies `margin` cells inside a layout with rows and columns from 0 to `far`. -/
def Corner (far margin : Int) (c : Cell) : Prop := (c.row = margin ∨ c.row = far - margin) ∧ (c.col = margin ∨ c.col = far - margin)

end Verif.Layouts.Spec

namespace Verif.Layouts.Walks

open Verif Verif.Layouts Verif.Layouts.Spec
open Verif.Router.Spec (Faces Touching)

variable {g : Grid} {lo hi : Nat}

theorem free {o : Options} {h w : Nat} {L : Layout} {k : Regions} (hl : LayoutOf g o h w L k) {a b : Cell} (hj : Joined g .routing a b) : Free L a b := by
  induction hj with
  | refl h => exact .refl (vacant_routing hl h)
  | step _ ht ha ih => exact .step ih ht (vacant_routing hl ha)

theorem row_up {x a : Nat} : ∀ {d : Nat}, (∀ y, a ≤ y → y ≤ a + d → At g ⟨x, y⟩ .routing) → Joined g .routing ⟨x, a⟩ ⟨x, (a + d : Nat)⟩
  | 0, h => .refl (h a (by omega) (by omega))
  | d + 1, h => .step (b := ⟨x, (a + d : Nat)⟩) (row_up (d := d) fun y h1 h2 => h y h1 (by omega)) ⟨.right, rfl, by dsimp only; omega⟩ (h (a + (d + 1)) (by omega) (by omega))

theorem col_up {y a : Nat} : ∀ {d : Nat}, (∀ x, a ≤ x → x ≤ a + d → At g ⟨x, y⟩ .routing) → Joined g .routing ⟨a, y⟩ ⟨(a + d : Nat), y⟩
  | 0, h => .refl (h a (by omega) (by omega))
  | d + 1, h => .step (b := ⟨(a + d : Nat), y⟩) (col_up (d := d) fun x h1 h2 => h x h1 (by omega)) ⟨.bottom, by dsimp only; omega, rfl⟩ (h (a + (d + 1)) (by omega) (by omega))

theorem along_row {x a b : Nat} (h : ∀ y, lo ≤ y → y < hi → At g ⟨x, y⟩ .routing) (ha : lo ≤ a ∧ a < hi) (hb : lo ≤ b ∧ b < hi) : Joined g .routing ⟨x, a⟩ ⟨x, b⟩ := by
  rcases Nat.le_total a b with hab | hab
  · obtain ⟨d, rfl⟩ := Nat.exists_eq_add_of_le hab
    exact row_up fun y h1 h2 => h y (by omega) (by omega)
  · obtain ⟨d, rfl⟩ := Nat.exists_eq_add_of_le hab
    exact (row_up fun y h1 h2 => h y (by omega) (by omega)).symm

theorem along_col {y a b : Nat} (h : ∀ x, lo ≤ x → x < hi → At g ⟨x, y⟩ .routing) (ha : lo ≤ a ∧ a < hi) (hb : lo ≤ b ∧ b < hi) : Joined g .routing ⟨a, y⟩ ⟨b, y⟩ := by
  rcases Nat.le_total a b with hab | hab
  · obtain ⟨d, rfl⟩ := Nat.exists_eq_add_of_le hab
    exact col_up fun y h1 h2 => h y (by omega) (by omega)
  · obtain ⟨d, rfl⟩ := Nat.exists_eq_add_of_le hab
    exact (col_up fun y h1 h2 => h y (by omega) (by omega)).symm

variable {P : Nat → Prop}

/-- All cells of the lanes are joined to the crossing of two of them. -/
theorem to_hub {x y X Y : Nat} (hP : ∀ x y, lo ≤ x → x < hi → lo ≤ y → y < hi → P x ∨ P y → At g ⟨x, y⟩ .routing) (hX : lo ≤ X ∧ X < hi) (hY : lo ≤ Y ∧ Y < hi) (pX : P X) (pY : P Y)
    (hx : lo ≤ x ∧ x < hi) (hy : lo ≤ y ∧ y < hi) (h : P x ∨ P y) : Joined g .routing ⟨x, y⟩ ⟨X, Y⟩ := by
  rcases h with h | h
  · exact (along_row (fun z h1 h2 => hP x z hx.1 hx.2 h1 h2 (.inl h)) hy hY).trans (along_col (fun z h1 h2 => hP z Y h1 h2 hY.1 hY.2 (.inr pY)) hx hX)
  · exact (along_col (fun z h1 h2 => hP z y h1 h2 hy.1 hy.2 (.inr h)) hx hX).trans (along_row (fun z h1 h2 => hP X z hX.1 hX.2 h1 h2 (.inl pX)) hy hY)

/-- The sides of any two qubits are joined through routing cells. -/
def AllJoined (g : Grid) : Prop := ∀ a b, At g a .qubit → At g b .qubit → ∀ u v, ∃ c d, Beside u a c ∧ Beside v b d ∧ Joined g .routing c d

theorem connected {tb : Table} (hr : hi ≤ tb.rows) (hc : hi ≤ tb.cols)
    (hP : ∀ x y, lo ≤ x → x < hi → lo ≤ y → y < hi → P x ∨ P y → tb.at' x y = .routing) (hin : ∀ i j, tb.at' i j = .qubit → lo ≤ i ∧ i < hi ∧ lo ≤ j ∧ j < hi)
    (hlane : ∀ i j, tb.at' i j = .qubit → (∃ y, (i = y + 1 ∨ y = i + 1) ∧ lo ≤ y ∧ y < hi ∧ P y) ∧ ∃ z, (j = z + 1 ∨ z = j + 1) ∧ lo ≤ z ∧ z < hi ∧ P z) :
    AllJoined tb.toGrid ∧ ∀ a, At tb.toGrid a .qubit → ∀ x y : Nat, lo ≤ x ∧ x < hi → lo ≤ y ∧ y < hi → P x ∨ P y → ∀ u, ∃ c, Beside u a c ∧ Joined tb.toGrid .routing c ⟨x, y⟩ := by
  have hA : ∀ x y, lo ≤ x → x < hi → lo ≤ y → y < hi → P x ∨ P y → At tb.toGrid ⟨x, y⟩ .routing :=
    fun x y h1 h2 h3 h4 h5 => at_toGrid.2 ⟨x, y, rfl, by omega, by omega, hP x y h1 h2 h3 h4 h5⟩
  have side : ∀ i j, tb.at' i j = .qubit → ∀ u, ∃ x y : Nat, Beside u ⟨i, j⟩ ⟨x, y⟩ ∧ (lo ≤ x ∧ x < hi) ∧ (lo ≤ y ∧ y < hi) ∧ (P x ∨ P y) := by
    intro i j hq u
    obtain ⟨i1, i2, j1, j2⟩ := hin i j hq
    obtain ⟨⟨y, y1, y2, y3, y4⟩, z, z1, z2, z3, z4⟩ := hlane i j hq
    cases u
    · refine ⟨i, z, ?_, ⟨i1, i2⟩, ⟨z2, z3⟩, .inr z4⟩
      simp only [Beside, Bool.false_eq_true, if_false, Faces, true_and]
      omega
    · refine ⟨y, j, ?_, ⟨y2, y3⟩, ⟨j1, j2⟩, .inl y4⟩
      simp only [Beside, if_true, Faces, and_true]
      omega
  constructor
  rotate_left
  · intro a ha x' y' g1 g2 g3 u
    obtain ⟨i, j, rfl, _, _, hq⟩ := at_toGrid.1 ha
    obtain ⟨⟨X, -, X1, X2, pX⟩, Y, -, Y1, Y2, pY⟩ := hlane i j hq
    obtain ⟨x, y, h1, h2, h3, h4⟩ := side i j hq u
    exact ⟨_, h1, (to_hub hA ⟨X1, X2⟩ ⟨Y1, Y2⟩ pX pY h2 h3 h4).trans (to_hub hA ⟨X1, X2⟩ ⟨Y1, Y2⟩ pX pY g1 g2 g3).symm⟩
  intro a b ha hb u v
  obtain ⟨i, j, rfl, _, _, hq⟩ := at_toGrid.1 ha
  obtain ⟨i', j', rfl, _, _, hq'⟩ := at_toGrid.1 hb
  obtain ⟨⟨X, -, X1, X2, pX⟩, Y, -, Y1, Y2, pY⟩ := hlane i j hq
  obtain ⟨x, y, h1, h2, h3, h4⟩ := side i j hq u
  obtain ⟨x', y', g1, g2, g3, g4⟩ := side i' j' hq' v
  exact ⟨_, _, h1, g1, (to_hub hA ⟨X1, X2⟩ ⟨Y1, Y2⟩ pX pY h2 h3 h4).trans (to_hub hA ⟨X1, X2⟩ ⟨Y1, Y2⟩ pX pY g2 g3 g4).symm⟩

theorem edpc_joined (n lanes : Nat) (condensed explicit ystates : Bool) (o : Options) (hl : 0 < lanes) (hfit : (n.sqrt + 2) * (lanes + 1) + 11 < 2 ^ 64) :
    ∃ g h w L k, makeEdpc n lanes condensed explicit ystates o = .ok L ∧ LayoutOf g o h w L k ∧ (findAll g .qubit).length = n ∧ AllJoined g ∧
      ∀ a m, At g a .qubit → At g m .magic ∨ At g m .ystate → (condensed = true → ¬ Corner L.furthest.row (if explicit then 5 else 0) m) →
        ∀ u, ∃ c d, Beside u a c ∧ Touching m d ∧ Joined g .routing c d := by
  have hsq := ceilSqrt_le n
  have hfit' : (ceilSqrt n + 1) * (lanes + 1) + 11 < 2 ^ 64 := by
    have : (ceilSqrt n + 1) * (lanes + 1) ≤ (n.sqrt + 2) * (lanes + 1) := Nat.mul_le_mul_right _ (by omega)
    omega
  cases condensed
  · obtain ⟨tb, t, core, e, ht, hcore, hr, hc, hcnt, hq, hfree, hout, hclash⟩ := edpcTable_spec n lanes explicit ystates hfit'
    have hpos : 0 < core := by omega
    obtain ⟨L, k, eL, hL⟩ := fromGrid_ok (o := o) (rect_toGrid tb) (by omega) (by omega) hclash
    refine ⟨_, _, _, L, k, by unfold makeEdpc; rw [e, Outcome.bind_ok, eL], hL, hcnt, ?_⟩
    have hin : ∀ x, innerAx t (lanes + 1) core x = true → onAx t (lanes + 1) x = true ∧ x ≠ t ∧ x ≠ t + core - 1 := by
      intro x h
      simpa only [innerAx, Bool.and_eq_true, decide_eq_true_eq, and_assoc] using h
    have off : ∀ x y, t ≤ x → t ≤ y → (x = y + 1 ∨ y = x + 1) → onAx t (lanes + 1) x = true → ¬ onAx t (lanes + 1) y = true := by
      intro x y h1 h2 h h3 h4
      simp only [onAx, decide_eq_true_eq] at h3 h4
      have h5 : (lanes + 1) ∣ 1 := by
        rcases h with rfl | rfl
        · have := Nat.dvd_sub (Nat.dvd_of_mod_eq_zero h3) (Nat.dvd_of_mod_eq_zero h4)
          rwa [show (y + 1 - t) - (y - t) = 1 by omega] at this
        · have := Nat.dvd_sub (Nat.dvd_of_mod_eq_zero h4) (Nat.dvd_of_mod_eq_zero h3)
          rwa [show (x + 1 - t) - (x - t) = 1 by omega] at this
      have := Nat.le_of_dvd (by omega) h5
      omega
    have next : ∀ x, t ≤ x → x < t + core → 1 < core → onAx t (lanes + 1) x = true → ∃ y, (x = y + 1 ∨ y = x + 1) ∧ t ≤ y ∧ y < t + core ∧ ¬ onAx t (lanes + 1) y = true := by
      intro x h1 h2 h3 h4
      by_cases h : x + 1 < t + core
      · exact ⟨x + 1, .inr rfl, by omega, h, off x _ h1 (by omega) (.inr rfl) h4⟩
      · exact ⟨x - 1, .inl (by omega), by omega, by omega, off x _ h1 (by omega) (.inl (by omega)) h4⟩
    have key := connected (lo := t) (hi := t + core) (P := fun x => ¬ onAx t (lanes + 1) x = true) (tb := tb) (by omega) (by omega) ?_ ?_ ?_
    · refine ⟨key.1, fun a m ha hm _ u => ?_⟩
      obtain ⟨i, j, rfl, hi, hj, hk⟩ : ∃ i j : Nat, m = ⟨i, j⟩ ∧ i < tb.rows ∧ j < tb.cols ∧ (tb.at' i j = .magic ∨ tb.at' i j = .ystate) := by
        rcases hm with hm | hm
        · obtain ⟨i, j, h1, h2, h3, h4⟩ := at_toGrid.1 hm; exact ⟨i, j, h1, h2, h3, .inl h4⟩
        · obtain ⟨i, j, h1, h2, h3, h4⟩ := at_toGrid.1 hm; exact ⟨i, j, h1, h2, h3, .inr h4⟩
      have hc : InCore t core i j := by
        refine Classical.byContradiction fun hc => ?_
        rcases hout i j hc with g | g <;> rw [g] at hk <;> simp at hk
      have hax : onAx t (lanes + 1) j = true := by
        refine Classical.byContradiction fun h => ?_
        rw [hfree i j hc fun h' => h h'.2] at hk
        simp at hk
      have h2 : 1 * (lanes + 1) ≤ (ceilSqrt n + 1) * (lanes + 1) := Nat.mul_le_mul_right _ (by omega)
      unfold InCore at hc
      obtain ⟨y, y1, y2, y3, y4⟩ := next j (by omega) (by omega) (by omega) hax
      obtain ⟨c, c1, c2⟩ := key.2 a ha i y ⟨hc.1, hc.2.1⟩ ⟨y2, y3⟩ (.inr y4) u
      refine ⟨c, _, c1, ?_, c2⟩
      rcases y1 with y1 | y1
      · exact ⟨.left, rfl, by dsimp only; omega⟩
      · exact ⟨.right, rfl, by dsimp only; omega⟩
    · intro x y h1 h2 h3 h4 h5
      exact hfree x y ⟨h1, h2, h3, h4⟩ fun h => h5.elim (fun g => g h.1) fun g => g h.2
    · intro i j h
      exact (hq i j h).2.2
    · intro i j h
      obtain ⟨g1, g2, g3⟩ := hq i j h
      unfold InCore at g3
      obtain ⟨a1, a2, a3⟩ := hin i g1
      obtain ⟨b1, b2, b3⟩ := hin j g2
      exact ⟨next i (by omega) (by omega) (by omega) a1, next j (by omega) (by omega) (by omega) b1⟩
  · obtain ⟨tb, t, E, e, ht, hE, hEpos, hr, hc, hcnt, hq, hout, hclash, hlane, hinner, hlE⟩ := Dense.dense_table n lanes explicit ystates hfit'
    obtain ⟨L, k, eL, hL⟩ := fromGrid_ok (o := o) (rect_toGrid tb) (by omega) (by omega) hclash
    obtain ⟨P, hP, hlane, pf, pl⟩ := hlane hl
    have key := connected (lo := t + 1) (hi := t + E) (tb := tb) (by omega) (by omega) hP hq hlane
    have hfar : L.furthest = ⟨(tb.rows : Int) - 1, (tb.cols : Int) - 1⟩ := by rw [hL.eq]
    have hm' : (if explicit then 5 else 0 : Int) = t := by rw [ht]; cases explicit <;> rfl
    refine ⟨_, _, _, L, k, by unfold makeEdpc; rw [e, Outcome.bind_ok, eL], hL, hcnt, key.1, fun a m ha hm hcor u => ?_⟩
    have hcor := hcor rfl
    obtain ⟨i, j, rfl, hi, hj, hk⟩ : ∃ i j : Nat, m = ⟨i, j⟩ ∧ i < tb.rows ∧ j < tb.cols ∧ (tb.at' i j = .magic ∨ tb.at' i j = .ystate) := by
      rcases hm with hm | hm
      · obtain ⟨i, j, h1, h2, h3, h4⟩ := at_toGrid.1 hm; exact ⟨i, j, h1, h2, h3, .inl h4⟩
      · obtain ⟨i, j, h1, h2, h3, h4⟩ := at_toGrid.1 hm; exact ⟨i, j, h1, h2, h3, .inr h4⟩
    have hc : InCore t (E + 1) i j := by
      refine Classical.byContradiction fun hc => ?_
      rcases hout i j hc with g | g <;> rw [g] at hk <;> simp at hk
    have hb : ¬ (t < i ∧ i < t + E ∧ t < j ∧ j < t + E) := by
      rintro ⟨h1, h2, h3, h4⟩
      rcases hinner i j h1 h2 h3 h4 with g | g <;> rw [g] at hk <;> simp at hk
    unfold InCore at hc
    simp only [Corner] at hcor
    rw [hm', hfar, hr] at hcor
    dsimp only at hcor
    have hcases : (i = t ∧ t < j ∧ j < t + E) ∨ (i = t + E ∧ t < j ∧ j < t + E) ∨ (j = t ∧ t < i ∧ i < t + E) ∨ (j = t + E ∧ t < i ∧ i < t + E) := by omega
    rcases hcases with ⟨h1, h2⟩ | ⟨h1, h2⟩ | ⟨h1, h2⟩ | ⟨h1, h2⟩
    · obtain ⟨c, c1, c2⟩ := key.2 a ha (t + 1) j ⟨by omega, by omega⟩ ⟨h2.1, h2.2⟩ (.inl pf) u
      refine ⟨c, _, c1, ?_, c2⟩
      exact ⟨.bottom, by dsimp only; omega, rfl⟩
    · obtain ⟨c, c1, c2⟩ := key.2 a ha (t + E - 1) j ⟨by omega, by omega⟩ ⟨h2.1, h2.2⟩ (.inl pl) u
      refine ⟨c, _, c1, ?_, c2⟩
      exact ⟨.top, by dsimp only; omega, rfl⟩
    · obtain ⟨c, c1, c2⟩ := key.2 a ha i (t + 1) ⟨h2.1, h2.2⟩ ⟨by omega, by omega⟩ (.inr pf) u
      refine ⟨c, _, c1, ?_, c2⟩
      exact ⟨.right, rfl, by dsimp only; omega⟩
    · obtain ⟨c, c1, c2⟩ := key.2 a ha i (t + E - 1) ⟨h2.1, h2.2⟩ ⟨by omega, by omega⟩ (.inr pl) u
      refine ⟨c, _, c1, ?_, c2⟩
      exact ⟨.left, rfl, by dsimp only; omega⟩

theorem compact_joined (n : Nat) (o : Options) (noClogging : Bool) :
    ∃ g h w L k, makeCompact n o noClogging = .ok L ∧ LayoutOf g o h w L k ∧ (findAll g .qubit).length = n ∧
      ∀ a b, At g a .qubit → At g b .qubit → ∃ c d, Beside true a c ∧ Beside true b d ∧ Joined g .routing c d := by
  obtain ⟨t, e, hr, hc, hq, hmid, hb1, hb2⟩ := compactTable_spec n noClogging
  have hclash : ¬ Clash t.toGrid := by
    rintro ⟨⟨c, hm⟩, d, c', hd⟩
    obtain ⟨i, j, _, _, _, hm⟩ := at_toGrid.1 hm
    obtain ⟨i', j', _, _, _, hd⟩ := at_toGrid.1 hd
    cases noClogging
    · exact hb2 rfl i j hm
    · exact hb1 rfl i' j' d hd
  obtain ⟨L, k, eL, hl⟩ := fromGrid_ok (o := o) (rect_toGrid t) (by omega) (by rw [hc]; split <;> omega) hclash
  refine ⟨_, _, _, L, k, by unfold makeCompact; rw [e, Outcome.bind_ok, eL], hl, compact_count hr hc hq, ?_⟩
  have side : ∀ a, At t.toGrid a .qubit → ∃ j : Nat, j < (n + 1) / 2 ∧ Beside true a ⟨(1 : Nat), j⟩ := by
    intro a ha
    obtain ⟨i, j, rfl, hi, hj, hk⟩ := at_toGrid.1 ha
    rw [hq] at hk
    refine ⟨j, by omega, ?_⟩
    simp only [Beside, if_true, Faces, and_true]
    omega
  intro a b ha hb
  obtain ⟨x, hx, h1⟩ := side a ha
  obtain ⟨y, hy, h2⟩ := side b hb
  exact ⟨_, _, h1, h2, along_row (lo := 0) (hi := (n + 1) / 2) (fun z _ hz => at_toGrid.2 ⟨1, z, rfl, by omega, by omega, hmid z hz⟩) ⟨by omega, hx⟩ ⟨by omega, hy⟩⟩

end Verif.Layouts.Walks

namespace Verif.Layouts.Spec

open Verif.Router.Spec (Faces Touching)

/-- C79: with at least one lane any two qubits of the EDPC layout, condensed or not, can be connected on any of their sides over cells on which nothing is placed. -/
theorem c79_edpc (n lanes : Nat) (condensed explicit ystates : Bool) (o : Options) (hl : 0 < lanes) (hfit : (n.sqrt + 2) * (lanes + 1) + 11 < 2 ^ 64) :
    ∃ L cs, makeEdpc n lanes condensed explicit ystates o = .ok L ∧ Qubits L cs ∧ cs.length = n ∧
      ∀ a ∈ cs, ∀ b ∈ cs, ∀ u v, ∃ c d, Beside u a c ∧ Beside v b d ∧ Free L c d := by
  obtain ⟨g, h, w, L, k, e, hL, hcnt, hj, -⟩ := Walks.edpc_joined n lanes condensed explicit ystates o hl hfit
  refine ⟨L, findAll g .qubit, e, ⟨findAll_nodup _ _, by rw [hL.eq]⟩, hcnt, fun a ha b hb u v => ?_⟩
  obtain ⟨c, d, h1, h2, h3⟩ := hj a b (mem_findAll.1 ha) (mem_findAll.1 hb) u v
  exact ⟨c, d, h1, h2, Walks.free hL h3⟩

/-- Ten qubits with one lane in the condensed layout: the last one's right side can be connected to the first one's upper or lower side. -/
example : ∃ L cs, makeEdpc 10 1 true false true {} = .ok L ∧ Qubits L cs ∧ ∃ a b, cs[0]? = some a ∧ cs[9]? = some b ∧ a ≠ b ∧ ∃ c d, Beside true a c ∧ Beside false b d ∧ Free L c d := by
  obtain ⟨L, cs, h1, h2, h3, h4⟩ := c79_edpc 10 1 true false true {} (by omega) (by
    have : Nat.sqrt 10 ≤ 10 := Nat.sqrt_le_self _
    omega)
  refine ⟨L, cs, h1, h2, cs[0], cs[9], by simp, by simp, ?_, h4 _ (List.getElem_mem _) _ (List.getElem_mem _) true false⟩
  exact fun h => absurd ((List.getElem_inj h2.1).1 h) (by omega)

/-- C79: with at least one lane every qubit of the EDPC layout can be connected, on any of its sides, to every cell for magic states and every Y state. In the condensed layout those in the corners are
left out. -/
theorem c79_states (n lanes : Nat) (condensed explicit ystates : Bool) (o : Options) (hl : 0 < lanes) (hfit : (n.sqrt + 2) * (lanes + 1) + 11 < 2 ^ 64) :
    ∃ L cs, makeEdpc n lanes condensed explicit ystates o = .ok L ∧ Qubits L cs ∧ cs.length = n ∧
      ∀ a ∈ cs, ∀ m, m ∈ L.reserved ∨ m ∈ L.predistilled → (condensed = true → ¬ Corner L.furthest.row (if explicit then 5 else 0) m) →
        ∀ u, ∃ c d, Beside u a c ∧ Touching m d ∧ Free L c d := by
  obtain ⟨g, h, w, L, k, e, hL, hcnt, -, hj⟩ := Walks.edpc_joined n lanes condensed explicit ystates o hl hfit
  refine ⟨L, findAll g .qubit, e, ⟨findAll_nodup _ _, by rw [hL.eq]⟩, hcnt, fun a ha m hm hc u => ?_⟩
  have hm' : At g m .magic ∨ At g m .ystate := by
    rw [hL.eq] at hm
    exact hm.imp mem_findAll.1 mem_findAll.1
  obtain ⟨c, d, h1, h2, h3⟩ := hj a m (mem_findAll.1 ha) hm' hc u
  exact ⟨c, d, h1, h2, Walks.free hL h3⟩

/-- Five qubits with one lane: there are seven cells for magic states and nine for Y states, one of them in the upper left corner. -/
example : ∃ L cs, makeEdpc 5 1 false false true {} = .ok L ∧ Qubits L cs ∧ cs.length = 5 ∧ (⟨0, 0⟩ : Cell) ∈ L.predistilled ∧
    ∀ a ∈ cs, ∀ u, ∃ c d, Beside u a c ∧ Touching ⟨0, 0⟩ d ∧ Free L c d := by
  obtain ⟨L, cs, h1, h2, h3, h4⟩ := c79_states 5 1 false false true {} (by omega) (by
    have : Nat.sqrt 5 ≤ 5 := Nat.sqrt_le_self _
    omega)
  have e := c40_picture 5 3 1 true {} (by omega) (fun r h => by
    refine Nat.le_of_not_lt fun hlt => ?_
    have : r * r ≤ 2 * 2 := Nat.mul_le_mul (by omega) (by omega)
    omega) (by omega)
  rw [h1] at e
  have hp : (⟨0, 0⟩ : Cell) ∈ L.predistilled := by
    obtain ⟨_, _, k, hL⟩ := fromGrid_inv e.symm
    rw [hL.eq]
    exact mem_findAll.2 ⟨0, 0, _, rfl, rfl, rfl⟩
  exact ⟨L, cs, h1, h2, h3, hp, fun a ha u => h4 a ha _ (.inr hp) (fun h => by cases h) u⟩

/-- The condensed layout for five qubits and one lane has cells for magic states and Y states that are not in a corner. -/
example : (match makeEdpc 5 1 true false true {} with
    | .ok L => L.reserved.any (fun m => m.row == 0 && decide (0 < m.col ∧ m.col < L.furthest.col)) && L.predistilled.any (fun m => m.row == 0 && decide (0 < m.col ∧ m.col < L.furthest.col))
    | _ => false) = true := by decide +kernel

/-- C79: any two qubits of the compact layout can be connected above or below them. -/
theorem c79_compact (n : Nat) (o : Options) (noClogging : Bool) :
    ∃ L cs, makeCompact n o noClogging = .ok L ∧ Qubits L cs ∧ cs.length = n ∧
      ∀ a ∈ cs, ∀ b ∈ cs, ∃ c d, Beside true a c ∧ Beside true b d ∧ Free L c d := by
  obtain ⟨g, h, w, L, k, e, hL, hcnt, hj⟩ := Walks.compact_joined n o noClogging
  refine ⟨L, findAll g .qubit, e, ⟨findAll_nodup _ _, by rw [hL.eq]⟩, hcnt, fun a ha b hb => ?_⟩
  obtain ⟨c, d, h1, h2, h3⟩ := hj a b (mem_findAll.1 ha) (mem_findAll.1 hb)
  exact ⟨c, d, h1, h2, Walks.free hL h3⟩

/-- Three qubits in the compact layout: the one below can be connected to the second one above. -/
example : ∃ L cs, makeCompact 3 {} true = .ok L ∧ Qubits L cs ∧ ∃ a b, cs[1]? = some a ∧ cs[2]? = some b ∧ ∃ c d, Beside true a c ∧ Beside true b d ∧ Free L c d := by
  obtain ⟨L, cs, h1, h2, h3, h4⟩ := c79_compact 3 {} true
  exact ⟨L, cs, h1, h2, cs[1], cs[2], by simp, by simp, h4 _ (List.getElem_mem _) _ (List.getElem_mem _)⟩

/-- C79 fails without lanes, which the command line allows: the qubit in the middle of nine has no free cell beside it. -/
theorem c79_no_lanes : ∃ L cs, makeEdpc 9 0 false false true {} = .ok L ∧ Qubits L cs ∧ ∃ a ∈ cs, ∀ u c, Beside u a c → ¬ Vacant L c := by
  have key : edpcPicture 9 3 0 true =
      [[.ystate, .magic, .ystate, .magic, .ystate], [.magic, .qubit, .qubit, .qubit, .magic], [.ystate, .qubit, .qubit, .qubit, .ystate], [.magic, .qubit, .qubit, .qubit, .magic],
        [.ystate, .magic, .ystate, .magic, .ystate]] := by decide +kernel
  have e := c40_picture 9 3 0 true {} (by omega) (fun r h => by
    refine Nat.le_of_not_lt fun hlt => ?_
    have : r * r ≤ 2 * 2 := Nat.mul_le_mul (by omega) (by omega)
    omega) (by omega)
  rw [key] at e
  obtain ⟨L, hL, hc⟩ : ∃ L, makeEdpc 9 0 false false true {} = .ok L ∧
      L.core = [⟨1, 1⟩, ⟨1, 2⟩, ⟨1, 3⟩, ⟨2, 1⟩, ⟨2, 2⟩, ⟨2, 3⟩, ⟨3, 1⟩, ⟨3, 2⟩, ⟨3, 3⟩].map fun c => basicSquare c none none := by
    rw [e]; exact ⟨_, rfl, rfl⟩
  refine ⟨L, _, hL, ⟨by decide, hc⟩, ⟨2, 2⟩, by decide, fun u c hb hv => ?_⟩
  have hin : c ∈ ([⟨1, 1⟩, ⟨1, 2⟩, ⟨1, 3⟩, ⟨2, 1⟩, ⟨2, 2⟩, ⟨2, 3⟩, ⟨3, 1⟩, ⟨3, 2⟩, ⟨3, 3⟩] : List Cell) := by
    obtain ⟨x, y⟩ := c
    cases u
    · simp only [Beside, Bool.false_eq_true, if_false, Faces] at hb
      rcases hb with ⟨rfl, rfl⟩ | ⟨rfl, rfl⟩ <;> decide
    · simp only [Beside, if_true, Faces] at hb
      rcases hb with ⟨rfl, rfl⟩ | ⟨rfl, rfl⟩ <;> decide
  exact hv.2.1 (basicSquare c none none) (by rw [hc]; exact List.mem_map_of_mem hin) _ rfl rfl

end Verif.Layouts.Spec
