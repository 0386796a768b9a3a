import Verif.LayoutRegions

/-!
# Layouts: the generated grids
-/

namespace Verif.Layouts

open Spec
open Verif.Router.Spec (Touching Faces OnGrid)

/-! ## Tables -/

theorem at_toGrid {t : Table} {c : Cell} {k : CellType} :
    At t.toGrid c k ↔ ∃ i j : Nat, c = ⟨i, j⟩ ∧ i < t.rows ∧ j < t.cols ∧ t.at' i j = k := by
  unfold At Table.toGrid
  constructor
  · rintro ⟨i, j, r, e, h1, h2⟩
    rw [List.getElem?_map] at h1
    obtain ⟨i', h3, rfl⟩ := Option.map_eq_some_iff.1 h1
    rw [List.getElem?_map] at h2
    obtain ⟨j', h4, rfl⟩ := Option.map_eq_some_iff.1 h2
    obtain ⟨h5, h6⟩ := List.getElem?_eq_some_iff.1 h3
    obtain ⟨h7, h8⟩ := List.getElem?_eq_some_iff.1 h4
    simp at h5 h6 h7 h8
    subst h6; subst h8
    exact ⟨i, j, e, h5, h7, rfl⟩
  · rintro ⟨i, j, rfl, h1, h2, rfl⟩
    exact ⟨i, j, (List.range t.cols).map fun j => t.at' i j, rfl, by simp [h1], by simp [h2]⟩

theorem rect_toGrid (t : Table) : Rect t.toGrid t.rows t.cols := by
  unfold Rect Table.toGrid
  simp

/-- All positions of a table. -/
def Table.spots (t : Table) : List (Nat × Nat) := (List.range t.rows).flatMap fun i => (List.range t.cols).map fun j => (i, j)

theorem mem_spots {t : Table} {p : Nat × Nat} : p ∈ t.spots ↔ p.1 < t.rows ∧ p.2 < t.cols := by
  unfold Table.spots
  simp only [List.mem_flatMap, List.mem_map, List.mem_range]
  constructor
  · rintro ⟨i, hi, j, hj, rfl⟩; exact ⟨hi, hj⟩
  · rintro ⟨h1, h2⟩; exact ⟨p.1, h1, p.2, h2, rfl⟩

theorem nodup_pairs {is js : List Nat} (h1 : is.Nodup) (h2 : js.Nodup) : (is.flatMap fun i => js.map fun j => (i, j)).Nodup := by
  induction is with
  | nil => simp
  | cons i is ih =>
    rw [List.flatMap_cons, List.nodup_append]
    rw [List.nodup_cons] at h1
    refine ⟨?_, ih h1.2, ?_⟩
    · rw [List.Nodup, List.pairwise_map]
      exact List.Pairwise.imp (fun h e => h (by simpa using e)) h2
    · intro a ha b hb e
      subst e
      obtain ⟨j, _, rfl⟩ := List.mem_map.1 ha
      obtain ⟨i', hi', hb'⟩ := List.mem_flatMap.1 hb
      obtain ⟨j', _, e'⟩ := List.mem_map.1 hb'
      cases e'
      exact h1.1 hi'

theorem spots_nodup (t : Table) : t.spots.Nodup := nodup_pairs List.nodup_range List.nodup_range

theorem findAll_toGrid (t : Table) (k : CellType) : (findAll t.toGrid k).length = t.spots.countP fun p => t.at' p.1 p.2 = k := by
  rw [findAll_length]
  unfold Table.toGrid Table.spots
  rw [List.countP_flatMap, List.map_map]
  congr 1
  apply List.map_congr_left
  intro i _
  simp only [Function.comp_apply, List.count, List.countP_map]
  apply List.countP_congr
  intro j _
  simp

theorem countP_flip {α : Type} {l : List α} {p q : α → Bool} {a : α} (hn : l.Nodup) (ha : a ∈ l) (h1 : p a = false) (h2 : q a = true)
    (h : ∀ x, x ≠ a → q x = p x) : l.countP q = l.countP p + 1 := by
  induction l with
  | nil => cases ha
  | cons x xs ih =>
    rw [List.nodup_cons] at hn
    rw [List.countP_cons, List.countP_cons]
    rcases List.mem_cons.1 ha with rfl | ha
    · have : xs.countP q = xs.countP p := by
        apply List.countP_congr
        intro y hy
        rw [h y (by rintro rfl; exact hn.1 hy)]
      rw [this, h1, h2]; simp
    · have hx : x ≠ a := by rintro rfl; exact hn.1 ha
      rw [ih hn.2 ha, h x hx]; omega

/-! ## The compact layout -/

theorem countP_lt (k m : Nat) : (List.range m).countP (fun j => decide (j < k)) = min k m := by
  induction m with
  | zero => simp
  | succ m ih =>
    rw [List.range_succ, List.countP_append, ih]
    by_cases h : m < k
    · simp [h]; omega
    · simp [h]; omega

theorem fill_ok {t : Table} {i j n : Nat} {v : CellType} (h1 : i < t.rows) (h2 : j + n ≤ t.cols) : t.fill i j n v = .ok (t.filled i j n v) := by
  rw [Table.fill, if_pos h1, if_pos h2]

theorem putAt_ok {t : Table} {i j : Nat} {v : CellType} (h1 : i < t.rows) (h2 : j < t.cols) : t.putAt i j v = .ok (t.write i j v) := by
  rw [Table.putAt, if_pos ⟨h1, h2⟩]

@[simp] theorem filled_rows (t : Table) (i j n : Nat) (v : CellType) : (t.filled i j n v).rows = t.rows := rfl
@[simp] theorem filled_cols (t : Table) (i j n : Nat) (v : CellType) : (t.filled i j n v).cols = t.cols := rfl
@[simp] theorem write_rows (t : Table) (i j : Nat) (v : CellType) : (t.write i j v).rows = t.rows := rfl
@[simp] theorem write_cols (t : Table) (i j : Nat) (v : CellType) : (t.write i j v).cols = t.cols := rfl
@[simp] theorem fresh_rows (r c : Nat) : (Table.fresh r c).rows = r := rfl
@[simp] theorem fresh_cols (r c : Nat) : (Table.fresh r c).cols = c := rfl

theorem compactTable_spec (n : Nat) (b : Bool) : ∃ t, compactTable n b = .ok t ∧ t.rows = 3 ∧ t.cols = (n + 1) / 2 + (3 + if b then 0 else 5) ∧
    (∀ i j, t.at' i j = .qubit ↔ (i = 0 ∧ j < (n + 1) / 2) ∨ (i = 2 ∧ j < n - (n + 1) / 2)) ∧
    (∀ j, j < (n + 1) / 2 → t.at' 1 j = .routing) ∧
    (b = true → ∀ i j d, t.at' i j ≠ .distillation d) ∧ (b = false → ∀ i j, t.at' i j ≠ .magic) := by
  cases b
  · unfold compactTable
    dsimp only
    simp only [Bool.false_eq_true, if_false]
    rw [fill_ok (by simp) (by simp), Outcome.bind_ok, fill_ok (by simp) (by simp; omega), Outcome.bind_ok, putAt_ok (by simp) (by simp),
      Outcome.bind_ok, putAt_ok (by simp) (by simp), Outcome.bind_ok, fill_ok (by simp) (by simp), Outcome.bind_ok,
      fill_ok (by simp) (by simp), Outcome.bind_ok, fill_ok (by simp) (by simp)]
    refine ⟨_, rfl, rfl, rfl, ?_, ?_, by simp, ?_⟩
    · intro i j
      simp only [Table.filled, Table.write, Table.fresh]
      repeat' split
      all_goals simp
      all_goals omega
    · intro j hj
      simp only [Table.filled, Table.write, Table.fresh]
      repeat' split
      all_goals first | rfl | omega
    · intro _ i j
      simp only [Table.filled, Table.write, Table.fresh]
      repeat' split
      all_goals simp
  · unfold compactTable
    dsimp only
    simp only [if_true]
    rw [fill_ok (by simp) (by simp), Outcome.bind_ok, fill_ok (by simp) (by simp; omega), Outcome.bind_ok, putAt_ok (by simp) (by simp),
      Outcome.bind_ok, putAt_ok (by simp) (by simp)]
    refine ⟨_, rfl, rfl, rfl, ?_, ?_, ?_, by simp⟩
    · intro i j
      simp only [Table.filled, Table.write, Table.fresh]
      repeat' split
      all_goals simp
      all_goals omega
    · intro j hj
      simp only [Table.filled, Table.write, Table.fresh]
      repeat' split
      all_goals first | rfl | omega
    · intro _ i j d
      simp only [Table.filled, Table.write, Table.fresh]
      repeat' split
      all_goals simp

theorem compact_count {n : Nat} {t : Table} {x : Nat} (hr : t.rows = 3) (hc : t.cols = (n + 1) / 2 + x)
    (hq : ∀ i j, t.at' i j = .qubit ↔ (i = 0 ∧ j < (n + 1) / 2) ∨ (i = 2 ∧ j < n - (n + 1) / 2)) :
    (findAll t.toGrid .qubit).length = n := by
  rw [findAll_toGrid]
  unfold Table.spots
  rw [List.countP_flatMap, hr]
  have e0 : ((List.range t.cols).map fun j => (0, j)).countP (fun p => decide (t.at' p.1 p.2 = .qubit)) = (n + 1) / 2 := by
    rw [List.countP_map]
    have := countP_lt ((n + 1) / 2) t.cols
    rw [Nat.min_eq_left (by omega)] at this
    rw [← this]
    apply List.countP_congr
    intro j _
    simp [hq]
  have e1 : ((List.range t.cols).map fun j => (1, j)).countP (fun p => decide (t.at' p.1 p.2 = .qubit)) = 0 := by
    rw [List.countP_map, List.countP_eq_zero]
    intro j _
    simp [hq]
  have e2 : ((List.range t.cols).map fun j => (2, j)).countP (fun p => decide (t.at' p.1 p.2 = .qubit)) = n - (n + 1) / 2 := by
    rw [List.countP_map]
    have := countP_lt (n - (n + 1) / 2) t.cols
    rw [Nat.min_eq_left (by omega)] at this
    rw [← this]
    apply List.countP_congr
    intro j _
    simp [hq]
  have er : List.range 3 = [0, 1, 2] := rfl
  rw [er]
  simp only [List.map_cons, List.map_nil, List.sum_cons, List.sum_nil, Function.comp_apply, e0, e1, e2]
  omega

/-! ## The EDPC layout -/

theorem le_ceilSqrt (n : Nat) : n ≤ ceilSqrt n * ceilSqrt n := by
  unfold ceilSqrt
  split
  · omega
  · exact Nat.le_of_lt (Nat.sqrt_lt.1 (Nat.lt_succ_self _))

theorem ceilSqrt_le (n : Nat) : ceilSqrt n ≤ n.sqrt + 1 := by
  unfold ceilSqrt; split <;> omega

theorem wrap_nat {x : Nat} (h : x < 2 ^ 64) : wrap x = x := by
  unfold wrap
  have : ((x : Int) % 2 ^ 64) = x := Int.emod_eq_of_lt (by omega) (by omega)
  rw [this]; simp

theorem coreSide_eq {n lanes : Nat} (h : (ceilSqrt n + 1) * (lanes + 1) + 1 < 2 ^ 64) :
    coreSide n lanes false = (ceilSqrt n + 1) * (lanes + 1) + 1 := by
  unfold coreSide
  simp only [Bool.false_eq_true, if_false, Nat.sub_zero]
  have : ((ceilSqrt n : Int) + lanes * ((ceilSqrt n : Int) - 1) + 2 * lanes + 2) = (((ceilSqrt n + 1) * (lanes + 1) + 1 : Nat) : Int) := by
    push_cast
    rw [Int.mul_sub, Int.add_mul, Int.mul_add]
    have := Int.mul_comm (lanes : Int) (ceilSqrt n : Int)
    omega
  rw [this, wrap_nat h]

theorem onLattice_eq {x t lanes : Nat} (h1 : t ≤ x) (h2 : x < 2 ^ 64) : onLattice x t lanes false 0 = decide ((x - t) % (lanes + 1) = 0) := by
  unfold onLattice
  simp only [Bool.false_eq_true, if_false]
  have : ((x : Int) - t - ((1 - (0 : Int)) * (0 : Nat) + 0) * (lanes + 1 + (1 - 0))) = ((x - t : Nat) : Int) := by
    have e : ((1 - (0 : Int)) * (0 : Nat) + 0) = 0 := by simp
    rw [e, Int.zero_mul]; omega
  have e2 : wrap ((x : Int) - t - ((1 - ((0 : Nat) : Int)) * (0 : Nat) + ((0 : Nat) : Int)) * (lanes + 1 + (1 - ((0 : Nat) : Int)))) = x - t := by
    have := wrap_nat (x := x - t) (by omega)
    rw [← this]
    congr 1
  simp at e2 ⊢
  rw [e2]
  norm_cast

/-- On the lattice of patches in one direction. -/
def onAx (t m x : Nat) : Bool := decide ((x - t) % m = 0)

/-- Strictly inside the core in one direction. -/
def innerAx (t m core x : Nat) : Bool := onAx t m x && decide (x ≠ t) && decide (x ≠ t + core - 1)

theorem count_multiples {m : Nat} (hm : 0 < m) (s : Nat) : (List.range ((s + 1) * m)).countP (fun x => decide (x % m = 0) && decide (x ≠ 0)) = s := by
  induction s with
  | zero =>
    rw [List.countP_eq_zero]
    intro x hx
    simp at hx ⊢
    rw [Nat.mod_eq_of_lt hx]; exact id
  | succ s ih =>
    rw [Nat.succ_mul (s + 1), List.range_add, List.countP_append, ih, List.countP_map]
    obtain ⟨m', rfl⟩ : ∃ m', m = m' + 1 := ⟨m - 1, by omega⟩
    rw [List.range_succ_eq_map, List.countP_cons, List.countP_map]
    have h0 : List.countP (((fun x => decide (x % (m' + 1) = 0) && decide (x ≠ 0)) ∘ fun x => (s + 1) * (m' + 1) + x) ∘ Nat.succ) (List.range m') = 0 := by
      rw [List.countP_eq_zero]
      intro x hx
      simp at hx ⊢
      rw [Nat.mod_eq_of_lt (by omega)]
      omega
    rw [h0]
    have h1 : (s + 1) * (m' + 1) ≠ 0 := by simp
    simp

theorem count_inner {t m sr : Nat} (hm : 0 < m) :
    (List.range' t ((sr + 1) * m + 1)).countP (innerAx t m ((sr + 1) * m + 1)) = sr := by
  rw [List.range'_eq_map_range, List.countP_map, List.range_succ, List.countP_append]
  rw [List.countP_singleton]
  have e1 : List.countP (innerAx t m ((sr + 1) * m + 1) ∘ fun x => t + x) (List.range ((sr + 1) * m)) =
      (List.range ((sr + 1) * m)).countP (fun x => decide (x % m = 0) && decide (x ≠ 0)) := by
    apply List.countP_congr
    intro x hx
    simp [innerAx, onAx] at hx ⊢
    omega
  rw [e1, count_multiples hm]
  simp [innerAx]

theorem count_inner2 {t m sr : Nat} (hm : 0 < m) :
    ((List.range' t ((sr + 1) * m + 1)).flatMap fun i => (List.range' t ((sr + 1) * m + 1)).map fun j => (i, j)).countP
      (fun p => innerAx t m ((sr + 1) * m + 1) p.1 && innerAx t m ((sr + 1) * m + 1) p.2) = sr * sr := by
  rw [List.countP_flatMap]
  have key : ∀ l : List Nat, (l.map ((List.countP fun p => innerAx t m ((sr + 1) * m + 1) p.1 && innerAx t m ((sr + 1) * m + 1) p.2) ∘
      fun i => (List.range' t ((sr + 1) * m + 1)).map fun j => (i, j))).sum = l.countP (innerAx t m ((sr + 1) * m + 1)) * sr := by
    intro l
    induction l with
    | nil => simp
    | cons x xs ih =>
      rw [List.map_cons, List.sum_cons, ih, List.countP_cons]
      simp only [Function.comp_apply, List.countP_map]
      cases hx : innerAx t m ((sr + 1) * m + 1) x with
      | false =>
        have : List.countP ((fun p : Nat × Nat => innerAx t m ((sr + 1) * m + 1) p.1 && innerAx t m ((sr + 1) * m + 1) p.2) ∘ fun j => (x, j))
            (List.range' t ((sr + 1) * m + 1)) = 0 := by
          rw [List.countP_eq_zero]; intro y _; simp [hx]
        rw [this]; simp
      | true =>
        have : List.countP ((fun p : Nat × Nat => innerAx t m ((sr + 1) * m + 1) p.1 && innerAx t m ((sr + 1) * m + 1) p.2) ∘ fun j => (x, j))
            (List.range' t ((sr + 1) * m + 1)) = sr := by
          refine Eq.trans ?_ (count_inner (t := t) (sr := sr) hm)
          apply List.countP_congr; intro y _; simp [hx]
        rw [this]
        simp [Nat.add_mul]; omega
  rw [key, count_inner hm]

/-- What holds while the patches are being placed; `done` are the positions visited. -/
structure Lay (n m t core : Nat) (done : List (Nat × Nat)) (s : Place) : Prop where
  rows : s.table.rows = core + 2 * t
  cols : s.table.cols = core + 2 * t
  shiftV : s.shiftV = false
  shiftH : s.shiftH = false
  rowsLost : s.rowsLost = 0
  rowLost : s.rowLost = false
  colsLost : s.colsLost = 0
  fresh : ∀ i j, (i, j) ∉ done → s.table.at' i j = .routing
  off : ∀ i j, ¬ (onAx t m i = true ∧ onAx t m j = true) → s.table.at' i j = .routing
  rim : ∀ i j, s.table.at' i j ≠ .routing → ¬ (innerAx t m core i = true ∧ innerAx t m core j = true) → s.table.at' i j = .ystate
  inner : ∀ i j, innerAx t m core i = true → innerAx t m core j = true → s.table.at' i j = .qubit ∨ s.table.at' i j = .routing
  count : s.table.spots.countP (fun p => s.table.at' p.1 p.2 = .qubit) = s.placed
  placed : s.placed = min n (done.countP fun p => innerAx t m core p.1 && innerAx t m core p.2)

theorem placeCell_spec {n lanes t core : Nat} {done : List (Nat × Nat)} {s : Place} {i j : Nat} (hs : Lay n (lanes + 1) t core done s)
    (hfit : core + 2 * t < 2 ^ 64) (hi : t ≤ i ∧ i < t + core) (hj : t ≤ j ∧ j < t + core) (hnew : (i, j) ∉ done) :
    ∃ s', placeCell n lanes t false i j s = .ok s' ∧ Lay n (lanes + 1) t core (done ++ [(i, j)]) s' := by
  unfold placeCell
  rw [hs.shiftV, hs.shiftH, hs.rowsLost, hs.colsLost, onLattice_eq hi.1 (by omega), onLattice_eq hj.1 (by omega)]
  have hold := hs.fresh i j hnew
  have hmem : (i, j) ∈ s.table.spots := mem_spots.2 ⟨by rw [hs.rows]; dsimp only; omega, by rw [hs.cols]; dsimp only; omega⟩
  have hin : i < s.table.rows ∧ j < s.table.cols := ⟨by rw [hs.rows]; omega, by rw [hs.cols]; omega⟩
  have hfr : ∀ (a b : Nat), (a, b) ∉ done ++ [(i, j)] → s.table.at' a b = .routing ∧ ¬ (a = i ∧ b = j) := by
    intro a b hab
    simp only [List.mem_append, List.mem_singleton, Prod.mk.injEq, not_or] at hab
    exact ⟨hs.fresh a b hab.1, hab.2⟩
  have edge : (i = t ∨ j = t ∨ i = s.table.rows - t - 1 ∨ j = s.table.cols - t - 1) ↔
      (i = t ∨ j = t ∨ i = t + core - 1 ∨ j = t + core - 1) := by
    rw [hs.rows, hs.cols]
    constructor <;> intro h <;> omega
  cases hlat : decide ((i - t) % (lanes + 1) = 0) && decide ((j - t) % (lanes + 1) = 0) with
  | false =>
    rw [if_neg (by simp)]
    refine ⟨s, rfl, ⟨hs.rows, hs.cols, hs.shiftV, hs.shiftH, hs.rowsLost, hs.rowLost, hs.colsLost, fun a b h => (hfr a b h).1, hs.off, hs.rim, hs.inner,
      hs.count, ?_⟩⟩
    rw [hs.placed, List.countP_append]
    congr 1
    have : (innerAx t (lanes + 1) core i && innerAx t (lanes + 1) core j) = false := by
      simp only [innerAx, onAx]
      revert hlat
      cases decide ((i - t) % (lanes + 1) = 0) <;> cases decide ((j - t) % (lanes + 1) = 0) <;> simp
    rw [List.countP_singleton]
    simp [this]
  | true =>
    rw [if_pos rfl]
    simp only [Bool.and_eq_true, decide_eq_true_eq] at hlat
    have hoi : onAx t (lanes + 1) i = true := by simp [onAx, hlat.1]
    have hoj : onAx t (lanes + 1) j = true := by simp [onAx, hlat.2]
    by_cases hb : i = t ∨ j = t ∨ i = t + core - 1 ∨ j = t + core - 1
    · rw [if_pos (edge.2 hb), Table.put, if_pos hin, Outcome.bind_ok]
      have hni : ¬ (innerAx t (lanes + 1) core i = true ∧ innerAx t (lanes + 1) core j = true) := by
        simp only [innerAx, Bool.and_eq_true, decide_eq_true_eq]
        omega
      refine ⟨_, rfl, ⟨hs.rows, hs.cols, rfl, rfl, rfl, hs.rowLost, rfl, ?_, ?_, ?_, ?_, ?_, ?_⟩⟩
      · intro a b h
        show (if a = i ∧ b = j then CellType.ystate else s.table.at' a b) = _
        rw [if_neg (hfr a b h).2]; exact (hfr a b h).1
      · intro a b h
        show (if a = i ∧ b = j then CellType.ystate else s.table.at' a b) = _
        rw [if_neg (by rintro ⟨rfl, rfl⟩; exact h ⟨hoi, hoj⟩)]
        exact hs.off a b h
      · intro a b
        show (if a = i ∧ b = j then CellType.ystate else s.table.at' a b) ≠ _ → _ → (if a = i ∧ b = j then CellType.ystate else s.table.at' a b) = _
        split
        · intros; rfl
        · exact hs.rim a b
      · intro a b h1 h2
        show (if a = i ∧ b = j then CellType.ystate else s.table.at' a b) = _ ∨ (if a = i ∧ b = j then CellType.ystate else s.table.at' a b) = _
        rw [if_neg (by rintro ⟨rfl, rfl⟩; exact hni ⟨h1, h2⟩)]
        exact hs.inner a b h1 h2
      · show s.table.spots.countP _ = s.placed
        rw [← hs.count]
        apply List.countP_congr
        rintro ⟨a, b⟩ _
        simp only [Table.write, decide_eq_true_eq]
        by_cases h : a = i ∧ b = j
        · obtain ⟨rfl, rfl⟩ := h; simp [hold]
        · simp [h]
      · show s.placed = _
        rw [hs.placed, List.countP_append, List.countP_singleton]
        congr 1
        rw [if_neg (by simpa using hni)]; rfl
    · rw [if_neg (fun h => hb (edge.1 h))]
      have hii : innerAx t (lanes + 1) core i = true := by
        simp only [innerAx, Bool.and_eq_true, decide_eq_true_eq]; exact ⟨⟨hoi, by omega⟩, by omega⟩
      have hij : innerAx t (lanes + 1) core j = true := by
        simp only [innerAx, Bool.and_eq_true, decide_eq_true_eq]; exact ⟨⟨hoj, by omega⟩, by omega⟩
      have hcnt : (done ++ [(i, j)]).countP (fun p => innerAx t (lanes + 1) core p.1 && innerAx t (lanes + 1) core p.2) =
          done.countP (fun p => innerAx t (lanes + 1) core p.1 && innerAx t (lanes + 1) core p.2) + 1 := by
        rw [List.countP_append, List.countP_singleton]; simp [hii, hij]
      by_cases hp : s.placed < n
      · rw [if_pos hp, Table.put, if_pos hin, Outcome.bind_ok]
        refine ⟨_, rfl, ⟨hs.rows, hs.cols, rfl, rfl, rfl, hs.rowLost, rfl, ?_, ?_, ?_, ?_, ?_, ?_⟩⟩
        · intro a b h
          show (if a = i ∧ b = j then CellType.qubit else s.table.at' a b) = _
          rw [if_neg (hfr a b h).2]; exact (hfr a b h).1
        · intro a b h
          show (if a = i ∧ b = j then CellType.qubit else s.table.at' a b) = _
          rw [if_neg (by rintro ⟨rfl, rfl⟩; exact h ⟨hoi, hoj⟩)]
          exact hs.off a b h
        · intro a b
          show (if a = i ∧ b = j then CellType.qubit else s.table.at' a b) ≠ _ → _ → (if a = i ∧ b = j then CellType.qubit else s.table.at' a b) = _
          split
          · rename_i h; obtain ⟨rfl, rfl⟩ := h; intro _ h; exact absurd ⟨hii, hij⟩ h
          · exact hs.rim a b
        · intro a b h1 h2
          show (if a = i ∧ b = j then CellType.qubit else s.table.at' a b) = _ ∨ (if a = i ∧ b = j then CellType.qubit else s.table.at' a b) = _
          split
          · left; rfl
          · exact hs.inner a b h1 h2
        · show s.table.spots.countP _ = s.placed + 1
          rw [← hs.count]
          apply countP_flip (a := (i, j)) (spots_nodup _) hmem
          · simp [hold]
          · simp [Table.write]
          · rintro ⟨a, b⟩ h
            have : ¬ (a = i ∧ b = j) := by rintro ⟨rfl, rfl⟩; exact h rfl
            simp [Table.write, this]
        · show s.placed + 1 = _
          rw [hcnt]
          have := hs.placed
          omega
      · rw [if_neg hp]
        have he : endPair lanes t i j s = s := by
          have h1 : ({ s with shiftH := false } : Place) = s := by rw [← hs.shiftH]
          have h2 : ({ s with shiftV := false } : Place) = s := by rw [← hs.shiftV]
          unfold endPair
          simp only [h1, ite_self, h2]
        rw [he]
        refine ⟨s, rfl, ⟨hs.rows, hs.cols, hs.shiftV, hs.shiftH, hs.rowsLost, hs.rowLost, hs.colsLost, fun a b h => (hfr a b h).1, hs.off, hs.rim,
          hs.inner, hs.count, ?_⟩⟩
        rw [hcnt]
        have := hs.placed
        omega

theorem placeRow_spec {n lanes t core i : Nat} (hfit : core + 2 * t < 2 ^ 64) (hi : t ≤ i ∧ i < t + core) :
    ∀ {js : List Nat} {done : List (Nat × Nat)} {s : Place}, Lay n (lanes + 1) t core done s → js.Nodup → (∀ j ∈ js, t ≤ j ∧ j < t + core) →
      (∀ j ∈ js, (i, j) ∉ done) → ∃ s', placeRow n lanes t false i js s = .ok s' ∧ Lay n (lanes + 1) t core (done ++ js.map fun j => (i, j)) s'
  | [], done, s, hs, _, _, _ => ⟨s, rfl, by simpa using hs⟩
  | j :: js, done, s, hs, hn, hj, hd => by
    rw [List.nodup_cons] at hn
    obtain ⟨s1, e1, h1⟩ := placeCell_spec hs hfit hi (hj j (by simp)) (hd j (by simp))
    obtain ⟨s2, e2, h2⟩ := placeRow_spec (js := js) hfit hi h1 hn.2 (fun x hx => hj x (by simp [hx])) (by
      intro x hx hm
      rcases List.mem_append.1 hm with hm | hm
      · exact hd x (by simp [hx]) hm
      · simp at hm; subst hm; exact hn.1 hx)
    exact ⟨s2, by rw [placeRow, e1, Outcome.bind_ok, e2], by simpa using h2⟩

theorem placeRows_spec {n lanes t core : Nat} (hfit : core + 2 * t < 2 ^ 64) {js : List Nat} (hjn : js.Nodup) (hj : ∀ j ∈ js, t ≤ j ∧ j < t + core) :
    ∀ {is : List Nat} {done : List (Nat × Nat)} {s : Place}, Lay n (lanes + 1) t core done s → is.Nodup → (∀ i ∈ is, t ≤ i ∧ i < t + core) →
      (∀ i ∈ is, ∀ j, (i, j) ∉ done) →
      ∃ s', placeRows n lanes t false js is s = .ok s' ∧ Lay n (lanes + 1) t core (done ++ is.flatMap fun i => js.map fun j => (i, j)) s'
  | [], done, s, hs, _, _, _ => ⟨s, rfl, by simpa using hs⟩
  | i :: is, done, s, hs, hn, hi, hd => by
    rw [List.nodup_cons] at hn
    have hs0 : ({ s with rowLost := false, colsLost := 0 } : Place) = s := by rw [← hs.rowLost, ← hs.colsLost]
    obtain ⟨s1, e1, h1⟩ := placeRow_spec (js := js) hfit (hi i (by simp)) hs hjn hj (fun j _ => hd i (by simp) j)
    have hs1 : ({ s1 with rowsLost := s1.rowsLost + if s1.rowLost then 1 else 0 } : Place) = s1 := by
      have : (if s1.rowLost then 1 else 0) = 0 := by rw [h1.rowLost]; rfl
      rw [this]; rfl
    obtain ⟨s2, e2, h2⟩ := placeRows_spec (js := js) hfit hjn hj h1 hn.2 (fun x hx => hi x (by simp [hx])) (by
      intro x hx y hm
      rcases List.mem_append.1 hm with hm | hm
      · exact hd x (by simp [hx]) y hm
      · simp at hm; obtain ⟨_, rfl⟩ := hm; exact hn.1 hx)
    exact ⟨s2, by rw [placeRows, hs0, e1, Outcome.bind_ok, hs1, e2], by simpa using h2⟩

theorem lay_start (n m t core : Nat) : Lay n m t core [] { table := Table.fresh (core + 2 * t) (core + 2 * t) } := by
  refine ⟨rfl, rfl, rfl, rfl, rfl, rfl, rfl, fun _ _ _ => rfl, fun _ _ _ => rfl, fun _ _ h => absurd rfl h, fun _ _ _ _ => .inr rfl, ?_, by simp⟩
  show List.countP _ _ = 0
  rw [List.countP_eq_zero]
  intro p _
  simp [Table.fresh]

/-! ### Edges -/

def InCore (t core i j : Nat) : Prop := t ≤ i ∧ i < t + core ∧ t ≤ j ∧ j < t + core

/-- What the edges may change. -/
structure Tame (t core : Nat) (e : Bool) (a b : Table) : Prop where
  rows : b.rows = a.rows
  cols : b.cols = a.cols
  cell : ∀ i j, b.at' i j = a.at' i j ∨ (InCore t core i j ∧ a.at' i j = .ystate ∧ b.at' i j = if e then .routing else .magic) ∨
    (¬ InCore t core i j ∧ e = true ∧ b.at' i j = .distillation 0)

theorem Tame.refl {t core : Nat} {e : Bool} {a : Table} : Tame t core e a a := ⟨rfl, rfl, fun _ _ => .inl rfl⟩

theorem Tame.trans {t core : Nat} {e : Bool} {a b c : Table} (h1 : Tame t core e a b) (h2 : Tame t core e b c) : Tame t core e a c := by
  refine ⟨h2.rows.trans h1.rows, h2.cols.trans h1.cols, fun i j => ?_⟩
  rcases h1.cell i j with h | ⟨h, h', h''⟩ | ⟨h, h', h''⟩ <;> rcases h2.cell i j with g | ⟨g, g', g''⟩ | ⟨g, g', g''⟩
  · exact .inl (g.trans h)
  · exact .inr (.inl ⟨g, h ▸ g', g''⟩)
  · exact .inr (.inr ⟨g, g', g''⟩)
  · exact .inr (.inl ⟨h, h', g.trans h''⟩)
  · exact .inr (.inl ⟨h, h', g''⟩)
  · exact absurd h g
  · exact .inr (.inr ⟨h, h', g.trans h''⟩)
  · exact absurd g h
  · exact .inr (.inr ⟨g, g', g''⟩)

theorem putAll_spec {t core : Nat} {e : Bool} : ∀ {ps : List (Nat × Nat)} {a : Table},
    (∀ p ∈ ps, e = true ∧ p.1 < a.rows ∧ p.2 < a.cols ∧ ¬ InCore t core p.1 p.2) → ∃ b, putAll (.distillation 0) ps a = .ok b ∧ Tame t core e a b
  | [], a, _ => ⟨a, rfl, .refl⟩
  | p :: ps, a, h => by
    obtain ⟨h1, h2, h3, h4⟩ := h p (by simp)
    have hw : Tame t core e a (a.write p.1 p.2 (.distillation 0)) := by
      refine ⟨rfl, rfl, fun i j => ?_⟩
      show (if i = p.1 ∧ j = p.2 then _ else _) = _ ∨ _
      by_cases hp : i = p.1 ∧ j = p.2
      · obtain ⟨rfl, rfl⟩ := hp
        exact .inr (.inr ⟨h4, h1, by simp [Table.write]⟩)
      · exact .inl (if_neg hp)
    obtain ⟨b, e', hb⟩ := putAll_spec (t := t) (core := core) (e := e) (ps := ps) (a := a.write p.1 p.2 (.distillation 0)) (by
      intro q hq
      exact h q (by simp [hq]))
    exact ⟨b, by rw [putAll, Table.put, if_pos ⟨h2, h3⟩, Outcome.bind_ok, e'], hw.trans hb⟩

theorem edge_spec {t core : Nat} {e pre : Bool} {blk : Nat × Nat → List (Nat × Nat)} : ∀ {ps : List (Nat × Nat)} {a : Table} {k : Nat},
    (∀ p ∈ ps, p.1 < a.rows ∧ p.2 < a.cols ∧ InCore t core p.1 p.2 ∧
      ∀ q ∈ blk p, e = true ∧ q.1 < a.rows ∧ q.2 < a.cols ∧ ¬ InCore t core q.1 q.2) →
    ∃ b, edge e pre blk ps a k = .ok b ∧ Tame t core e a b
  | [], a, _, _ => ⟨a, rfl, .refl⟩
  | p :: ps, a, k, h => by
    obtain ⟨h1, h2, h3, h4⟩ := h p (by simp)
    have step : ∃ b k', edgeCell e pre blk p a k = .ok (b, k') ∧ Tame t core e a b := by
      unfold edgeCell
      rw [Table.get, if_pos ⟨h1, h2⟩, Outcome.bind_ok]
      by_cases hy : a.at' p.1 p.2 = .ystate
      · have hw : Tame t core e a (a.write p.1 p.2 (if e then .routing else .magic)) := by
          refine ⟨rfl, rfl, fun i j => ?_⟩
          by_cases hp : i = p.1 ∧ j = p.2
          · obtain ⟨rfl, rfl⟩ := hp
            exact .inr (.inl ⟨h3, hy, by simp [Table.write]⟩)
          · exact .inl (if_neg hp)
        have hput : a.put p.1 p.2 (if e then .routing else .magic) = .ok (a.write p.1 p.2 (if e then .routing else .magic)) := by
          rw [Table.put, if_pos ⟨h1, h2⟩]
        rw [if_pos hy, hput, Outcome.bind_ok]
        split
        · obtain ⟨b, e', hb⟩ := putAll_spec (t := t) (core := core) (e := e) (ps := blk p) (a := a.write p.1 p.2 (if e then .routing else .magic)) h4
          exact ⟨b, k + 1, by rw [e', Outcome.bind_ok], hw.trans hb⟩
        · split
          · exact ⟨_, k + 1, rfl, hw⟩
          · exact ⟨a, k + 1, rfl, .refl⟩
      · rw [if_neg hy]
        exact ⟨a, k, rfl, .refl⟩
    obtain ⟨b, k', e1, hb⟩ := step
    obtain ⟨c, e2, hc⟩ := edge_spec (e := e) (pre := pre) (blk := blk) (ps := ps) (a := b) (k := k') (by
      intro q hq
      rw [hb.rows, hb.cols]
      exact h q (by simp [hq]))
    exact ⟨c, by rw [edge, e1, Outcome.bind_ok, e2], hb.trans hc⟩

theorem mem_block {i r j c : Nat} {p : Nat × Nat} : p ∈ block i r j c ↔ i ≤ p.1 ∧ p.1 < i + r ∧ j ≤ p.2 ∧ p.2 < j + c := by
  unfold block
  simp only [List.mem_flatMap, List.mem_map, List.mem_range'_1]
  constructor
  · rintro ⟨k, hk, l, hl, rfl⟩; exact ⟨hk.1, hk.2, hl.1, hl.2⟩
  · rintro ⟨h1, h2, h3, h4⟩; exact ⟨p.1, ⟨h1, h2⟩, p.2, ⟨h3, h4⟩, rfl⟩

/-- The finished table. -/
theorem edpcTable_spec (n lanes : Nat) (e pre : Bool) (hfit : (ceilSqrt n + 1) * (lanes + 1) + 11 < 2 ^ 64) :
    ∃ (tb : Table) (t core : Nat), edpcTable n lanes false e pre = .ok tb ∧ t = (if e then 5 else 0) ∧ core = (ceilSqrt n + 1) * (lanes + 1) + 1 ∧
      tb.rows = core + 2 * t ∧ tb.cols = core + 2 * t ∧ (findAll tb.toGrid .qubit).length = n ∧
      (∀ i j, tb.at' i j = .qubit → innerAx t (lanes + 1) core i = true ∧ innerAx t (lanes + 1) core j = true ∧ InCore t core i j) ∧
      (∀ i j, InCore t core i j → ¬ (onAx t (lanes + 1) i = true ∧ onAx t (lanes + 1) j = true) → tb.at' i j = .routing) ∧
      (∀ i j, ¬ InCore t core i j → tb.at' i j = .dead ∨ tb.at' i j = .distillation 0) ∧ ¬ Clash tb.toGrid := by
  have ht : (if e then 5 else 0 : Nat) ≤ 5 := by split <;> omega
  generalize htt : (if e then 5 else 0 : Nat) = t at ht
  have hcs := coreSide_eq (n := n) (lanes := lanes) (by omega)
  generalize hcc : (ceilSqrt n + 1) * (lanes + 1) + 1 = core at *
  have hpos : 0 < core := by omega
  have hfit' : core + 2 * t < 2 ^ 64 := by omega
  have hspan : ∀ x ∈ List.range' t core, t ≤ x ∧ x < t + core := by intro x hx; simpa using hx
  have hnd : (List.range' t core).Nodup := List.nodup_range'
  obtain ⟨s, es, hs⟩ := placeRows_spec (n := n) (lanes := lanes) hfit' hnd hspan (lay_start n (lanes + 1) t core) hnd hspan (by simp)
  rw [List.nil_append] at hs
  have hplaced : s.placed = n := by
    rw [hs.placed, ← hcc, count_inner2 (by omega)]
    have := le_ceilSqrt n
    omega
  have et : t = 0 ∨ (t = 5 ∧ e = true) := by
    cases e
    · exact .inl htt.symm
    · exact .inr ⟨htt.symm, rfl⟩
  -- the four edges
  obtain ⟨b1, e1, h1⟩ := edge_spec (t := t) (core := core) (e := e) (pre := pre) (blk := fun p => block (p.1 - t) t (p.2 - 1) 3)
    (ps := (List.range' t core).map fun j => (t, j)) (a := s.table) (k := 0) (by
      intro p hp
      obtain ⟨j, hj, rfl⟩ := List.mem_map.1 hp
      have := hspan j hj
      rw [hs.rows, hs.cols]
      refine ⟨by dsimp only; omega, by dsimp only; omega, by unfold InCore; omega, ?_⟩
      intro q hq
      rw [mem_block] at hq
      dsimp only at hq
      unfold InCore
      rcases et with h0 | ⟨h5, he⟩
      · omega
      · exact ⟨he, by omega, by omega, by omega⟩)
  obtain ⟨b2, e2, h2⟩ := edge_spec (t := t) (core := core) (e := e) (pre := pre) (blk := fun p => block (p.1 + 1) t (p.2 - 1) 3)
    (ps := (List.range' t core).map fun j => (core + 2 * t - t - 1, j)) (a := b1) (k := 0) (by
      intro p hp
      obtain ⟨j, hj, rfl⟩ := List.mem_map.1 hp
      have := hspan j hj
      rw [h1.rows, h1.cols, hs.rows, hs.cols]
      refine ⟨by dsimp only; omega, by dsimp only; omega, by unfold InCore; omega, ?_⟩
      intro q hq
      rw [mem_block] at hq
      dsimp only at hq
      unfold InCore
      rcases et with h0 | ⟨h5, he⟩
      · omega
      · exact ⟨he, by omega, by omega, by omega⟩)
  obtain ⟨b3, e3, h3⟩ := edge_spec (t := t) (core := core) (e := e) (pre := pre) (blk := fun p => block (p.1 - 1) 3 (p.2 - t) t)
    (ps := (List.range' t core).map fun i => (i, t)) (a := b2) (k := 0) (by
      intro p hp
      obtain ⟨j, hj, rfl⟩ := List.mem_map.1 hp
      have := hspan j hj
      rw [h2.rows, h2.cols, h1.rows, h1.cols, hs.rows, hs.cols]
      refine ⟨by dsimp only; omega, by dsimp only; omega, by unfold InCore; omega, ?_⟩
      intro q hq
      rw [mem_block] at hq
      dsimp only at hq
      unfold InCore
      rcases et with h0 | ⟨h5, he⟩
      · omega
      · exact ⟨he, by omega, by omega, by omega⟩)
  obtain ⟨b4, e4, h4⟩ := edge_spec (t := t) (core := core) (e := e) (pre := pre) (blk := fun p => block (p.1 - 1) 3 (p.2 + 1) t)
    (ps := (List.range' t core).map fun i => (i, core + 2 * t - t - 1)) (a := b3) (k := 0) (by
      intro p hp
      obtain ⟨j, hj, rfl⟩ := List.mem_map.1 hp
      have := hspan j hj
      rw [h3.rows, h3.cols, h2.rows, h2.cols, h1.rows, h1.cols, hs.rows, hs.cols]
      refine ⟨by dsimp only; omega, by dsimp only; omega, by unfold InCore; omega, ?_⟩
      intro q hq
      rw [mem_block] at hq
      dsimp only at hq
      unfold InCore
      rcases et with h0 | ⟨h5, he⟩
      · omega
      · exact ⟨he, by omega, by omega, by omega⟩)
  have hT : Tame t core e s.table b4 := ((h1.trans h2).trans h3).trans h4
  have hrows : b4.rows = core + 2 * t := by rw [hT.rows, hs.rows]
  have hcols : b4.cols = core + 2 * t := by rw [hT.cols, hs.cols]
  have hcoreIff : ∀ i j, (t ≤ i ∧ i < b4.rows - t ∧ t ≤ j ∧ j < b4.cols - t) ↔ InCore t core i j := by
    intro i j; rw [hrows, hcols]; unfold InCore; omega
  have hout : ∀ i j, ¬ InCore t core i j → s.table.at' i j = .routing := by
    intro i j h
    apply hs.fresh
    intro hm
    simp only [List.mem_flatMap, List.mem_map, Prod.mk.injEq] at hm
    obtain ⟨i', hi', j', hj', rfl, rfl⟩ := hm
    have a := hspan _ hi'; have b := hspan _ hj'
    exact h ⟨a.1, a.2, b.1, b.2⟩
  -- kinds of cells
  have hkind : ∀ i j, s.table.at' i j = .routing ∨ s.table.at' i j = .ystate ∨ s.table.at' i j = .qubit := by
    intro i j
    by_cases hi : innerAx t (lanes + 1) core i = true ∧ innerAx t (lanes + 1) core j = true
    · rcases hs.inner i j hi.1 hi.2 with h | h
      · exact .inr (.inr h)
      · exact .inl h
    · by_cases hr : s.table.at' i j = .routing
      · exact .inl hr
      · exact .inr (.inl (hs.rim i j hr hi))
  have hfin : ∀ i j, (bury t b4).at' i j = .qubit ↔ s.table.at' i j = .qubit := by
    intro i j
    show (if t ≤ i ∧ i < b4.rows - t ∧ t ≤ j ∧ j < b4.cols - t then b4.at' i j
      else if b4.at' i j = .routing then .dead else b4.at' i j) = _ ↔ _
    by_cases hc : InCore t core i j
    · rw [if_pos ((hcoreIff i j).2 hc)]
      rcases hT.cell i j with h | ⟨_, h, h'⟩ | ⟨h, _⟩
      · rw [h]
      · rw [h, h']; cases e <;> simp
      · exact absurd hc h
    · rw [if_neg (fun h => hc ((hcoreIff i j).1 h)), hout i j hc]
      rcases hT.cell i j with h | ⟨h, _⟩ | ⟨_, _, h⟩
      · rw [h, hout i j hc]; simp
      · exact absurd h hc
      · rw [h]; simp
  refine ⟨bury t b4, t, core, ?_, rfl, rfl, hrows, hcols, ?_, ?_, ?_, ?_, ?_⟩
  · unfold edpcTable
    dsimp only
    rw [htt, hcs, es, Outcome.bind_ok, e1, Outcome.bind_ok, e2, Outcome.bind_ok, e3, Outcome.bind_ok, e4, Outcome.bind_ok]
  · rw [findAll_toGrid, ← hplaced, ← hs.count]
    have hsp : (bury t b4).spots = s.table.spots := by
      show (List.range b4.rows).flatMap (fun i => (List.range b4.cols).map fun j => (i, j)) = _
      rw [hT.rows, hT.cols]; rfl
    rw [hsp]
    apply List.countP_congr
    rintro ⟨i, j⟩ _
    simp only [decide_eq_true_eq]
    exact hfin i j
  · intro i j h
    rw [hfin] at h
    have hc : InCore t core i j := by
      by_cases hc : InCore t core i j
      · exact hc
      · rw [hout i j hc] at h; cases h
    have hi : innerAx t (lanes + 1) core i = true ∧ innerAx t (lanes + 1) core j = true := by
      by_cases hi : innerAx t (lanes + 1) core i = true ∧ innerAx t (lanes + 1) core j = true
      · exact hi
      · have := hs.rim i j (by rw [h]; simp) hi
        rw [h] at this; cases this
    exact ⟨hi.1, hi.2, hc⟩
  · intro i j hc hn
    show (if _ then _ else _) = _
    rw [if_pos ((hcoreIff i j).2 hc)]
    have := hs.off i j hn
    rcases hT.cell i j with h | ⟨_, h, _⟩ | ⟨h, _⟩
    · rw [h, this]
    · rw [this] at h; cases h
    · exact absurd hc h
  · intro i j hc
    have he : (bury t b4).at' i j = if b4.at' i j = .routing then .dead else b4.at' i j := if_neg fun h => hc ((hcoreIff i j).1 h)
    rw [he]
    rcases hT.cell i j with h | ⟨h, _⟩ | ⟨_, _, h⟩
    · rw [h, hout i j hc]; simp
    · exact absurd h hc
    · rw [h]; simp
  · rintro ⟨⟨c, hm⟩, d, c', hd⟩
    rw [at_toGrid] at hm hd
    obtain ⟨i, j, _, _, _, hm⟩ := hm
    obtain ⟨i', j', _, _, _, hd⟩ := hd
    have hb : ∀ i j k, (bury t b4).at' i j = k → k ≠ .dead → b4.at' i j = k := by
      intro i j k h hk
      change (if _ then _ else _) = _ at h
      split at h
      · exact h
      · split at h
        · exact absurd h.symm hk
        · exact h
    have hm' := hb i j _ hm (by simp)
    have hd' := hb i' j' _ hd (by simp)
    rcases hT.cell i j with h | ⟨_, _, h⟩ | ⟨_, _, h⟩
    · rw [hm'] at h; rcases hkind i j with g | g | g <;> rw [g] at h <;> cases h
    · rcases hT.cell i' j' with g | ⟨_, _, g⟩ | ⟨_, g, _⟩
      · rw [hd'] at g; rcases hkind i' j' with f | f | f <;> rw [f] at g <;> cases g
      · rw [hd'] at g; cases e <;> simp at g
      · rw [hm', g] at h; simp at h
    · rw [hm'] at h; cases h

end Verif.Layouts
