import Verif.LayoutDense

/-! # The shape of the EDPC layout (C40) -/

namespace Verif.Layouts.Spec

open Verif Verif.Layouts

/-- The cell in row `i` and column `j` of the EDPC layout for `n` qubits in a square of side `s`. Cells that are used are `lanes` cells apart. The square is filled row by row. Around it are cells
for states. Without cells for Y states all of these are for magic states. Otherwise the two kinds take turns on every side, beginning with a Y state on the left or above; on the right side it begins
below the corner when the corner is for magic states. -/
def edpcCell (n s lanes : Nat) (ystates : Bool) (i j : Nat) : CellType :=
  let m := lanes + 1
  let a := i / m
  let b := j / m
  if i % m ≠ 0 ∨ j % m ≠ 0 then .routing
  else if 0 < a ∧ a ≤ s ∧ 0 < b ∧ b ≤ s then (if (a - 1) * s + (b - 1) < n then .qubit else .routing)
  else if ystates = false then .magic
  else if a = 0 ∨ a = s + 1 ∧ b ≠ 0 then (if b % 2 = 1 then .magic else .ystate)
  else if b = 0 then (if a % 2 = 1 then .magic else .ystate)
  else if (if s % 2 = 0 then a % 2 = 0 else a % 2 = 1) then .magic else .ystate

/-- The EDPC layout. -/
def edpcPicture (n s lanes : Nat) (ystates : Bool) : Grid :=
  let size := (s + 1) * (lanes + 1) + 1
  (List.range size).map fun i => (List.range size).map fun j => edpcCell n s lanes ystates i j

/-! ## Proofs -/

section

variable {n s m i j x y : Nat}

theorem lat_eq (h : x % m = 0) : x = x / m * m := by
  have := Nat.div_add_mod x m
  rw [h, Nat.add_zero, Nat.mul_comm] at this
  exact this.symm

theorem lat_zero (h : x % m = 0) : x = 0 ↔ x / m = 0 :=
  ⟨fun e => by simp [e], fun e => by rw [lat_eq h, e, Nat.zero_mul]⟩

theorem lat_end (hm : 0 < m) (h : x % m = 0) : x = (s + 1) * m ↔ x / m = s + 1 :=
  ⟨fun e => by rw [e, Nat.mul_div_cancel _ hm], fun e => by rw [lat_eq h, e]⟩

theorem lat_le (h : x < (s + 1) * m + 1) : x / m ≤ s + 1 := Nat.div_le_of_le_mul (by rw [Nat.mul_comm]; omega)

/-- The rows of patches above `x`. -/
def above (s m x : Nat) : Nat := min s ((x - 1) / m)

def inside (s m x : Nat) : Prop := x % m = 0 ∧ 0 < x / m ∧ x / m ≤ s

instance : Decidable (inside s m x) := inferInstanceAs (Decidable (x % m = 0 ∧ 0 < x / m ∧ x / m ≤ s))

theorem inside_iff : inside s m x ↔ x % m = 0 ∧ 0 < x / m ∧ x / m ≤ s := Iff.rfl

theorem above_succ (hm : 0 < m) : above s m (x + 1) = above s m x + if inside s m x then 1 else 0 := by
  simp only [inside_iff]
  unfold above
  cases x with
  | zero => simp
  | succ y =>
    simp only [Nat.add_sub_cancel]
    have hsd := Nat.succ_div (a := y) (b := m)
    by_cases hd : m ∣ y + 1
    · have h0 : (y + 1) % m = 0 := Nat.mod_eq_zero_of_dvd hd
      rw [if_pos hd] at hsd
      simp only [h0, true_and, hsd]
      generalize y / m = q
      split <;> omega
    · have h0 : (y + 1) % m ≠ 0 := fun h => hd (Nat.dvd_of_mod_eq_zero h)
      rw [if_neg hd] at hsd
      rw [if_neg (by simp [h0]), hsd, Nat.add_zero, Nat.add_zero]

theorem above_inside (hm : 0 < m) (h : inside s m x) : above s m x = x / m - 1 := by
  have h1 := above_succ (s := s) (x := x) hm
  rw [if_pos h] at h1
  have : above s m (x + 1) = x / m := by
    unfold above
    have := h.2.2
    simp only [Nat.add_sub_cancel]
    omega
  omega

theorem above_zero : above s m 0 = 0 := by simp [above]

theorem above_all (hm : 0 < m) : above s m ((s + 1) * m + 1) = s := by
  unfold above
  rw [Nat.add_sub_cancel, Nat.mul_div_cancel _ hm]
  omega

/-- The patches before a position. -/
def before (s m i j : Nat) : Nat := above s m i * s + if inside s m i then above s m j else 0

/-- What is placed first. -/
def placedCell (n s m i j : Nat) : CellType :=
  if i % m ≠ 0 ∨ j % m ≠ 0 then .routing
  else if 0 < i / m ∧ i / m ≤ s ∧ 0 < j / m ∧ j / m ≤ s then (if (i / m - 1) * s + (j / m - 1) < n then .qubit else .routing)
  else .ystate

structure Upto (n s m i j : Nat) (p : Place) : Prop where
  rows : p.table.rows = (s + 1) * m + 1
  cols : p.table.cols = (s + 1) * m + 1
  shiftV : p.shiftV = false
  shiftH : p.shiftH = false
  rowsLost : p.rowsLost = 0
  rowLost : p.rowLost = false
  colsLost : p.colsLost = 0
  cell : ∀ x y, y < (s + 1) * m + 1 → p.table.at' x y = if x < i ∨ x = i ∧ y < j then placedCell n s m x y else .routing
  placed : p.placed = min n (before s m i j)

theorem upto_write {p : Place} {v : CellType} (h : Upto n s m i j p) (hv : v = placedCell n s m i j) (x y : Nat) (hy : y < (s + 1) * m + 1) :
    (p.table.write i j v).at' x y = if x < i ∨ x = i ∧ y < j + 1 then placedCell n s m x y else .routing := by
  unfold Table.write
  dsimp only
  split
  · rename_i e
    obtain ⟨rfl, rfl⟩ := e
    rw [if_pos (by omega), hv]
  · rw [h.cell x y hy]
    split
    · rw [if_pos (by omega)]
    · rw [if_neg (by omega)]

theorem upto_skip {p : Place} (h : Upto n s m i j p) (hv : placedCell n s m i j = .routing) (x y : Nat) (hy : y < (s + 1) * m + 1) :
    p.table.at' x y = if x < i ∨ x = i ∧ y < j + 1 then placedCell n s m x y else .routing := by
  rw [h.cell x y hy]
  by_cases e : x = i ∧ y = j
  · obtain ⟨rfl, rfl⟩ := e
    rw [if_neg (by omega), if_pos (by omega), hv]
  · split
    · rw [if_pos (by omega)]
    · rw [if_neg (by omega)]

theorem before_succ (hm : 0 < m) : before s m i (j + 1) = before s m i j + if inside s m i ∧ inside s m j then 1 else 0 := by
  unfold before
  rw [above_succ hm]
  by_cases hi : inside s m i
  · simp only [hi, if_true, true_and]
    omega
  · simp [hi]

theorem before_next (hm : 0 < m) : before s m i ((s + 1) * m + 1) = before s m (i + 1) 0 := by
  unfold before
  rw [above_all hm, above_succ hm, above_zero]
  by_cases hi : inside s m i
  · simp only [hi, if_true, Nat.add_mul, Nat.one_mul, ite_self, Nat.add_zero]
  · simp [hi]

theorem placeCell_exact {lanes : Nat} {p : Place} (hs : Upto n s (lanes + 1) i j p) (hfit : (s + 1) * (lanes + 1) + 1 < 2 ^ 64) (hi : i < (s + 1) * (lanes + 1) + 1)
    (hj : j < (s + 1) * (lanes + 1) + 1) : ∃ p', placeCell n lanes 0 false i j p = .ok p' ∧ Upto n s (lanes + 1) i (j + 1) p' := by
  have hm : 0 < lanes + 1 := by omega
  have hin : i < p.table.rows ∧ j < p.table.cols := ⟨by rw [hs.rows]; exact hi, by rw [hs.cols]; exact hj⟩
  have hend : endPair lanes 0 i j p = p := by
    unfold endPair
    dsimp only
    have e1 : ({ p with shiftH := false } : Place) = p := by rw [← hs.shiftH]
    have e2 : ({ p with shiftV := false } : Place) = p := by rw [← hs.shiftV]
    split
    · rw [e1]; split
      · exact e2
      · rfl
    · split
      · exact e2
      · rfl
  unfold placeCell
  rw [hs.shiftV, hs.shiftH, hs.rowsLost, hs.colsLost, onLattice_eq (by omega) (by omega), onLattice_eq (by omega) (by omega), hs.rows, hs.cols]
  simp only [Nat.sub_zero, Nat.add_sub_cancel, Bool.false_eq_true, if_false]
  have hput : ∀ v, p.table.put i j v = .ok (p.table.write i j v) := fun v => by rw [Table.put, if_pos hin]
  by_cases hl : i % (lanes + 1) = 0 ∧ j % (lanes + 1) = 0
  · rw [if_pos (by simp [hl])]
    have a1 := lat_le hi
    have a2 := lat_le hj
    have z1 := lat_zero hl.1
    have z2 := lat_zero hl.2
    have e1 := lat_end (s := s) hm hl.1
    have e2 := lat_end (s := s) hm hl.2
    by_cases hr : i = 0 ∨ j = 0 ∨ i = (s + 1) * (lanes + 1) ∨ j = (s + 1) * (lanes + 1)
    · rw [if_pos hr, hput, Outcome.bind_ok]
      have hn : ¬ (0 < i / (lanes + 1) ∧ i / (lanes + 1) ≤ s ∧ 0 < j / (lanes + 1) ∧ j / (lanes + 1) ≤ s) := by omega
      refine ⟨_, rfl, hs.rows, hs.cols, rfl, rfl, rfl, hs.rowLost, rfl, upto_write hs ?_, ?_⟩
      · unfold placedCell
        rw [if_neg (by omega), if_neg hn]
      · show p.placed = _
        rw [before_succ hm, if_neg (by unfold inside; omega)]
        exact hs.placed
    · rw [if_neg hr]
      have hq : 0 < i / (lanes + 1) ∧ i / (lanes + 1) ≤ s ∧ 0 < j / (lanes + 1) ∧ j / (lanes + 1) ≤ s := by
        have h1 : i / (lanes + 1) ≠ s + 1 := fun h => hr (.inr (.inr (.inl (e1.2 h))))
        have h2 : j / (lanes + 1) ≠ s + 1 := fun h => hr (.inr (.inr (.inr (e2.2 h))))
        exact ⟨Nat.pos_of_ne_zero fun h => hr (.inl (z1.2 h)), Nat.le_of_lt_succ (Nat.lt_of_le_of_ne a1 h1),
          Nat.pos_of_ne_zero fun h => hr (.inr (.inl (z2.2 h))), Nat.le_of_lt_succ (Nat.lt_of_le_of_ne a2 h2)⟩
      have h1 : inside s (lanes + 1) i := ⟨hl.1, hq.1, hq.2.1⟩
      have h2 : inside s (lanes + 1) j := ⟨hl.2, hq.2.2.1, hq.2.2.2⟩
      have hb : before s (lanes + 1) i j = (i / (lanes + 1) - 1) * s + (j / (lanes + 1) - 1) := by
        unfold before
        rw [if_pos h1, above_inside hm h1, above_inside hm h2]
      have hpc : placedCell n s (lanes + 1) i j = if before s (lanes + 1) i j < n then .qubit else .routing := by
        unfold placedCell
        rw [if_neg (by omega), if_pos hq, hb]
      have hp := hs.placed
      by_cases hlt : p.placed < n
      · rw [if_pos hlt, hput, Outcome.bind_ok]
        refine ⟨_, rfl, hs.rows, hs.cols, rfl, rfl, rfl, hs.rowLost, rfl, upto_write hs ?_, ?_⟩
        · rw [hpc, if_pos (by omega)]
        · show p.placed + 1 = _
          rw [before_succ hm, if_pos ⟨h1, h2⟩]
          omega
      · rw [if_neg hlt, hend]
        refine ⟨_, rfl, hs.rows, hs.cols, hs.shiftV, hs.shiftH, hs.rowsLost, hs.rowLost, hs.colsLost, upto_skip hs ?_, ?_⟩
        · rw [hpc, if_neg (by omega)]
        · rw [before_succ hm, if_pos ⟨h1, h2⟩]
          omega
  · rw [if_neg (by simpa using hl)]
    refine ⟨_, rfl, hs.rows, hs.cols, hs.shiftV, hs.shiftH, hs.rowsLost, hs.rowLost, hs.colsLost, upto_skip hs ?_, ?_⟩
    · unfold placedCell
      rw [if_pos (by omega)]
    · rw [before_succ hm, if_neg (by unfold inside; omega)]
      exact hs.placed

theorem placeRow_exact {lanes : Nat} (hfit : (s + 1) * (lanes + 1) + 1 < 2 ^ 64) (hi : i < (s + 1) * (lanes + 1) + 1) :
    ∀ {k j : Nat} {p : Place}, Upto n s (lanes + 1) i j p → j + k = (s + 1) * (lanes + 1) + 1 →
      ∃ p', placeRow n lanes 0 false i (List.range' j k) p = .ok p' ∧ Upto n s (lanes + 1) i ((s + 1) * (lanes + 1) + 1) p'
  | 0, j, p, hs, hk => ⟨p, rfl, by rw [← hk]; exact hs⟩
  | k + 1, j, p, hs, hk => by
    obtain ⟨p1, e1, h1⟩ := placeCell_exact hs hfit hi (by omega)
    obtain ⟨p2, e2, h2⟩ := placeRow_exact hfit hi h1 (k := k) (by omega)
    exact ⟨p2, by rw [List.range'_succ, placeRow, e1, Outcome.bind_ok, e2], h2⟩

theorem placeRows_exact {lanes : Nat} (hfit : (s + 1) * (lanes + 1) + 1 < 2 ^ 64) :
    ∀ {k i : Nat} {p : Place}, Upto n s (lanes + 1) i 0 p → i + k = (s + 1) * (lanes + 1) + 1 →
      ∃ p', placeRows n lanes 0 false (List.range' 0 ((s + 1) * (lanes + 1) + 1)) (List.range' i k) p = .ok p' ∧ Upto n s (lanes + 1) ((s + 1) * (lanes + 1) + 1) 0 p'
  | 0, i, p, hs, hk => ⟨p, rfl, by rw [← hk]; exact hs⟩
  | k + 1, i, p, hs, hk => by
    have hs0 : ({ p with rowLost := false, colsLost := 0 } : Place) = p := by rw [← hs.rowLost, ← hs.colsLost]
    obtain ⟨p1, e1, h1⟩ := placeRow_exact (i := i) hfit (by omega) hs (Nat.zero_add _)
    have hs1 : ({ p1 with rowsLost := p1.rowsLost + if p1.rowLost then 1 else 0 } : Place) = p1 := by
      have : (if p1.rowLost then 1 else 0) = 0 := by rw [h1.rowLost]; rfl
      rw [this]; rfl
    have h1' : Upto n s (lanes + 1) (i + 1) 0 p1 := by
      refine ⟨h1.rows, h1.cols, h1.shiftV, h1.shiftH, h1.rowsLost, h1.rowLost, h1.colsLost, fun x y hy => ?_, ?_⟩
      · rw [h1.cell x y hy]
        by_cases hx : x < i + 1
        · rw [if_pos (by omega), if_pos (by omega)]
        · rw [if_neg (by omega), if_neg (by omega)]
      · rw [h1.placed, before_next (by omega)]
    obtain ⟨p2, e2, h2⟩ := placeRows_exact hfit h1' (k := k) (by omega)
    exact ⟨p2, by rw [show List.range' i (k + 1) = i :: List.range' (i + 1) k from List.range'_succ, placeRows, hs0, e1, Outcome.bind_ok, hs1, e2], h2⟩

theorem upto_start : Upto n s m 0 0 { table := Table.fresh ((s + 1) * m + 1) ((s + 1) * m + 1) } := by
  refine ⟨rfl, rfl, rfl, rfl, rfl, rfl, rfl, fun x y _ => ?_, ?_⟩
  · rw [if_neg (by omega)]; rfl
  · show 0 = _
    unfold before
    simp [above_zero]

/-! ### Sides -/

/-- The cells for states met before. -/
def met (a : Table) (f : Nat → Nat × Nat) : Nat → Nat
  | 0 => 0
  | y + 1 => met a f y + if a.at' (f y).1 (f y).2 = .ystate then 1 else 0

def turned (pre : Bool) (a : Table) (f : Nat → Nat × Nat) (y : Nat) : CellType :=
  if a.at' (f y).1 (f y).2 = .ystate ∧ (pre = true → met a f y % 2 = 1) then .magic else a.at' (f y).1 (f y).2

theorem edge_exact {pre : Bool} {blk : Nat × Nat → List (Nat × Nat)} (hb : ∀ p, blk p = []) {f : Nat → Nat × Nat} (hf : ∀ x y, f x = f y → x = y) {a0 : Table} :
    ∀ {k x : Nat} {a : Table}, (∀ y, x ≤ y → y < x + k → (f y).1 < a.rows ∧ (f y).2 < a.cols) → (∀ y, x ≤ y → a.at' (f y).1 (f y).2 = a0.at' (f y).1 (f y).2) →
      ∃ b, edge false pre blk ((List.range' x k).map f) a (met a0 f x) = .ok b ∧ b.rows = a.rows ∧ b.cols = a.cols ∧
        (∀ y, x ≤ y → y < x + k → b.at' (f y).1 (f y).2 = turned pre a0 f y) ∧ ∀ i j, (∀ y, x ≤ y → y < x + k → (i, j) ≠ f y) → b.at' i j = a.at' i j
  | 0, x, a, _, _ => ⟨a, rfl, rfl, rfl, fun y h1 h2 => by omega, fun _ _ _ => rfl⟩
  | k + 1, x, a, hr, ha => by
    have step : ∃ b, edgeCell false pre blk (f x) a (met a0 f x) = .ok (b, met a0 f (x + 1)) ∧ b.rows = a.rows ∧ b.cols = a.cols ∧
        b.at' (f x).1 (f x).2 = turned pre a0 f x ∧ ∀ i j, (i, j) ≠ f x → b.at' i j = a.at' i j := by
      have hin := hr x (by omega) (by omega)
      have hput : a.put (f x).1 (f x).2 .magic = .ok (a.write (f x).1 (f x).2 .magic) := by rw [Table.put, if_pos hin]
      have hne : ∀ {v : CellType} i j, (i, j) ≠ f x → (a.write (f x).1 (f x).2 v).at' i j = a.at' i j := by
        intro v i j h
        unfold Table.write
        dsimp only
        rw [if_neg (fun e => h (Prod.ext e.1 e.2))]
      have heq : ∀ {v : CellType}, (a.write (f x).1 (f x).2 v).at' (f x).1 (f x).2 = v := by
        intro v
        unfold Table.write
        dsimp only
        rw [if_pos ⟨rfl, rfl⟩]
      rw [show met a0 f (x + 1) = met a0 f x + if a0.at' (f x).1 (f x).2 = .ystate then 1 else 0 from rfl]
      unfold edgeCell turned
      rw [Table.get, if_pos hin, Outcome.bind_ok, ha x (by omega)]
      simp only [Bool.false_eq_true, if_false]
      by_cases hy : a0.at' (f x).1 (f x).2 = .ystate
      · simp only [hy, if_true, true_and, hput, Outcome.bind_ok, hb, putAll]
        by_cases ho : met a0 f x % 2 = 1
        · rw [if_pos (by omega), if_pos (fun _ => ho)]
          exact ⟨_, rfl, rfl, rfl, heq, hne⟩
        · rw [if_neg (by omega)]
          cases pre
          · rw [if_pos (by simp), if_pos (by simp)]
            exact ⟨_, rfl, rfl, rfl, heq, hne⟩
          · rw [if_neg (by simp), if_neg (by simpa using ho)]
            exact ⟨_, rfl, rfl, rfl, by rw [ha x (by omega), hy], fun _ _ _ => rfl⟩
      · simp only [hy, if_false, false_and, Nat.add_zero]
        exact ⟨_, rfl, rfl, rfl, ha x (by omega), fun _ _ _ => rfl⟩
    obtain ⟨b, e1, g1, g2, g3, g4⟩ := step
    have hxy : ∀ y, x + 1 ≤ y → ((f y).1, (f y).2) ≠ f x := fun y hy e => by
      have := hf y x e
      omega
    obtain ⟨c, e2, k1, k2, k3, k4⟩ := edge_exact (pre := pre) hb hf (a0 := a0) (k := k) (x := x + 1) (a := b) (fun y h1 h2 => by rw [g1, g2]; exact hr y (by omega) (by omega))
      (fun y hy => by rw [g4 _ _ (hxy y hy)]; exact ha y (by omega))
    refine ⟨c, by rw [List.range'_succ, List.map_cons, edge, e1, Outcome.bind_ok, e2], k1.trans g1, k2.trans g2, fun y h1 h2 => ?_, fun i j h => ?_⟩
    · by_cases hxe : y = x
      · subst hxe
        rw [k4 _ _ (fun z h1 _ e => hxy z h1 (by rw [← e]))]
        exact g3
      · exact k3 y (by omega) (by omega)
    · rw [k4 i j (fun y h1 h2 => h y (by omega) (by omega)), g4 i j (h x (by omega) (by omega))]

theorem block_none1 {i j c : Nat} : block i 0 j c = [] := by simp [block]

theorem block_none2 {i r j : Nat} : block i r j 0 = [] := by simp [block]

/-- The multiples of `m` below `y`. -/
def upTo (m : Nat) : Nat → Nat
  | 0 => 0
  | y + 1 => upTo m y + if y % m = 0 then 1 else 0

theorem upTo_eq (hm : 0 < m) : ∀ y, upTo m y = if y % m = 0 then y / m else y / m + 1
  | 0 => by simp [upTo]
  | y + 1 => by
    have hsd := Nat.succ_div (a := y) (b := m)
    rw [upTo, upTo_eq hm y]
    have e : (if y % m = 0 then y / m else y / m + 1) + (if y % m = 0 then 1 else 0) = y / m + 1 := by split <;> omega
    rw [e]
    by_cases hd : m ∣ y + 1
    · rw [if_pos hd] at hsd
      rw [if_pos (Nat.mod_eq_zero_of_dvd hd), hsd]
    · rw [if_neg hd] at hsd
      rw [if_neg (fun h => hd (Nat.dvd_of_mod_eq_zero h)), hsd]

theorem upTo_lat (hm : 0 < m) (h : y % m = 0) : upTo m y = y / m := by rw [upTo_eq hm, if_pos h]

theorem met_upTo {a : Table} {f : Nat → Nat × Nat} {e : Nat} (h : ∀ y, y < e → (a.at' (f y).1 (f y).2 = .ystate ↔ y % m = 0)) : ∀ y, y ≤ e → met a f y = upTo m y
  | 0, _ => rfl
  | y + 1, hy => by
    rw [met, upTo, met_upTo h y (by omega)]
    simp only [h y (by omega)]

/-- Without the corner. -/
theorem met_late {a : Table} {f : Nat → Nat × Nat} {e : Nat} (h0 : a.at' (f 0).1 (f 0).2 ≠ .ystate) (h : ∀ y, 0 < y → y < e → (a.at' (f y).1 (f y).2 = .ystate ↔ y % m = 0)) :
    ∀ y, y < e → met a f (y + 1) + 1 = upTo m (y + 1)
  | 0, _ => by simp [met, upTo, h0]
  | y + 1, hy => by
    have ih := met_late h0 h y (by omega)
    rw [met, upTo]
    simp only [h (y + 1) (by omega) hy]
    omega

/-- A side on which the two kinds take turns. -/
def turns (m y : Nat) : CellType := if y % m = 0 then (if y / m % 2 = 1 then .magic else .ystate) else .routing

theorem turned_turns (hm : 0 < m) {a : Table} {f : Nat → Nat × Nat} {e : Nat} (h : ∀ y, y < e → a.at' (f y).1 (f y).2 = if y % m = 0 then .ystate else .routing) (y : Nat) (hy : y < e) :
    turned true a f y = turns m y := by
  have h' : ∀ y, y < e → (a.at' (f y).1 (f y).2 = .ystate ↔ y % m = 0) := fun y hy => by
    rw [h y hy]; split <;> simp_all
  unfold turned turns
  rw [met_upTo h' y (by omega), h y hy]
  by_cases h0 : y % m = 0
  · simp [h0, upTo_lat hm h0]
  · simp [h0]

/-- The four sides. -/
structure Sides (pre : Bool) (n s m : Nat) (T0 T1 T2 T3 T4 : Table) : Prop where
  t0 : ∀ i j, i < (s + 1) * m + 1 → j < (s + 1) * m + 1 → T0.at' i j = placedCell n s m i j
  t1 : ∀ i j, i < (s + 1) * m + 1 → j < (s + 1) * m + 1 → T1.at' i j = if i = 0 then turned pre T0 (fun j => (0, j)) j else T0.at' i j
  t2 : ∀ i j, i < (s + 1) * m + 1 → j < (s + 1) * m + 1 → T2.at' i j = if i = (s + 1) * m then turned pre T1 (fun j => ((s + 1) * m, j)) j else T1.at' i j
  t3 : ∀ i j, i < (s + 1) * m + 1 → j < (s + 1) * m + 1 → T3.at' i j = if j = 0 then turned pre T2 (fun i => (i, 0)) i else T2.at' i j
  t4 : ∀ i j, i < (s + 1) * m + 1 → j < (s + 1) * m + 1 → T4.at' i j = if j = (s + 1) * m then turned pre T3 (fun i => (i, (s + 1) * m)) i else T3.at' i j

theorem placed_border (hm : 0 < m) (hi : i < (s + 1) * m + 1) (hj : j < (s + 1) * m + 1) (h : i = 0 ∨ i = (s + 1) * m ∨ j = 0 ∨ j = (s + 1) * m) :
    placedCell n s m i j = if i % m = 0 ∧ j % m = 0 then .ystate else .routing := by
  unfold placedCell
  by_cases hl : i % m = 0 ∧ j % m = 0
  · have z1 := lat_zero hl.1
    have z2 := lat_zero hl.2
    have e1 := lat_end (s := s) hm hl.1
    have e2 := lat_end (s := s) hm hl.2
    rw [if_neg (by omega), if_pos hl, if_neg]
    rw [z1, z2, e1, e2] at h
    omega
  · rw [if_neg hl, if_pos (by omega)]

theorem placed_inner (hm : 0 < m) (hi : i < (s + 1) * m + 1) (hj : j < (s + 1) * m + 1) (h : ¬ (i = 0 ∨ i = (s + 1) * m ∨ j = 0 ∨ j = (s + 1) * m)) :
    placedCell n s m i j ≠ .ystate := by
  unfold placedCell
  by_cases hl : i % m = 0 ∧ j % m = 0
  · have z1 := lat_zero hl.1
    have z2 := lat_zero hl.2
    have e1 := lat_end (s := s) hm hl.1
    have e2 := lat_end (s := s) hm hl.2
    have a1 := lat_le hi
    have a2 := lat_le hj
    rw [if_neg (by omega), if_pos]
    · split <;> simp
    · rw [z1, z2, e1, e2] at h
      generalize i / m = a at *
      generalize j / m = b at *
      omega
  · rw [if_pos (by omega)]
    simp

theorem sides_plain {T0 T1 T2 T3 T4 : Table} {lanes : Nat} (h : Sides false n s (lanes + 1) T0 T1 T2 T3 T4) (hi : i < (s + 1) * (lanes + 1) + 1)
    (hj : j < (s + 1) * (lanes + 1) + 1) : T4.at' i j = edpcCell n s lanes false i j := by
  have hm : 0 < lanes + 1 := by omega
  have ht : ∀ a f y, turned false a f y = if a.at' (f y).1 (f y).2 = .ystate then .magic else a.at' (f y).1 (f y).2 := by
    intro a f y
    unfold turned
    simp
  have he : edpcCell n s lanes false i j = if placedCell n s (lanes + 1) i j = .ystate then .magic else placedCell n s (lanes + 1) i j := by
    unfold edpcCell placedCell
    dsimp only
    by_cases h1 : i % (lanes + 1) ≠ 0 ∨ j % (lanes + 1) ≠ 0
    · simp only [if_pos h1]; rfl
    · simp only [if_neg h1]
      by_cases h2 : 0 < i / (lanes + 1) ∧ i / (lanes + 1) ≤ s ∧ 0 < j / (lanes + 1) ∧ j / (lanes + 1) ≤ s
      · simp only [if_pos h2]
        split <;> rfl
      · simp only [if_neg h2, if_true]
  have hin : ¬ (i = 0 ∨ i = (s + 1) * (lanes + 1) ∨ j = 0 ∨ j = (s + 1) * (lanes + 1)) → placedCell n s (lanes + 1) i j ≠ .ystate := placed_inner hm hi hj
  have t0 := h.t0 i j hi hj
  have t1 := h.t1 i j hi hj
  have t2 := h.t2 i j hi hj
  have t3 := h.t3 i j hi hj
  have t4 := h.t4 i j hi hj
  simp only [ht] at t1 t2 t3 t4
  rw [he]
  generalize placedCell n s (lanes + 1) i j = c at *
  have s1 : T1.at' i j = if i = 0 then (if c = .ystate then .magic else c) else c := by
    rw [t1]; split
    · rename_i e; rw [e] at t0; rw [t0]
    · exact t0
  have s2 : T2.at' i j = if i = 0 ∨ i = (s + 1) * (lanes + 1) then (if c = .ystate then .magic else c) else c := by
    rw [t2]; split
    · rename_i e; rw [← e, s1]; split <;> (try split) <;> simp_all
    · rename_i e; rw [s1]; simp [e]
  have s3 : T3.at' i j = if i = 0 ∨ i = (s + 1) * (lanes + 1) ∨ j = 0 then (if c = .ystate then .magic else c) else c := by
    rw [t3]; split
    · rename_i e; rw [← e, s2]; split <;> (try split) <;> simp_all
    · rename_i e; rw [s2]; simp [e]
  rw [t4]
  split
  · rename_i e; rw [← e, s3]; split <;> (try split) <;> simp_all
  · rename_i e
    rw [s3]
    split
    · rfl
    · rename_i e'
      rw [if_neg (hin (by omega))]

theorem sides_turns {T0 T1 T2 T3 T4 : Table} {lanes : Nat} (h : Sides true n s (lanes + 1) T0 T1 T2 T3 T4) (hi : i < (s + 1) * (lanes + 1) + 1)
    (hj : j < (s + 1) * (lanes + 1) + 1) : T4.at' i j = edpcCell n s lanes true i j := by
  have hm : 0 < lanes + 1 := by omega
  have hE : 0 < (s + 1) * (lanes + 1) := Nat.mul_pos (by omega) hm
  have hEm : (s + 1) * (lanes + 1) % (lanes + 1) = 0 := Nat.mul_mod_left _ _
  have hEd : (s + 1) * (lanes + 1) / (lanes + 1) = s + 1 := Nat.mul_div_cancel _ hm
  have hpb := fun {i j : Nat} => placed_border (n := n) (s := s) (i := i) (j := j) hm
  have hpi := fun {i j : Nat} => placed_inner (n := n) (s := s) (i := i) (j := j) hm
  have hpc : edpcCell n s lanes true i j = if placedCell n s (lanes + 1) i j = .ystate then
      (let a := i / (lanes + 1); let b := j / (lanes + 1)
        if a = 0 ∨ a = s + 1 ∧ b ≠ 0 then (if b % 2 = 1 then .magic else .ystate)
        else if b = 0 then (if a % 2 = 1 then .magic else .ystate)
        else if (if s % 2 = 0 then a % 2 = 0 else a % 2 = 1) then .magic else .ystate) else placedCell n s (lanes + 1) i j := by
    unfold edpcCell placedCell
    dsimp only
    by_cases h1 : i % (lanes + 1) ≠ 0 ∨ j % (lanes + 1) ≠ 0
    · simp only [if_pos h1]; rfl
    · simp only [if_neg h1]
      by_cases h2 : 0 < i / (lanes + 1) ∧ i / (lanes + 1) ≤ s ∧ 0 < j / (lanes + 1) ∧ j / (lanes + 1) ≤ s
      · simp only [if_pos h2]
        split <;> rfl
      · simp only [if_neg h2, if_true]
        rw [if_neg (by simp)]
  generalize hEE : (s + 1) * (lanes + 1) = E at *
  generalize hmm : lanes + 1 = m at *
  -- the top row
  have r1 : ∀ j, j < E + 1 → T1.at' 0 j = turns m j := by
    intro j hj
    rw [h.t1 0 j (by omega) (by omega), if_pos rfl]
    refine turned_turns (e := E + 1) hm (fun y hy => ?_) j hj
    rw [h.t0 0 y (by omega) (by omega), hpb (by omega) (by omega) (.inl rfl)]
    simp
  -- the bottom row
  have r2 : ∀ j, j < E + 1 → T2.at' E j = turns m j := by
    intro j hj
    rw [h.t2 E j (by omega) (by omega), if_pos hEE.symm, hEE]
    refine turned_turns (e := E + 1) hm (fun y hy => ?_) j hj
    rw [h.t1 E y (by omega) (by omega), if_neg (by omega), h.t0 E y (by omega) (by omega), hpb (by omega) (by omega) (.inr (.inl rfl))]
    simp [hEm]
  have m2 : ∀ i j, i < E + 1 → j < E + 1 → i ≠ 0 → i ≠ E → T2.at' i j = placedCell n s m i j := by
    intro i j hi hj h1 h2
    rw [h.t2 i j (by omega) (by omega), if_neg (by omega), h.t1 i j (by omega) (by omega), if_neg h1, h.t0 i j (by omega) (by omega)]
  have c2 : ∀ j, j < E + 1 → T2.at' 0 j = turns m j := by
    intro j hj
    rw [h.t2 0 j (by omega) (by omega), if_neg (by omega), r1 j hj]
  have tz : turns m 0 = .ystate := by simp [turns]
  have te : turns m E = if s % 2 = 0 then .magic else .ystate := by
    unfold turns
    rw [if_pos hEm, hEd]
    split <;> split <;> first | rfl | omega
  -- the left column
  have r3 : ∀ i, i < E + 1 → T3.at' i 0 = turns m i := by
    intro i hi
    rw [h.t3 i 0 (by omega) (by omega), if_pos rfl]
    refine turned_turns (e := E + 1) hm (fun y hy => ?_) i hi
    show T2.at' y 0 = _
    by_cases h1 : y = 0
    · subst h1; rw [c2 0 (by omega), tz]; simp
    · by_cases h2 : y = E
      · subst h2; rw [r2 0 (by omega), tz, if_pos hEm]
      · rw [m2 y 0 hy (by omega) h1 h2, hpb (by omega) (by omega) (.inr (.inr (.inl rfl)))]
        simp
  have m3 : ∀ i j, i < E + 1 → j < E + 1 → j ≠ 0 → T3.at' i j = T2.at' i j := by
    intro i j hi hj h1
    rw [h.t3 i j (by omega) (by omega), if_neg h1]
  -- the right column
  have k0 : T3.at' 0 E = turns m E := by rw [m3 0 E (by omega) (by omega) (by omega), c2 E (by omega)]
  have kE : T3.at' E E = turns m E := by rw [m3 E E (by omega) (by omega) (by omega), r2 E (by omega)]
  have kM : ∀ i, 0 < i → i < E → T3.at' i E = if i % m = 0 then .ystate else .routing := by
    intro i h1 h2
    rw [m3 i E (by omega) (by omega) (by omega), m2 i E (by omega) (by omega) (by omega) (by omega), hpb (by omega) (by omega) (.inr (.inr (.inr rfl)))]
    simp [hEm]
  have r4 : ∀ i, i < E + 1 → T4.at' i E = turned true T3 (fun i => (i, E)) i := by
    intro i hi
    rw [h.t4 i E (by omega) (by omega), if_pos hEE.symm, hEE]
  have x0 : T4.at' 0 E = turns m E := by
    rw [r4 0 (by omega)]
    unfold turned
    rw [if_neg (by simp [met])]
    exact k0
  have xM : ∀ i, 0 < i → i < E → T4.at' i E = if i % m = 0 then (if (if s % 2 = 0 then i / m % 2 = 0 else i / m % 2 = 1) then .magic else .ystate) else .routing := by
    intro i h1 h2
    rw [r4 i (by omega)]
    have hq : i % m = 0 → 0 < i / m := fun hl => Nat.pos_of_ne_zero fun e => by have := (lat_zero hl).2 e; omega
    by_cases hs : s % 2 = 0
    · rw [if_pos hs] at te
      have hl := met_late (m := m) (a := T3) (f := fun i => (i, E)) (e := E) (by show T3.at' 0 E ≠ _; rw [k0, te]; simp)
        (fun y hy hy' => by show T3.at' y E = _ ↔ _; rw [kM y hy hy']; split <;> simp_all) (i - 1) (by omega)
      rw [Nat.sub_add_cancel h1] at hl
      unfold turned
      show (if T3.at' i E = .ystate ∧ _ then CellType.magic else T3.at' i E) = _
      rw [kM i h1 h2]
      by_cases h0 : i % m = 0
      · rw [upTo_lat hm h0] at hl
        have := hq h0
        simp only [h0, if_true, true_and, if_pos hs, true_implies]
        by_cases ho : i / m % 2 = 0
        · rw [if_pos (by omega), if_pos ho]
        · rw [if_neg (by omega), if_neg ho]
      · simp [h0]
    · rw [if_neg hs] at te
      have hl := met_upTo (m := m) (a := T3) (f := fun i => (i, E)) (e := E) (fun y hy => by
        show T3.at' y E = _ ↔ _
        by_cases hy0 : y = 0
        · subst hy0; rw [k0, te]; simp
        · rw [kM y (by omega) hy]; split <;> simp_all) i (by omega)
      unfold turned
      show (if T3.at' i E = .ystate ∧ _ then CellType.magic else T3.at' i E) = _
      rw [kM i h1 h2, hl]
      by_cases h0 : i % m = 0
      · rw [upTo_lat hm h0]
        simp only [h0, if_true, true_and, if_neg hs, true_implies]
      · simp [h0]
  have xE : T4.at' E E = turns m E := by
    rw [r4 E (by omega)]
    unfold turned
    show (if T3.at' E E = .ystate ∧ _ then CellType.magic else T3.at' E E) = _
    by_cases hs : s % 2 = 0
    · rw [if_pos hs] at te
      rw [kE, te, if_neg (by simp)]
    · rw [if_neg hs] at te
      have hl := met_upTo (m := m) (a := T3) (f := fun i => (i, E)) (e := E) (fun y hy => by
        show T3.at' y E = _ ↔ _
        by_cases hy0 : y = 0
        · subst hy0; rw [k0, te]; simp
        · rw [kM y (by omega) hy]; split <;> simp_all) E (by omega)
      rw [upTo_lat hm hEm, hEd] at hl
      rw [kE, te, hl, if_neg]
      rintro ⟨-, h2⟩
      have := h2 rfl
      omega
  have xN : ∀ i j, i < E + 1 → j < E → T4.at' i j = T3.at' i j := by
    intro i j hi hj
    rw [h.t4 i j (by omega) (by omega), if_neg (by omega)]
  -- everything
  rw [hpc]
  by_cases hb : i = 0 ∨ i = E ∨ j = 0 ∨ j = E
  · rw [hpb hi hj hb]
    by_cases hl : i % m = 0 ∧ j % m = 0
    · simp only [if_pos hl, if_true]
      have z1 := lat_zero hl.1
      have z2 := lat_zero hl.2
      have e1 := lat_end (s := s) hm hl.1
      have e2 := lat_end (s := s) hm hl.2
      rw [hEE] at e1 e2
      by_cases hjE : j = E
      · subst hjE
        rw [hEd]
        by_cases h0 : i = 0
        · rw [if_pos (.inl (z1.1 h0)), h0, x0, te]
          split <;> split <;> first | rfl | omega
        · by_cases h2 : i = j
          · rw [if_pos (.inr ⟨e1.1 h2, by omega⟩), h2, xE, te]
            split <;> split <;> first | rfl | omega
          · rw [if_neg (by rw [← z1, ← e1]; omega), if_neg (by omega), xM i (by omega) (by omega), if_pos hl.1]
      · rw [xN i j hi (by omega)]
        by_cases hj0 : j = 0
        · subst hj0
          rw [r3 i hi]
          unfold turns
          rw [if_pos hl.1]
          simp only [Nat.zero_div, ne_eq, not_true, and_false, or_false, if_true]
          by_cases e : i / m = 0
          · simp [e]
          · simp [e]
        · rw [m3 i j hi hj hj0]
          have hcase : i = 0 ∨ i = E := by omega
          have hrow : T2.at' i j = turns m j := by
            rcases hcase with rfl | rfl
            · exact c2 j hj
            · exact r2 j hj
          rw [hrow, if_pos (by rw [← z1, ← e1, ne_eq, ← z2]; omega)]
          unfold turns
          rw [if_pos hl.2]
    · simp only [if_neg hl, reduceCtorEq, if_false]
      by_cases hjE : j = E
      · subst hjE
        have hi0 : i % m ≠ 0 := fun e => hl ⟨e, hEm⟩
        rw [xM i (Nat.pos_of_ne_zero fun e => hi0 (by simp [e])) (by
          have : i ≠ j := fun e => hi0 (by rw [e]; exact hEm)
          omega), if_neg hi0]
      · rw [xN i j hi (by omega)]
        by_cases hj0 : j = 0
        · subst hj0
          rw [r3 i hi]
          unfold turns
          rw [if_neg (fun e => hl ⟨e, by simp⟩)]
        · rw [m3 i j hi hj hj0]
          have hcase : i = 0 ∨ i = E := by omega
          have hrow : T2.at' i j = turns m j ∧ i % m = 0 := by
            rcases hcase with rfl | rfl
            · exact ⟨c2 j hj, by simp⟩
            · exact ⟨r2 j hj, hEm⟩
          rw [hrow.1]
          unfold turns
          rw [if_neg (fun e => hl ⟨hrow.2, e⟩)]
  · rw [if_neg (hpi hi hj hb), xN i j hi (by omega), m3 i j hi hj (by omega), m2 i j hi hj (by omega) (by omega)]

theorem edge_side {pre : Bool} {blk : Nat × Nat → List (Nat × Nat)} (hb : ∀ p, blk p = []) {f : Nat → Nat × Nat} (hf : ∀ x y, f x = f y → x = y) {k : Nat} {a : Table}
    (hr : ∀ y, y < k → (f y).1 < a.rows ∧ (f y).2 < a.cols) :
    ∃ b, edge false pre blk ((List.range' 0 k).map f) a 0 = .ok b ∧ b.rows = a.rows ∧ b.cols = a.cols ∧
      (∀ y, y < k → b.at' (f y).1 (f y).2 = turned pre a f y) ∧ ∀ i j, (∀ y, y < k → (i, j) ≠ f y) → b.at' i j = a.at' i j := by
  obtain ⟨b, e1, e2, e3, e4, e5⟩ := edge_exact (pre := pre) hb hf (a0 := a) (k := k) (x := 0) (a := a) (fun y _ h => hr y (by omega)) (fun _ _ => rfl)
  exact ⟨b, e1, e2, e3, fun y h => e4 y (by omega) (by omega), fun i j h => e5 i j fun y _ h' => h y (by omega)⟩

theorem edpcTable_exact (n lanes : Nat) (pre : Bool) (hfit : (ceilSqrt n + 1) * (lanes + 1) + 1 < 2 ^ 64) :
    ∃ t, edpcTable n lanes false false pre = .ok t ∧ t.toGrid = edpcPicture n (ceilSqrt n) lanes pre := by
  have hcs := coreSide_eq hfit
  generalize hss : ceilSqrt n = s at *
  obtain ⟨p, ep, hp⟩ := placeRows_exact (n := n) (s := s) (lanes := lanes) hfit (k := (s + 1) * (lanes + 1) + 1) (i := 0) upto_start (Nat.zero_add _)
  have hE : 0 < (s + 1) * (lanes + 1) := Nat.mul_pos (by omega) (by omega)
  obtain ⟨T1, e1, a1, b1, c1, d1⟩ := edge_side (pre := pre) (blk := fun p => block (p.1 - 0) 0 (p.2 - 1) 3) (fun _ => block_none1) (f := fun j => (0, j)) (fun x y h => (Prod.mk.inj h).2)
    (k := (s + 1) * (lanes + 1) + 1) (a := p.table) (fun y hy => by rw [hp.rows, hp.cols]; exact ⟨by dsimp only; omega, hy⟩)
  obtain ⟨T2, e2, a2, b2, c2, d2⟩ := edge_side (pre := pre) (blk := fun p => block (p.1 + 1) 0 (p.2 - 1) 3) (fun _ => block_none1) (f := fun j => ((s + 1) * (lanes + 1), j))
    (fun x y h => (Prod.mk.inj h).2) (k := (s + 1) * (lanes + 1) + 1) (a := T1) (fun y hy => by rw [a1, b1, hp.rows, hp.cols]; exact ⟨by dsimp only; omega, hy⟩)
  obtain ⟨T3, e3, a3, b3, c3, d3⟩ := edge_side (pre := pre) (blk := fun p => block (p.1 - 1) 3 (p.2 - 0) 0) (fun _ => block_none2) (f := fun i => (i, 0))
    (fun x y h => (Prod.mk.inj h).1) (k := (s + 1) * (lanes + 1) + 1) (a := T2) (fun y hy => by rw [a2, b2, a1, b1, hp.rows, hp.cols]; exact ⟨hy, by dsimp only; omega⟩)
  obtain ⟨T4, e4, a4, b4, c4, d4⟩ := edge_side (pre := pre) (blk := fun p => block (p.1 - 1) 3 (p.2 + 1) 0) (fun _ => block_none2) (f := fun i => (i, (s + 1) * (lanes + 1)))
    (fun x y h => (Prod.mk.inj h).1) (k := (s + 1) * (lanes + 1) + 1) (a := T3) (fun y hy => by rw [a3, b3, a2, b2, a1, b1, hp.rows, hp.cols]; exact ⟨hy, by dsimp only; omega⟩)
  have hrows : T4.rows = (s + 1) * (lanes + 1) + 1 := by rw [a4, a3, a2, a1, hp.rows]
  have hcols : T4.cols = (s + 1) * (lanes + 1) + 1 := by rw [b4, b3, b2, b1, hp.cols]
  have hS : Sides pre n s (lanes + 1) p.table T1 T2 T3 T4 := by
    refine ⟨fun i j hi hj => ?_, fun i j hi hj => ?_, fun i j hi hj => ?_, fun i j hi hj => ?_, fun i j hi hj => ?_⟩
    · rw [hp.cell i j hj, if_pos (.inl hi)]
    · split
      · rename_i e; rw [e]; exact c1 j hj
      · rename_i e; exact d1 i j fun y _ h => e (Prod.mk.inj h).1
    · split
      · rename_i e; rw [e]; exact c2 j hj
      · rename_i e; exact d2 i j fun y _ h => e (Prod.mk.inj h).1
    · split
      · rename_i e; rw [e]; exact c3 i hi
      · rename_i e; exact d3 i j fun y _ h => e (Prod.mk.inj h).2
    · split
      · rename_i e; rw [e]; exact c4 i hi
      · rename_i e; exact d4 i j fun y _ h => e (Prod.mk.inj h).2
  refine ⟨bury 0 T4, ?_, ?_⟩
  · unfold edpcTable
    simp only [Bool.false_eq_true, if_false, hcs, Nat.mul_zero, Nat.add_zero, Nat.sub_zero, Nat.add_sub_cancel]
    rw [ep, Outcome.bind_ok]
    have e1' := e1
    simp only [Nat.sub_zero] at e1' e3
    rw [e1', Outcome.bind_ok, e2, Outcome.bind_ok, e3, Outcome.bind_ok, e4, Outcome.bind_ok]
  · unfold Table.toGrid edpcPicture
    show (List.range T4.rows).map (fun i => (List.range T4.cols).map fun j => (bury 0 T4).at' i j) = _
    rw [hrows, hcols]
    refine List.map_congr_left fun i hi => List.map_congr_left fun j hj => ?_
    rw [List.mem_range] at hi hj
    show (if 0 ≤ i ∧ i < T4.rows - 0 ∧ 0 ≤ j ∧ j < T4.cols - 0 then T4.at' i j else _) = _
    rw [if_pos (by rw [hrows, hcols]; omega)]
    cases pre
    · exact sides_plain hS hi hj
    · exact sides_turns hS hi hj

theorem ceilSqrt_least {r : Nat} (h : n ≤ r * r) : ceilSqrt n ≤ r := by
  have h1 := Nat.sqrt_le n
  unfold ceilSqrt
  split
  · refine Nat.le_of_not_lt fun hlt => ?_
    have := Nat.mul_self_lt_mul_self hlt
    omega
  · rename_i hne
    refine Nat.lt_of_not_le fun hle => ?_
    have := Nat.mul_self_le_mul_self hle
    omega

end

/-! ## The properties -/

/-- C40: the EDPC layout is the one of the picture, where the square is as small as it can be. -/
theorem c40_picture (n s lanes : Nat) (ystates : Bool) (o : Options) (hs : n ≤ s * s) (hmin : ∀ r, n ≤ r * r → s ≤ r) (hfit : (s + 1) * (lanes + 1) + 1 < 2 ^ 64) :
    makeEdpc n lanes false false ystates o = fromGrid (edpcPicture n s lanes ystates) o := by
  have e : ceilSqrt n = s := Nat.le_antisymm (ceilSqrt_least hs) (hmin _ (le_ceilSqrt n))
  subst e
  obtain ⟨t, h1, h2⟩ := edpcTable_exact n lanes ystates hfit
  unfold makeEdpc
  rw [h1, Outcome.bind_ok, h2]

/-- Five qubits, one lane and both kinds of states: the corners on the right are for magic states only if the side of the square is even. -/
example : edpcPicture 5 3 1 true =
    [[.ystate, .routing, .magic, .routing, .ystate, .routing, .magic, .routing, .ystate],
     [.routing, .routing, .routing, .routing, .routing, .routing, .routing, .routing, .routing],
     [.magic, .routing, .qubit, .routing, .qubit, .routing, .qubit, .routing, .magic],
     [.routing, .routing, .routing, .routing, .routing, .routing, .routing, .routing, .routing],
     [.ystate, .routing, .qubit, .routing, .qubit, .routing, .routing, .routing, .ystate],
     [.routing, .routing, .routing, .routing, .routing, .routing, .routing, .routing, .routing],
     [.magic, .routing, .routing, .routing, .routing, .routing, .routing, .routing, .magic],
     [.routing, .routing, .routing, .routing, .routing, .routing, .routing, .routing, .routing],
     [.ystate, .routing, .magic, .routing, .ystate, .routing, .magic, .routing, .ystate]] := by decide +kernel

example : makeEdpc 5 1 false false true {} = fromGrid (edpcPicture 5 3 1 true) {} :=
  c40_picture 5 3 1 true {} (by omega) (fun r h => by
    refine Nat.le_of_not_lt fun hlt => ?_
    have : r * r ≤ 2 * 2 := Nat.mul_le_mul (by omega) (by omega)
    omega) (by omega)

/-- C40: with distillation in the layout, the five rows and columns on each side are for distillation or dead, so no route leaves the square. -/
theorem c40_outside (n lanes : Nat) (ystates : Bool) (o : Options) (hfit : (n.sqrt + 2) * (lanes + 1) + 11 < 2 ^ 64) :
    ∃ g k, makeEdpc n lanes false true ystates o = fromGrid g o ∧ Rect g k k ∧ 10 < k ∧
      ∀ c kind, At g c kind → c.row < 5 ∨ (k : Int) - 5 ≤ c.row ∨ c.col < 5 ∨ (k : Int) - 5 ≤ c.col → kind = .dead ∨ kind = .distillation 0 := by
  have hsq := ceilSqrt_le n
  have hfit' : (ceilSqrt n + 1) * (lanes + 1) + 11 < 2 ^ 64 := by
    have : (ceilSqrt n + 1) * (lanes + 1) ≤ (n.sqrt + 2) * (lanes + 1) := Nat.mul_le_mul_right _ (by omega)
    omega
  obtain ⟨tb, t, core, e, ht, hcore, hr, hc, -, -, -, hout, -⟩ := edpcTable_spec n lanes true ystates hfit'
  simp only [if_true] at ht
  subst ht
  refine ⟨tb.toGrid, core + 10, ?_, ?_, by omega, ?_⟩
  · unfold makeEdpc; rw [e, Outcome.bind_ok]
  · have := rect_toGrid tb
    rw [hr, hc] at this
    exact this
  · intro c kind hat hpos
    obtain ⟨i, j, rfl, hi, hj, hk⟩ := at_toGrid.1 hat
    dsimp only at hpos
    have := hout i j (by unfold InCore; omega)
    rwa [hk] at this

/-- C40: the condensed layout has the same number of qubits, none of them on the border of the square, whose sides are shorter by one lane for every two qubits. With distillation inside, everything
further out is for distillation or dead. If there are lanes at all, every qubit has a routing cell above or below and one to the left or to the right. -/
theorem c40_condensed (n s lanes : Nat) (explicit ystates : Bool) (o : Options) (hs : n ≤ s * s) (hmin : ∀ r, n ≤ r * r → s ≤ r) (hfit : (s + 1) * (lanes + 1) + 11 < 2 ^ 64) :
    ∃ L g cs far, makeEdpc n lanes true explicit ystates o = .ok L ∧ fromGrid g o = .ok L ∧ Qubits L cs ∧ cs.length = n ∧ L.furthest = ⟨far, far⟩ ∧
      far = ((s + 1) * (lanes + 1) : Int) - lanes * (s / 2 : Nat) + (if explicit then 10 else 0) ∧
      let margin : Int := if explicit then 5 else 0
      (∀ c ∈ cs, margin < c.row ∧ c.row < far - margin ∧ margin < c.col ∧ c.col < far - margin) ∧
      (∀ c kind, At g c kind → c.row < margin ∨ far - margin < c.row ∨ c.col < margin ∨ far - margin < c.col → kind = .dead ∨ kind = .distillation 0) ∧
      (0 < lanes → ∀ c ∈ cs, (At g ⟨c.row - 1, c.col⟩ .routing ∨ At g ⟨c.row + 1, c.col⟩ .routing) ∧ (At g ⟨c.row, c.col - 1⟩ .routing ∨ At g ⟨c.row, c.col + 1⟩ .routing)) := by
  have e : ceilSqrt n = s := Nat.le_antisymm (ceilSqrt_least hs) (hmin _ (le_ceilSqrt n))
  subst e
  obtain ⟨tb, t, E, eT, ht, hE, hEpos, hr, hc, hcnt, hq, hout, hclash, hlane, -⟩ := Dense.dense_table n lanes explicit ystates hfit
  obtain ⟨L, k, eL, hl⟩ := fromGrid_ok (o := o) (rect_toGrid tb) (by omega) (by omega) hclash
  have hL := hl.eq
  have hfar : L.furthest = ⟨(tb.rows : Int) - 1, (tb.cols : Int) - 1⟩ := by rw [hL]
  have hcore : E = (ceilSqrt n + 1) * (lanes + 1) - lanes * (ceilSqrt n / 2) := by
    have h1 := coreSide_eq (n := n) (lanes := lanes) (by omega)
    have h2 : coreSide n lanes true = coreSide n lanes false - lanes * (ceilSqrt n / 2) := by
      unfold coreSide
      simp only [if_true, Bool.false_eq_true, if_false, Nat.sub_zero]
    have h3 : lanes * (ceilSqrt n / 2) ≤ (ceilSqrt n + 1) * (lanes + 1) := by
      rw [Nat.mul_comm]
      exact Nat.mul_le_mul (by omega) (by omega)
    omega
  have h3 : lanes * (ceilSqrt n / 2) ≤ (ceilSqrt n + 1) * (lanes + 1) := by
    rw [Nat.mul_comm]
    exact Nat.mul_le_mul (by omega) (by omega)
  have hm : (if explicit then 5 else 0 : Int) = t := by rw [ht]; cases explicit <;> rfl
  have hE2 : (E : Int) = ((ceilSqrt n : Int) + 1) * ((lanes : Int) + 1) - lanes * (ceilSqrt n / 2 : Nat) := by
    rw [hcore, Int.ofNat_sub h3]
    push_cast
    rfl
  refine ⟨L, tb.toGrid, findAll tb.toGrid .qubit, (E : Int) + 2 * t, ?_, eL, ⟨findAll_nodup _ _, by rw [hL]⟩, hcnt, ?_, ?_, ?_, ?_, ?_⟩
  · unfold makeEdpc; rw [eT, Outcome.bind_ok, eL]
  · rw [hfar, hr, hc]
    congr 1 <;> push_cast <;> omega
  · rw [← hE2]
    have : (if explicit then 10 else 0 : Int) = 2 * t := by rw [ht]; cases explicit <;> rfl
    rw [this]
  · intro c hcm
    obtain ⟨i, j, rfl, hi, hj, hk⟩ := at_toGrid.1 (mem_findAll.1 hcm)
    have := hq i j hk
    rw [hm]
    dsimp only
    omega
  · intro c kind hat hpos
    rw [hm] at hpos
    obtain ⟨i, j, rfl, hi, hj, hk⟩ := at_toGrid.1 hat
    dsimp only at hpos
    have := hout i j (by unfold InCore; omega)
    rwa [hk] at this
  · intro hl c hcm
    obtain ⟨i, j, rfl, hi, hj, hk⟩ := at_toGrid.1 (mem_findAll.1 hcm)
    obtain ⟨P, hP, hlane, -⟩ := hlane hl
    obtain ⟨⟨y, y1, y4, y5, y6⟩, z, z1, z4, z5, z6⟩ := hlane i j hk
    obtain ⟨i1, i2, j1, j2⟩ := hq i j hk
    have y2 : y < tb.rows := by omega
    have z2 : z < tb.cols := by omega
    have y3 := hP y j y4 y5 j1 j2 (.inl y6)
    have z3 := hP i z i1 i2 z4 z5 (.inr z6)
    dsimp only
    constructor
    · rcases y1 with y1 | y1
      · exact .inl (at_toGrid.2 ⟨y, j, by congr 1; omega, y2, hj, y3⟩)
      · exact .inr (at_toGrid.2 ⟨y, j, by congr 1; omega, y2, hj, y3⟩)
    · rcases z1 with z1 | z1
      · exact .inl (at_toGrid.2 ⟨i, z, by congr 1; omega, hi, z2, z3⟩)
      · exact .inr (at_toGrid.2 ⟨i, z, by congr 1; omega, hi, z2, z3⟩)

/-- Five qubits and one lane: eight rows instead of nine. -/
example : ∃ L g cs far, makeEdpc 5 1 true false true {} = .ok L ∧ fromGrid g {} = .ok L ∧ Qubits L cs ∧ cs.length = 5 ∧ L.furthest = ⟨far, far⟩ ∧ far = 7 ∧
    ∀ c ∈ cs, At g ⟨c.row - 1, c.col⟩ .routing ∨ At g ⟨c.row + 1, c.col⟩ .routing := by
  obtain ⟨L, g, cs, far, h1, h2, h3, h4, h5, h6, -, -, h9⟩ := c40_condensed 5 3 1 false true {} (by omega) (fun r h => by
    refine Nat.le_of_not_lt fun hlt => ?_
    have : r * r ≤ 2 * 2 := Nat.mul_le_mul (by omega) (by omega)
    omega) (by omega)
  exact ⟨L, g, cs, far, h1, h2, h3, h4, h5, by rw [h6]; decide, fun c hc => (h9 (by omega) c hc).1⟩

end Verif.Layouts.Spec
