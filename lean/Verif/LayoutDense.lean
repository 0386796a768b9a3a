import Verif.LayoutProps

/-! # The condensed EDPC layout: placing the qubits -/

namespace Verif.Layouts.Dense

open Verif Verif.Layouts

variable {n t E lanes : Nat}

theorem lattice_true {b lost : Nat} (h : lanes + 1 ≤ b) (hb : t + b < 2 ^ 64) :
    onLattice (t + b) t lanes true lost = decide ((b - (lanes + 1)) % (lanes + 2) = 0) := by
  unfold onLattice
  have e : (((t + b : Nat) : Int) - t - ((1 - ((1 : Nat) : Int)) * lost + ((1 : Nat) : Int)) * (lanes + 1 + (1 - ((1 : Nat) : Int)))) = ((b - (lanes + 1) : Nat) : Int) := by
    have e1 : (1 - ((1 : Nat) : Int)) = 0 := by simp
    rw [e1, Int.zero_mul]
    push_cast
    omega
  have e2 := wrap_nat (x := b - (lanes + 1)) (by omega)
  rw [← e] at e2
  simp at e2 ⊢
  rw [e2]
  norm_cast

theorem lattice_false {b lost : Nat} (h : lost * (lanes + 2) ≤ b) (hb : t + b < 2 ^ 64) :
    onLattice (t + b) t lanes false lost = decide ((b - lost * (lanes + 2)) % (lanes + 1) = 0) := by
  unfold onLattice
  have e : (((t + b : Nat) : Int) - t - ((1 - ((0 : Nat) : Int)) * lost + ((0 : Nat) : Int)) * (lanes + 1 + (1 - ((0 : Nat) : Int)))) = ((b - lost * (lanes + 2) : Nat) : Int) := by
    rw [Int.ofNat_sub h]
    push_cast
    rw [Int.one_mul, Int.add_zero]
    generalize (lost : Int) * _ = z
    omega
  have e2 := wrap_nat (x := b - lost * (lanes + 2)) (by omega)
  rw [← e] at e2
  simp at e2 ⊢
  rw [e2]
  norm_cast

/-- The first row (or column) of a group, not in the margin at the far end. -/
def Head (t E lanes x : Nat) : Prop := (∃ k, x = t + (lanes + 1) + k * (lanes + 2)) ∧ x ≤ t + (E - (lanes + 1))

/-- A row (or column) of a group. -/
def Post (t E lanes x : Nat) : Prop := ∃ k e, e ≤ 1 ∧ x = t + (lanes + 1) + k * (lanes + 2) + e ∧ x + lanes < t + E

theorem Head.post {x : Nat} (hm : lanes + 1 ≤ E) (h : Head t E lanes x) : Post t E lanes x := by
  obtain ⟨⟨k, hk⟩, hx⟩ := h
  exact ⟨k, 0, by omega, hk, by omega⟩

theorem Head.next {x : Nat} (hm : lanes + 1 ≤ E) (h : Head t E lanes x) (hl : x < t + (E - (lanes + 1))) : Post t E lanes (x + 1) := by
  obtain ⟨⟨k, hk⟩, hx⟩ := h
  exact ⟨k, 1, by omega, by rw [hk], by omega⟩

/-- A table with `k` qubits, at `ps`. -/
structure Tab (n t E lanes : Nat) (tb : Table) (k : Nat) (ps : List (Nat × Nat)) : Prop where
  rows : tb.rows = E + 1 + 2 * t
  cols : tb.cols = E + 1 + 2 * t
  nodup : ps.Nodup
  len : ps.length = k
  le : k ≤ n
  mem : ∀ x y, tb.at' x y = .qubit ↔ (x, y) ∈ ps
  inner : ∀ p ∈ ps, t < p.1 ∧ p.1 < t + E ∧ t < p.2 ∧ p.2 < t + E
  kind : ∀ x y, tb.at' x y = .routing ∨ tb.at' x y = .ystate ∨ tb.at' x y = .qubit
  out : ∀ x y, ¬ InCore t (E + 1) x y → tb.at' x y = .routing
  post : ∀ p ∈ ps, Post t E lanes p.1 ∧ Post t E lanes p.2
  clear : ∀ x y, t < x → x < t + E → t < y → y < t + E → tb.at' x y ≠ .ystate

theorem tab_start : Tab n t E lanes (Table.fresh (E + 1 + 2 * t) (E + 1 + 2 * t)) 0 [] :=
  ⟨rfl, rfl, .nil, rfl, Nat.zero_le _, fun _ _ => by simp [Table.fresh], fun p h => by simp at h, fun _ _ => .inl rfl, fun _ _ _ => rfl, fun p h => by simp at h, fun _ _ _ _ _ _ => by simp [Table.fresh]⟩

theorem putY {tb : Table} {k : Nat} {ps : List (Nat × Nat)} {x y : Nat} (h : Tab n t E lanes tb k ps) (hc : InCore t (E + 1) x y) (hb : x = t ∨ y = t ∨ x = t + E ∨ y = t + E) :
    ∃ tb', tb.put x y .ystate = .ok tb' ∧ Tab n t E lanes tb' k ps := by
  have hx : x < tb.rows ∧ y < tb.cols := by rw [h.rows, h.cols]; unfold InCore at hc; omega
  have hn : (x, y) ∉ ps := fun hm => by have := h.inner _ hm; dsimp only at this; omega
  refine ⟨tb.write x y .ystate, by rw [Table.put, if_pos hx], h.rows, h.cols, h.nodup, h.len, h.le, fun a b => ?_, h.inner, fun a b => ?_, fun a b hab => ?_, h.post, fun a b h1 h2 h3 h4 => ?_⟩
  · show (if _ then _ else _) = _ ↔ _
    split
    · rename_i e; obtain ⟨rfl, rfl⟩ := e; simp [hn]
    · exact h.mem a b
  · show (if _ then CellType.ystate else _) = _ ∨ (if _ then CellType.ystate else _) = _ ∨ (if _ then CellType.ystate else _) = _
    split
    · simp
    · exact h.kind a b
  · show (if _ then CellType.ystate else _) = _
    rw [if_neg (by rintro ⟨rfl, rfl⟩; exact hab hc)]
    exact h.out a b hab
  · show (if _ then CellType.ystate else _) ≠ _
    rw [if_neg (by rintro ⟨rfl, rfl⟩; omega)]
    exact h.clear a b h1 h2 h3 h4

theorem putQ {tb : Table} {k : Nat} {ps : List (Nat × Nat)} {x y : Nat} (h : Tab n t E lanes tb k ps) (hk : k < n) (hi : t < x ∧ x < t + E ∧ t < y ∧ y < t + E) (hn : (x, y) ∉ ps)
    (hP : Post t E lanes x ∧ Post t E lanes y) :
    ∃ tb', tb.put x y .qubit = .ok tb' ∧ Tab n t E lanes tb' (k + 1) ((x, y) :: ps) := by
  have hx : x < tb.rows ∧ y < tb.cols := by rw [h.rows, h.cols]; omega
  refine ⟨tb.write x y .qubit, by rw [Table.put, if_pos hx], h.rows, h.cols, List.nodup_cons.2 ⟨hn, h.nodup⟩, by simp [h.len], hk, fun a b => ?_, fun p hp => ?_, fun a b => ?_, fun a b hab => ?_, fun p hp => ?_,
    fun a b h1 h2 h3 h4 => ?_⟩
  · show (if _ then _ else _) = _ ↔ _
    rw [List.mem_cons, Prod.mk.injEq]
    split
    · rename_i e; simp [e]
    · rename_i e; rw [h.mem a b]; simp [e]
  · rcases List.mem_cons.1 hp with rfl | hp
    · exact hi
    · exact h.inner p hp
  · show (if _ then CellType.qubit else _) = _ ∨ (if _ then CellType.qubit else _) = _ ∨ (if _ then CellType.qubit else _) = _
    split
    · simp
    · exact h.kind a b
  · show (if _ then CellType.qubit else _) = _
    rw [if_neg (by rintro ⟨rfl, rfl⟩; exact hab (by unfold InCore; omega))]
    exact h.out a b hab
  · rcases List.mem_cons.1 hp with rfl | hp
    · exact hP
    · exact h.post p hp
  · show (if _ then CellType.qubit else _) ≠ _
    split
    · simp
    · exact h.clear a b h1 h2 h3 h4

theorem lastPair_eq (hm : lanes + 1 ≤ E) (hf : E + 1 + 2 * t < 2 ^ 64) : lastPair (E + 1 + 2 * t) t lanes = t + (E - (lanes + 1)) := by
  unfold lastPair
  have : (((E + 1 + 2 * t : Nat) : Int) - t - (lanes + 1) - 1) = ((t + (E - (lanes + 1)) : Nat) : Int) := by push_cast; omega
  rw [this, wrap_nat (by omega)]

/-- A visited cell of the border. -/
theorem visit_border {s : Place} {ps : List (Nat × Nat)} {i j : Nat} (hm : lanes + 1 ≤ E) (hf : E + 1 + 2 * t < 2 ^ 64) (h : Tab n t E lanes s.table s.placed ps)
    (hc : InCore t (E + 1) i j) (hb : i = t ∨ j = t ∨ i = t + E ∨ j = t + E) (hl : (onLattice i t lanes s.shiftV s.rowsLost && onLattice j t lanes s.shiftH s.colsLost) = true) :
    ∃ s', placeCell n lanes t true i j s = .ok s' ∧ Tab n t E lanes s'.table s.placed ps ∧ s'.placed = s.placed ∧ s'.rowsLost = s.rowsLost ∧
      s'.shiftH = (if t + (E - (lanes + 1)) ≤ j then false else if t < j then true else s.shiftH) ∧
      s'.colsLost = s.colsLost + (if t < j ∧ j < t + (E - (lanes + 1)) then 1 else 0) ∧
      s'.shiftV = (if t < i ∧ i < t + (E - (lanes + 1)) then true else s.shiftV) ∧
      s'.rowLost = (if t < i ∧ i < t + (E - (lanes + 1)) then true else s.rowLost) := by
  have hlp := lastPair_eq (t := t) hm hf
  have hc' := hc
  unfold InCore at hc'
  unfold placeCell
  rw [if_pos hl, if_pos (by rw [h.rows, h.cols]; omega)]
  obtain ⟨t1, e1, h1⟩ := putY h hc hb
  rw [e1, Outcome.bind_ok, if_pos rfl]
  unfold pairY
  dsimp only
  rw [h1.cols, hlp]
  by_cases hj : t < j ∧ j < t + (E - (lanes + 1))
  · obtain ⟨t2, e2, h2⟩ := putY (x := i) (y := j + 1) h1 (by unfold InCore; omega) (by omega)
    rw [if_pos hj, e2, Outcome.bind_ok, Outcome.bind_ok]
    dsimp only
    rw [h2.rows, hlp]
    by_cases hi : t < i ∧ i < t + (E - (lanes + 1))
    · omega
    · rw [if_neg hi, Outcome.bind_ok]
      dsimp only
      rw [h2.cols, hlp, if_neg (by omega)]
      refine ⟨_, rfl, h2, rfl, rfl, ?_, ?_, ?_, ?_⟩
      · rw [if_neg (by omega), if_pos hj.1]
      · rw [if_pos hj]
      · rw [if_neg hi]
      · rw [if_neg hi]
  · rw [if_neg hj, Outcome.bind_ok]
    dsimp only
    rw [h1.rows, hlp]
    by_cases hi : t < i ∧ i < t + (E - (lanes + 1))
    · obtain ⟨t2, e2, h2⟩ := putY (x := i + 1) (y := j) h1 (by unfold InCore; omega) (by omega)
      rw [if_pos hi, e2, Outcome.bind_ok, Outcome.bind_ok]
      dsimp only
      rw [h2.cols, hlp]
      by_cases hlj : t + (E - (lanes + 1)) ≤ j
      · rw [if_pos hlj]
        refine ⟨_, rfl, h2, rfl, rfl, ?_, ?_, ?_, ?_⟩
        · rw [if_pos hlj]
        · rw [if_neg hj]; rfl
        · rw [if_pos hi]
        · rw [if_pos hi]
      · rw [if_neg hlj]
        refine ⟨_, rfl, h2, rfl, rfl, ?_, ?_, ?_, ?_⟩
        · rw [if_neg hlj, if_neg (by omega)]
        · rw [if_neg hj]; rfl
        · rw [if_pos hi]
        · rw [if_pos hi]
    · rw [if_neg hi, Outcome.bind_ok]
      dsimp only
      rw [h1.cols, hlp]
      by_cases hlj : t + (E - (lanes + 1)) ≤ j
      · rw [if_pos hlj]
        refine ⟨_, rfl, h1, rfl, rfl, ?_, ?_, ?_, ?_⟩
        · rw [if_pos hlj]
        · rw [if_neg hj]; rfl
        · rw [if_neg hi]
        · rw [if_neg hi]
      · rw [if_neg hlj]
        refine ⟨_, rfl, h1, rfl, rfl, ?_, ?_, ?_, ?_⟩
        · rw [if_neg hlj, if_neg (by omega)]
        · rw [if_neg hj]; rfl
        · rw [if_neg hi]
        · rw [if_neg hi]

/-- All qubits are placed. -/
def Full (n t E lanes : Nat) (s : Place) : Prop := s.placed = n ∧ ∃ ps, Tab n t E lanes s.table n ps

theorem full_cell {s : Place} {i j : Nat} (hm : lanes + 1 ≤ E) (hf : E + 1 + 2 * t < 2 ^ 64) (h : Full n t E lanes s) (hc : InCore t (E + 1) i j) :
    ∃ s', placeCell n lanes t true i j s = .ok s' ∧ Full n t E lanes s' := by
  obtain ⟨hp, ps, hT⟩ := h
  by_cases hl : (onLattice i t lanes s.shiftV s.rowsLost && onLattice j t lanes s.shiftH s.colsLost) = true
  · by_cases hb : i = t ∨ j = t ∨ i = t + E ∨ j = t + E
    · obtain ⟨s', e, h1, h2, _⟩ := visit_border hm hf (by rw [hp]; exact hT) hc hb hl
      exact ⟨s', e, h2.trans hp, ps, by rw [← hp]; rw [hp] at h1 ⊢; exact h1⟩
    · unfold placeCell
      rw [if_pos hl, if_neg (by rw [hT.rows, hT.cols]; unfold InCore at hc; omega), if_neg (by omega)]
      refine ⟨_, rfl, ?_, ps, ?_⟩
      · unfold endPair; dsimp only; split <;> split <;> exact hp
      · unfold endPair; dsimp only; split <;> split <;> exact hT
  · unfold placeCell
    rw [if_neg hl]
    exact ⟨s, rfl, hp, ps, hT⟩

theorem full_row {i : Nat} (hm : lanes + 1 ≤ E) (hf : E + 1 + 2 * t < 2 ^ 64) :
    ∀ {js : List Nat} {s : Place}, Full n t E lanes s → (∀ j ∈ js, InCore t (E + 1) i j) → ∃ s', placeRow n lanes t true i js s = .ok s' ∧ Full n t E lanes s'
  | [], s, h, _ => ⟨s, rfl, h⟩
  | j :: js, s, h, hc => by
    obtain ⟨s1, e1, h1⟩ := full_cell hm hf h (hc j (by simp))
    obtain ⟨s2, e2, h2⟩ := full_row (i := i) (js := js) hm hf h1 (fun j' hj' => hc j' (by simp [hj']))
    exact ⟨s2, by rw [placeRow, e1, Outcome.bind_ok, e2], h2⟩

theorem full_rows (hm : lanes + 1 ≤ E) (hf : E + 1 + 2 * t < 2 ^ 64) {js : List Nat} :
    ∀ {is : List Nat} {s : Place}, Full n t E lanes s → (∀ i ∈ is, ∀ j ∈ js, InCore t (E + 1) i j) → ∃ s', placeRows n lanes t true js is s = .ok s' ∧ Full n t E lanes s'
  | [], s, h, _ => ⟨s, rfl, h⟩
  | i :: is, s, h, hc => by
    obtain ⟨s1, e1, h1⟩ := full_row (i := i) (s := { s with rowLost := false, colsLost := 0 }) (js := js) hm hf h (hc i (by simp))
    obtain ⟨s2, e2, h2⟩ := full_rows hm hf (js := js) (is := is) (s := { s1 with rowsLost := s1.rowsLost + if s1.rowLost then 1 else 0 }) h1 (fun i' hi' => hc i' (by simp [hi']))
    exact ⟨s2, by rw [placeRows, e1, Outcome.bind_ok, e2], h2⟩

theorem endPair_eq {s : Place} {i j LP : Nat} (h1 : lastPair s.table.rows t lanes = LP) (h2 : lastPair s.table.cols t lanes = LP) :
    endPair lanes t i j s = { s with shiftH := if LP ≤ j then false else s.shiftH, shiftV := if LP ≤ i then false else s.shiftV } := by
  unfold endPair
  dsimp only
  rw [h2]
  split
  · show (if lastPair s.table.rows t lanes ≤ i then _ else _) = _
    rw [h1]
    split <;> rfl
  · show (if lastPair s.table.rows t lanes ≤ i then _ else _) = _
    rw [h1]
    split <;> rfl

/-- A visited cell inside. -/
theorem visit_inner {s : Place} {ps : List (Nat × Nat)} {i j : Nat} (hm : lanes + 1 ≤ E) (hf : E + 1 + 2 * t < 2 ^ 64) (h : Tab n t E lanes s.table s.placed ps) (hp : s.placed < n)
    (hi : t < i ∧ i < t + E) (hj : t < j ∧ j < t + E) (hl : (onLattice i t lanes s.shiftV s.rowsLost && onLattice j t lanes s.shiftH s.colsLost) = true)
    (hn : ∀ p ∈ ps, p.1 < i ∨ p.2 < j) (hPi : Head t E lanes i) (hPj : Head t E lanes j) :
    ∃ s', placeCell n lanes t true i j s = .ok s' ∧ (Full n t E lanes s' ∨ ∃ ps', Tab n t E lanes s'.table s'.placed ps' ∧ (∀ p ∈ ps', p ∈ ps ∨ p.1 ≤ i + 1 ∧ p.2 ≤ j + 1) ∧
      s'.placed = s.placed + (if i < t + (E - (lanes + 1)) then 2 else 1) * (if j < t + (E - (lanes + 1)) then 2 else 1) ∧ s'.rowsLost = s.rowsLost ∧
      s'.shiftH = decide (j < t + (E - (lanes + 1))) ∧ s'.colsLost = s.colsLost + (if j < t + (E - (lanes + 1)) then 1 else 0) ∧
      s'.shiftV = decide (i < t + (E - (lanes + 1))) ∧ s'.rowLost = (if i < t + (E - (lanes + 1)) then true else s.rowLost)) := by
  have hlp := lastPair_eq (t := t) hm hf
  have p1 := hPi.post hm
  have p2 := hPj.post hm
  have p3 := hPi.next hm
  have p4 := hPj.next hm
  clear hPi hPj
  generalize hLP : t + (E - (lanes + 1)) = LP at *
  have hrows : ∀ {tb : Table} {k qs}, Tab n t E lanes tb k qs → lastPair tb.rows t lanes = LP := fun h => by rw [h.rows, hlp]
  have hcols : ∀ {tb : Table} {k qs}, Tab n t E lanes tb k qs → lastPair tb.cols t lanes = LP := fun h => by rw [h.cols, hlp]
  have hfull : ∀ {s' : Place} {qs}, Tab n t E lanes s'.table s'.placed qs → s'.placed = n → Full n t E lanes (endPair lanes t i j s') := by
    intro s' qs h1 h2
    refine ⟨?_, qs, ?_⟩
    · unfold endPair; dsimp only; split <;> split <;> exact h2
    · rw [h2] at h1
      unfold endPair; dsimp only; split <;> split <;> exact h1
  have hnot : ∀ {x y}, i ≤ x → j ≤ y → (x, y) ∉ ps := fun hx hy hmem => by have := hn _ hmem; dsimp only at this; omega
  unfold placeCell
  rw [if_pos hl, if_neg (by rw [h.rows, h.cols]; omega), if_pos hp]
  obtain ⟨t1, e1, h1⟩ := putQ (x := i) (y := j) h hp (by omega) (hnot (Nat.le_refl _) (Nat.le_refl _)) ⟨p1, p2⟩
  rw [e1, Outcome.bind_ok]
  dsimp only
  rw [if_pos rfl]
  unfold pairQ
  dsimp only
  by_cases hlt : s.placed + 1 < n
  · by_cases hA : j < LP
    · obtain ⟨t2, e2, h2⟩ := putQ (x := i) (y := j + 1) h1 hlt (by omega) (by simp [hnot]) ⟨p1, p4 hA⟩
      rw [if_pos ⟨hlt, by rw [hcols h1]; exact hA⟩, e2, Outcome.bind_ok, Outcome.bind_ok]
      dsimp only
      by_cases hlt2 : s.placed + 1 + 1 < n
      · by_cases hB : i < LP
        · obtain ⟨t3, e3, h3⟩ := putQ (x := i + 1) (y := j) h2 hlt2 (by omega) (by simp [hnot]) ⟨p3 hB, p2⟩
          rw [if_pos ⟨hlt2, by rw [hrows h2]; exact hB⟩, e3, Outcome.bind_ok, Outcome.bind_ok]
          dsimp only
          by_cases hlt3 : s.placed + 1 + 1 + 1 < n
          · obtain ⟨t4, e4, h4⟩ := putQ (x := i + 1) (y := j + 1) h3 hlt3 (by omega) (by simp [hnot]) ⟨p3 hB, p4 hA⟩
            rw [if_pos ⟨hlt3, by rw [hcols h3]; exact hA, by rw [hrows h3]; exact hB⟩, e4, Outcome.bind_ok, Outcome.bind_ok]
            refine ⟨_, rfl, .inr ?_⟩
            rw [endPair_eq (hrows h4) (hcols h4), if_neg (show ¬ LP ≤ j by omega), if_neg (show ¬ LP ≤ i by omega)]
            refine ⟨_, h4, ?_, ?_, rfl, ?_, ?_, ?_, ?_⟩
            · intro p hp
              simp only [List.mem_cons] at hp
              rcases hp with rfl | rfl | rfl | rfl | hp
              · exact .inr ⟨by dsimp only; omega, by dsimp only; omega⟩
              · exact .inr ⟨by dsimp only; omega, by dsimp only; omega⟩
              · exact .inr ⟨by dsimp only; omega, by dsimp only; omega⟩
              · exact .inr ⟨by dsimp only; omega, by dsimp only; omega⟩
              · exact .inl hp
            · rw [if_pos hB, if_pos hA]
            · simp [hA]
            · rw [if_pos hA]
            · simp [hB]
            · rw [if_pos hB]
          · rw [if_neg (fun h => hlt3 h.1), Outcome.bind_ok]
            exact ⟨_, rfl, .inl (hfull h3 (Nat.le_antisymm h3.le (Nat.le_of_not_lt hlt3)))⟩
        · rw [if_neg (fun h => hB (by rw [← hrows h2]; exact h.2)), Outcome.bind_ok]
          dsimp only
          rw [if_neg (fun h => hB (by rw [← hrows h2]; exact h.2.2)), Outcome.bind_ok]
          refine ⟨_, rfl, .inr ?_⟩
          rw [endPair_eq (hrows h2) (hcols h2), if_neg (show ¬ LP ≤ j by omega), if_pos (show LP ≤ i by omega)]
          refine ⟨_, h2, ?_, ?_, rfl, ?_, ?_, ?_, ?_⟩
          · intro p hp
            simp only [List.mem_cons] at hp
            rcases hp with rfl | rfl | hp
            · exact .inr ⟨by dsimp only; omega, by dsimp only; omega⟩
            · exact .inr ⟨by dsimp only; omega, by dsimp only; omega⟩
            · exact .inl hp
          · rw [if_neg hB, if_pos hA]
          · simp [hA]
          · rw [if_pos hA]
          · simp [hB]
          · rw [if_neg hB]
      · rw [if_neg (fun h => hlt2 h.1), Outcome.bind_ok]
        dsimp only
        rw [if_neg (fun h => hlt2 h.1), Outcome.bind_ok]
        exact ⟨_, rfl, .inl (hfull h2 (Nat.le_antisymm h2.le (Nat.le_of_not_lt hlt2)))⟩
    · rw [if_neg (fun h => hA (by rw [← hcols h1]; exact h.2)), Outcome.bind_ok]
      dsimp only
      by_cases hB : i < LP
      · obtain ⟨t3, e3, h3⟩ := putQ (x := i + 1) (y := j) h1 hlt (by omega) (by simp [hnot]) ⟨p3 hB, p2⟩
        rw [if_pos ⟨hlt, by rw [hrows h1]; exact hB⟩, e3, Outcome.bind_ok, Outcome.bind_ok]
        dsimp only
        rw [if_neg (fun h => hA (by rw [← hcols h3]; exact h.2.1)), Outcome.bind_ok]
        refine ⟨_, rfl, .inr ?_⟩
        rw [endPair_eq (hrows h3) (hcols h3), if_pos (show LP ≤ j by omega), if_neg (show ¬ LP ≤ i by omega)]
        refine ⟨_, h3, ?_, ?_, rfl, ?_, ?_, ?_, ?_⟩
        · intro p hp
          simp only [List.mem_cons] at hp
          rcases hp with rfl | rfl | hp
          · exact .inr ⟨by dsimp only; omega, by dsimp only; omega⟩
          · exact .inr ⟨by dsimp only; omega, by dsimp only; omega⟩
          · exact .inl hp
        · rw [if_pos hB, if_neg hA]
        · simp [hA]
        · rw [if_neg hA]; rfl
        · simp [hB]
        · rw [if_pos hB]
      · rw [if_neg (fun h => hB (by rw [← hrows h1]; exact h.2)), Outcome.bind_ok]
        dsimp only
        rw [if_neg (fun h => hA (by rw [← hcols h1]; exact h.2.1)), Outcome.bind_ok]
        refine ⟨_, rfl, .inr ?_⟩
        rw [endPair_eq (hrows h1) (hcols h1), if_pos (show LP ≤ j by omega), if_pos (show LP ≤ i by omega)]
        refine ⟨_, h1, ?_, ?_, rfl, ?_, ?_, ?_, ?_⟩
        · intro p hp
          simp only [List.mem_cons] at hp
          rcases hp with rfl | hp
          · exact .inr ⟨by dsimp only; omega, by dsimp only; omega⟩
          · exact .inl hp
        · rw [if_neg hB, if_neg hA]
        · simp [hA]
        · rw [if_neg hA]; rfl
        · simp [hB]
        · rw [if_neg hB]
  · rw [if_neg (fun h => hlt h.1), Outcome.bind_ok]
    dsimp only
    rw [if_neg (fun h => hlt h.1), Outcome.bind_ok]
    dsimp only
    rw [if_neg (fun h => hlt h.1), Outcome.bind_ok]
    exact ⟨_, rfl, .inl (hfull h1 (Nat.le_antisymm h1.le (Nat.le_of_not_lt hlt)))⟩

/-! ## A row -/

theorem skip_cols {i : Nat} {s : Place} : ∀ {js : List Nat}, (∀ j ∈ js, onLattice j t lanes s.shiftH s.colsLost = false) → placeRow n lanes t true i js s = .ok s
  | [], _ => rfl
  | j :: js, h => by
    rw [placeRow]
    unfold placeCell
    rw [if_neg (by simp [h j (by simp)]), Outcome.bind_ok]
    exact skip_cols fun j' hj' => h j' (by simp [hj'])

theorem skip_row {i : Nat} {s : Place} (h : onLattice i t lanes s.shiftV s.rowsLost = false) : ∀ {js : List Nat}, placeRow n lanes t true i js s = .ok s
  | [] => rfl
  | j :: js => by
    rw [placeRow]
    unfold placeCell
    rw [if_neg (by simp [h]), Outcome.bind_ok]
    exact skip_row h

theorem placeRow_append {i : Nat} : ∀ {as bs : List Nat} {s s1 : Place}, placeRow n lanes t true i as s = .ok s1 → placeRow n lanes t true i (as ++ bs) s = placeRow n lanes t true i bs s1
  | [], bs, s, s1, h => by cases h; rfl
  | a :: as, bs, s, s1, h => by
    rw [placeRow] at h
    obtain ⟨s2, h1, h2⟩ := Outcome.bind_eq_ok.1 h
    rw [List.cons_append, placeRow, h1, Outcome.bind_ok]
    exact placeRow_append h2

/-- A row with patches. -/
structure RowHyp (t E lanes i w r : Nat) (v0 v1 : Bool) : Prop where
  hi : i = t ∨ t < i ∧ i < t + E
  hw : w = if i = t then 0 else if i < t + (E - (lanes + 1)) then 2 else 1
  hv0 : onLattice i t lanes v0 r = true
  hv1 : onLattice i t lanes v1 r = true
  hc : i ≠ t → v1 = decide (i < t + (E - (lanes + 1)))
  head : i ≠ t → Head t E lanes i

theorem visit_row {s : Place} {ps : List (Nat × Nat)} {i j w r : Nat} {v0 v1 : Bool} (hm : lanes + 1 ≤ E) (hf : E + 1 + 2 * t < 2 ^ 64) (R : RowHyp t E lanes i w r v0 v1)
    (h : Tab n t E lanes s.table s.placed ps) (hn : ∀ p ∈ ps, p.1 < i ∨ p.2 < j) (hV : s.shiftV = v0 ∨ s.shiftV = v1) (hr : s.rowsLost = r)
    (hrl : s.rowLost = decide (t < i ∧ i < t + (E - (lanes + 1)))) (hj : t < j ∧ j < t + E) (hl : onLattice j t lanes s.shiftH s.colsLost = true) (hPj : Head t E lanes j) :
    ∃ s', placeCell n lanes t true i j s = .ok s' ∧ (Full n t E lanes s' ∨ ∃ ps', Tab n t E lanes s'.table s'.placed ps' ∧ (∀ p ∈ ps', p ∈ ps ∨ p.1 ≤ i + 1 ∧ p.2 ≤ j + 1) ∧
      s'.placed = s.placed + w * (if j < t + (E - (lanes + 1)) then 2 else 1) ∧ s'.rowsLost = r ∧
      s'.shiftH = decide (j < t + (E - (lanes + 1))) ∧ s'.colsLost = s.colsLost + (if j < t + (E - (lanes + 1)) then 1 else 0) ∧
      (s'.shiftV = v0 ∨ s'.shiftV = v1) ∧ s'.rowLost = decide (t < i ∧ i < t + (E - (lanes + 1)))) := by
  have hlat : (onLattice i t lanes s.shiftV s.rowsLost && onLattice j t lanes s.shiftH s.colsLost) = true := by
    rw [hl, Bool.and_true, hr]
    rcases hV with e | e <;> rw [e]
    · exact R.hv0
    · exact R.hv1
  rcases R.hi with hi | hi
  · obtain ⟨s', e, h1, h2, h3, h4, h5, h6, h7⟩ := visit_border hm hf h (by unfold InCore; omega) (.inl hi) hlat
    refine ⟨s', e, .inr ⟨ps, by rw [h2]; exact h1, fun p hp => .inl hp, ?_, h3.trans hr, ?_, ?_, ?_, ?_⟩⟩
    · rw [h2, R.hw, if_pos hi, Nat.zero_mul, Nat.add_zero]
    · rw [h4]
      by_cases hA : j < t + (E - (lanes + 1))
      · rw [if_neg (by omega), if_pos hj.1]; simp [hA]
      · rw [if_pos (by omega)]; simp [hA]
    · rw [h5]
      by_cases hA : j < t + (E - (lanes + 1))
      · rw [if_pos ⟨hj.1, hA⟩, if_pos hA]
      · rw [if_neg (fun h => hA h.2), if_neg hA]
    · rw [h6, if_neg (by omega)]; exact hV
    · rw [h7, if_neg (by omega)]; exact hrl
  · by_cases hp : s.placed < n
    · obtain ⟨s', e, h0 | ⟨ps', h1, h2, h3, h4, h5, h6, h7, h8⟩⟩ := visit_inner hm hf h hp hi hj hlat hn (R.head (by omega)) hPj
      · exact ⟨s', e, .inl h0⟩
      · refine ⟨s', e, .inr ⟨ps', h1, h2, ?_, h4.trans hr, h5, h6, .inr ?_, ?_⟩⟩
        · rw [h3, R.hw, if_neg (show ¬ i = t by omega)]
        · rw [h7, R.hc (by omega)]
        · rw [h8, hrl]
          split
          · rename_i hB; simp [hB, hi.1]
          · rfl
    · have hpn : s.placed = n := Nat.le_antisymm h.le (by omega)
      obtain ⟨s', e, h1⟩ := full_cell hm hf (s := s) (i := i) (j := j) ⟨hpn, ps, by rw [← hpn]; rw [hpn] at h ⊢; exact h⟩ (by unfold InCore; omega)
      exact ⟨s', e, .inl h1⟩

structure InRow (n t E lanes i base w r : Nat) (v0 v1 : Bool) (k : Nat) (s : Place) : Prop where
  placed : s.placed = base + k * (2 * w)
  lost : s.colsLost = k
  shiftH : s.shiftH = decide (0 < k)
  shiftV : s.shiftV = v0 ∨ s.shiftV = v1
  rowsLost : s.rowsLost = r
  rowLost : s.rowLost = decide (t < i ∧ i < t + (E - (lanes + 1)))
  tab : ∃ ps, Tab n t E lanes s.table s.placed ps ∧ ∀ p ∈ ps, p.1 < i ∨ p.1 ≤ i + 1 ∧ p.2 < t + (lanes + 1) + k * (lanes + 2)

variable {h o : Nat}

theorem group_step {i base w r k : Nat} {v0 v1 : Bool} {s : Place} (hE : E = lanes + 1 + h * (lanes + 2) + o * (lanes + 1)) (hf : E + 1 + 2 * t < 2 ^ 64) (R : RowHyp t E lanes i w r v0 v1)
    (H : InRow n t E lanes i base w r v0 v1 k s) (hk : k < h) :
    ∃ s', placeRow n lanes t true i (List.range' (t + (lanes + 1) + k * (lanes + 2)) (lanes + 2)) s = .ok s' ∧ (Full n t E lanes s' ∨ InRow n t E lanes i base w r v0 v1 (k + 1) s') := by
  have hk2 : (k + 1) * (lanes + 2) ≤ h * (lanes + 2) := Nat.mul_le_mul_right _ hk
  rw [Nat.add_mul, Nat.one_mul] at hk2
  have hm : lanes + 1 ≤ E := by rw [hE]; omega
  have hEle : lanes + 1 + h * (lanes + 2) ≤ E := by rw [hE]; omega
  obtain ⟨ps, hT, hps⟩ := H.tab
  have hfirst : onLattice (t + (lanes + 1) + k * (lanes + 2)) t lanes s.shiftH s.colsLost = true := by
    rw [H.shiftH, H.lost, Nat.add_assoc]
    by_cases h0 : 0 < k
    · rw [decide_eq_true h0, lattice_true (by omega) (by omega)]
      simp
    · have : k = 0 := by omega
      subst this
      rw [decide_eq_false h0, lattice_false (by omega) (by omega)]
      simp
  have hlt : t + (lanes + 1) + k * (lanes + 2) < t + (E - (lanes + 1)) := by omega
  obtain ⟨s1, e1, h1⟩ := visit_row (j := t + (lanes + 1) + k * (lanes + 2)) hm hf R hT (fun p hp => by rcases hps p hp with h | h <;> omega) H.shiftV H.rowsLost H.rowLost ⟨by omega, by omega⟩ hfirst ⟨⟨k, rfl⟩, by omega⟩
  have hsplit : List.range' (t + (lanes + 1) + k * (lanes + 2)) (lanes + 2) = (t + (lanes + 1) + k * (lanes + 2)) :: List.range' (t + (lanes + 1) + k * (lanes + 2) + 1) (lanes + 1) := List.range'_succ
  rw [hsplit, placeRow, e1, Outcome.bind_ok]
  rcases h1 with h1 | ⟨ps', g1, g2, g3, g4, g5, g6, g7, g8⟩
  · obtain ⟨s2, e2, h2⟩ := full_row (i := i) (js := List.range' (t + (lanes + 1) + k * (lanes + 2) + 1) (lanes + 1)) hm hf h1 (fun j hj => by
      rw [List.mem_range'_1] at hj
      have := R.hi
      unfold InCore
      omega)
    exact ⟨s2, e2, .inl h2⟩
  · rw [if_pos hlt] at g3 g6
    rw [decide_eq_true hlt] at g5
    refine ⟨s1, skip_cols fun j hj => ?_, .inr ⟨?_, ?_, ?_, g7, g4, g8, ps', g1, fun p hp => ?_⟩⟩
    · rw [List.mem_range'_1] at hj
      obtain ⟨d, hd⟩ : ∃ d, j = t + (lanes + 1 + (k * (lanes + 2) + d)) := ⟨j - (t + (lanes + 1) + k * (lanes + 2)), by omega⟩
      rw [g5, hd, lattice_true (by omega) (by omega)]
      have : (lanes + 1 + (k * (lanes + 2) + d) - (lanes + 1)) % (lanes + 2) = d := by
        rw [Nat.add_sub_cancel_left, Nat.mul_comm, Nat.mul_add_mod, Nat.mod_eq_of_lt (by omega)]
      rw [this]
      simp
      omega
    · rw [g3, H.placed, Nat.add_mul, Nat.one_mul, Nat.mul_comm w 2]; omega
    · rw [g6, H.lost]
    · rw [g5]; simp
    · rw [Nat.add_mul, Nat.one_mul]
      rcases g2 p hp with h | h
      · rcases hps p h with h | h
        · exact .inl h
        · exact .inr ⟨h.1, by omega⟩
      · exact .inr ⟨h.1, by omega⟩

theorem groups {i base w r : Nat} {v0 v1 : Bool} (hE : E = lanes + 1 + h * (lanes + 2) + o * (lanes + 1)) (hf : E + 1 + 2 * t < 2 ^ 64) (R : RowHyp t E lanes i w r v0 v1) :
    ∀ {d k : Nat} {s : Place}, InRow n t E lanes i base w r v0 v1 k s → k + d = h →
      ∃ s', placeRow n lanes t true i (List.range' (t + (lanes + 1) + k * (lanes + 2)) (d * (lanes + 2))) s = .ok s' ∧ (Full n t E lanes s' ∨ InRow n t E lanes i base w r v0 v1 h s')
  | 0, k, s, H, hk => by
    rw [Nat.add_zero] at hk
    subst hk
    exact ⟨s, by rw [Nat.zero_mul]; rfl, .inr H⟩
  | d + 1, k, s, H, hk => by
    obtain ⟨s1, e1, h1⟩ := group_step hE hf R H (by omega)
    have hk2 : (k + 1 + d) * (lanes + 2) = h * (lanes + 2) := by rw [← hk]; congr 1; omega
    rw [Nat.add_mul, Nat.add_mul, Nat.one_mul] at hk2
    have hEle : lanes + 1 + h * (lanes + 2) ≤ E := by rw [hE]; omega
    have hsplit : List.range' (t + (lanes + 1) + k * (lanes + 2)) ((d + 1) * (lanes + 2)) =
        List.range' (t + (lanes + 1) + k * (lanes + 2)) (lanes + 2) ++ List.range' (t + (lanes + 1) + (k + 1) * (lanes + 2)) (d * (lanes + 2)) := by
      rw [Nat.add_mul d, Nat.one_mul, Nat.add_comm (d * (lanes + 2)), ← List.range'_append_1, Nat.add_mul k, Nat.one_mul, Nat.add_assoc (t + (lanes + 1))]
    rw [hsplit, placeRow_append e1]
    rcases h1 with h1 | h1
    · obtain ⟨s2, e2, h2⟩ := full_row (i := i) (js := List.range' (t + (lanes + 1) + (k + 1) * (lanes + 2)) (d * (lanes + 2))) (show lanes + 1 ≤ E by omega) hf h1 (fun j hj => by
        rw [List.mem_range'_1, Nat.add_mul, Nat.one_mul] at hj
        have := R.hi
        unfold InCore
        omega)
      exact ⟨s2, e2, .inl h2⟩
    · exact groups hE hf R h1 (by omega)

/-- After a row. -/
structure RowEnd (n t E lanes i placed r : Nat) (v0 v1 : Bool) (s : Place) : Prop where
  placed : s.placed = placed
  shiftH : s.shiftH = false
  shiftV : s.shiftV = v0 ∨ s.shiftV = v1
  rowsLost : s.rowsLost = r
  rowLost : s.rowLost = decide (t < i ∧ i < t + (E - (lanes + 1)))
  tab : ∃ ps, Tab n t E lanes s.table s.placed ps ∧ ∀ p ∈ ps, p.1 ≤ i + 1

/-- The last column. -/
theorem last_col {s : Place} {ps : List (Nat × Nat)} {i w r : Nat} {v0 v1 : Bool} (hm : lanes + 1 ≤ E) (hf : E + 1 + 2 * t < 2 ^ 64) (R : RowHyp t E lanes i w r v0 v1)
    (h : Tab n t E lanes s.table s.placed ps) (hn : ∀ p ∈ ps, p.1 ≤ i + 1) (hV : s.shiftV = v0 ∨ s.shiftV = v1) (hr : s.rowsLost = r)
    (hrl : s.rowLost = decide (t < i ∧ i < t + (E - (lanes + 1)))) (hs : s.shiftH = false ∨ onLattice (t + E) t lanes s.shiftH s.colsLost = true) :
    ∃ s', placeCell n lanes t true i (t + E) s = .ok s' ∧ RowEnd n t E lanes i s.placed r v0 v1 s' := by
  have hlat : onLattice i t lanes s.shiftV s.rowsLost = true := by
    rw [hr]
    rcases hV with e | e <;> rw [e]
    · exact R.hv0
    · exact R.hv1
  by_cases hl : onLattice (t + E) t lanes s.shiftH s.colsLost = true
  · have := R.hi
    obtain ⟨s', e, h1, h2, h3, h4, h5, h6, h7⟩ := visit_border hm hf h (i := i) (j := t + E) (by unfold InCore; omega) (.inr (.inr (.inr rfl))) (by rw [hlat, hl]; rfl)
    refine ⟨s', e, h2, ?_, ?_, h3.trans hr, ?_, ps, by rw [h2]; exact h1, hn⟩
    · rw [h4, if_pos (by omega)]
    · rw [h6]
      split
      · rename_i hB
        rw [R.hc (by omega)]
        simp [hB]
      · exact hV
    · rw [h7, hrl]
      split
      · rename_i hB; simp [hB]
      · rfl
  · refine ⟨s, ?_, rfl, hs.resolve_right hl, hV, hr, hrl, ps, h, hn⟩
    unfold placeCell
    rw [if_neg (by simp [hl])]

/-- Before a row. -/
structure Fresh (n t E lanes i placed r : Nat) (v : Bool) (s : Place) : Prop where
  placed : s.placed = placed
  shiftH : s.shiftH = false
  shiftV : s.shiftV = v
  rowsLost : s.rowsLost = r
  tab : ∃ ps, Tab n t E lanes s.table s.placed ps ∧ ∀ p ∈ ps, p.1 < i

theorem whole_row {s : Place} {i base w r : Nat} {v v1 : Bool} (ho : o ≤ 1) (hE : E = lanes + 1 + h * (lanes + 2) + o * (lanes + 1)) (hf : E + 1 + 2 * t < 2 ^ 64) (hho : 0 < h + o)
    (R : RowHyp t E lanes i w r (if t < i ∧ i < t + (E - (lanes + 1)) then true else v) v1) (hv : onLattice i t lanes v r = true)
    (H : Fresh n t E lanes i base r v s) :
    ∃ s', placeRow n lanes t true i (List.range' t (E + 1)) { s with rowLost := false, colsLost := 0 } = .ok s' ∧
      (Full n t E lanes s' ∨ RowEnd n t E lanes i (base + w * (2 * h + o)) r (if t < i ∧ i < t + (E - (lanes + 1)) then true else v) v1 s') := by
  have hm : lanes + 1 ≤ E := by rw [hE]; omega
  have hEle : lanes + 1 + h * (lanes + 2) ≤ E := by rw [hE]; omega
  have hLP : 0 < E - (lanes + 1) := by
    rw [hE]
    rcases Nat.eq_zero_or_pos h with h0 | h0
    · have : o = 1 := by omega
      subst this; omega
    · have : 1 * (lanes + 2) ≤ h * (lanes + 2) := Nat.mul_le_mul_right _ h0
      omega
  obtain ⟨ps, hT, hps⟩ := H.tab
  have hsplit : List.range' t (E + 1) = t :: (List.range' (t + 1) lanes ++ (List.range' (t + (lanes + 1)) (h * (lanes + 2)) ++ List.range' (t + (lanes + 1) + h * (lanes + 2)) (o * (lanes + 1) + 1))) := by
    rw [List.range'_append_1, show t + (lanes + 1) = t + 1 + lanes by omega, List.range'_append_1, ← List.range'_succ]
    congr 1
    rw [hE]; omega
  have hRi := R.hi
  have core : ∀ {a b : Nat}, t ≤ a → a + b ≤ t + E + 1 → ∀ j ∈ List.range' a b, InCore t (E + 1) i j := by
    intro a b h1 h2 j hj
    rw [List.mem_range'_1] at hj
    unfold InCore
    omega
  -- the first column
  obtain ⟨s1, e1, a1, a2, a3, a4, a5, a6, a7⟩ := visit_border (s := { s with rowLost := false, colsLost := 0 }) (i := i) (j := t) hm hf hT (by unfold InCore; omega) (.inr (.inl rfl)) (by
    show (onLattice i t lanes s.shiftV s.rowsLost && onLattice t t lanes s.shiftH 0) = true
    rw [H.shiftV, H.rowsLost, H.shiftH, hv, Bool.true_and]
    have := lattice_false (t := t) (lanes := lanes) (b := 0) (lost := 0) (by omega) (by omega)
    rw [Nat.add_zero] at this
    rw [this]
    simp)
  change s1.placed = s.placed at a2
  change s1.rowsLost = s.rowsLost at a3
  have hrow : InRow n t E lanes i base w r (if t < i ∧ i < t + (E - (lanes + 1)) then true else v) v1 0 s1 := by
    refine ⟨?_, ?_, ?_, .inl ?_, a3.trans H.rowsLost, ?_, ps, by rw [a2]; exact a1, fun p hp => .inl (hps p hp)⟩
    · rw [a2, H.placed]; omega
    · rw [a5, if_neg (by omega)]
    · rw [a4, if_neg (by omega), if_neg (by omega)]; exact H.shiftH
    · rw [a6]
      show (if _ then true else s.shiftV) = _
      rw [H.shiftV]
    · rw [a7]
      split
      · rename_i hB; simp [hB]
      · rename_i hB; simp [hB]
  have hskip : placeRow n lanes t true i (List.range' (t + 1) lanes) s1 = .ok s1 := by
    refine skip_cols fun j hj => ?_
    rw [List.mem_range'_1] at hj
    obtain ⟨d, hd⟩ : ∃ d, j = t + d := ⟨j - t, by omega⟩
    rw [hrow.shiftH, hrow.lost, hd, decide_eq_false (by omega), lattice_false (by omega) (by omega)]
    rw [Nat.zero_mul, Nat.sub_zero, Nat.mod_eq_of_lt (by omega)]
    simp
    omega
  obtain ⟨s2, e2, h2⟩ := groups hE hf R hrow (d := h) (Nat.zero_add _)
  rw [Nat.zero_mul, Nat.add_zero] at e2
  rw [hsplit, placeRow, e1, Outcome.bind_ok, placeRow_append hskip, placeRow_append e2]
  rcases h2 with h2 | h2
  · obtain ⟨s3, e3, h3⟩ := full_row (i := i) hm hf h2 (core (a := t + (lanes + 1) + h * (lanes + 2)) (b := o * (lanes + 1) + 1) (by omega) (by rw [hE]; omega))
    exact ⟨s3, e3, .inl h3⟩
  · obtain ⟨qs, hQ, hqs⟩ := h2.tab
    rcases Nat.eq_zero_or_pos o with h0 | h0
    · -- an even number: the last column follows
      subst h0
      have hh : 0 < h := by omega
      have hEe : t + (lanes + 1) + h * (lanes + 2) = t + E := by rw [hE]; omega
      rw [hEe, Nat.zero_mul]
      obtain ⟨s3, e3, h3⟩ := last_col hm hf R hQ (fun p hp => by rcases hqs p hp with h | h <;> omega) h2.shiftV h2.rowsLost h2.rowLost (.inr (by
        rw [h2.shiftH, decide_eq_true hh, lattice_true hm (by omega)]
        have : E - (lanes + 1) = h * (lanes + 2) := by rw [hE]; omega
        rw [this]
        simp))
      refine ⟨s3, ?_, .inr ?_⟩
      · show placeRow n lanes t true i [t + E] s2 = _
        rw [placeRow, e3, Outcome.bind_ok]; rfl
      · have e : base + w * (2 * h + 0) = s2.placed := by
          rw [h2.placed, Nat.add_zero, Nat.mul_comm w, Nat.mul_comm 2 h, Nat.mul_assoc]
        rw [e]
        exact h3
    · -- an odd number: one more
      have h1 : o = 1 := by omega
      subst h1
      have hlast : t + (E - (lanes + 1)) = t + (lanes + 1) + h * (lanes + 2) := by rw [hE]; omega
      have hEe : t + E = t + (lanes + 1) + h * (lanes + 2) + (lanes + 1) := by rw [hE]; omega
      obtain ⟨s3, e3, h3⟩ := visit_row (j := t + (lanes + 1) + h * (lanes + 2)) hm hf R hQ (fun p hp => by rcases hqs p hp with h | h <;> omega) h2.shiftV h2.rowsLost h2.rowLost
        ⟨by omega, by omega⟩ (by
          rw [h2.shiftH, h2.lost, Nat.add_assoc]
          by_cases hh : 0 < h
          · rw [decide_eq_true hh, lattice_true (by omega) (by omega)]
            simp
          · have : h = 0 := by omega
            subst this
            rw [decide_eq_false hh, lattice_false (by omega) (by omega)]
            simp) ⟨⟨h, rfl⟩, by omega⟩
      have hsp : List.range' (t + (lanes + 1) + h * (lanes + 2)) (1 * (lanes + 1) + 1) =
          (t + (lanes + 1) + h * (lanes + 2)) :: (List.range' (t + (lanes + 1) + h * (lanes + 2) + 1) lanes ++ [t + E]) := by
        rw [Nat.one_mul, List.range'_succ, ← List.range'_append_1, hEe]
        congr 2
        rw [Nat.add_assoc _ 1 lanes, Nat.add_comm 1 lanes]
        rfl
      rw [hsp, placeRow, e3, Outcome.bind_ok]
      rcases h3 with h3 | ⟨ps', g1, g2, g3, g4, g5, g6, g7, g8⟩
      · obtain ⟨s4, e4, h4⟩ := full_row (i := i) (js := List.range' (t + (lanes + 1) + h * (lanes + 2) + 1) lanes ++ [t + E]) hm hf h3 (fun j hj => by
          rw [List.mem_append, List.mem_range'_1, List.mem_singleton] at hj
          unfold InCore
          omega)
        exact ⟨s4, e4, .inl h4⟩
      · rw [if_neg (by omega)] at g3 g6
        rw [decide_eq_false (by omega)] at g5
        rw [placeRow_append (s1 := s3) (skip_cols fun j hj => by
          rw [List.mem_range'_1] at hj
          obtain ⟨d, hd⟩ : ∃ d, j = t + (h * (lanes + 2) + (lanes + 1 + d)) := ⟨j - (t + (lanes + 1) + h * (lanes + 2)), by omega⟩
          rw [g5, g6, h2.lost, Nat.add_zero, hd, lattice_false (by omega) (by omega), Nat.add_sub_cancel_left, Nat.add_mod_left, Nat.mod_eq_of_lt (by omega)]
          simp
          omega)]
        obtain ⟨s4, e4, h4⟩ := last_col hm hf R g1 (fun p hp => by
          rcases g2 p hp with h | h
          · rcases hqs p h with h | h <;> omega
          · exact h.1) g7 g4 g8 (.inl g5)
        refine ⟨s4, ?_, .inr ?_⟩
        · rw [placeRow, e4, Outcome.bind_ok]; rfl
        · have e : base + w * (2 * h + 1) = s3.placed := by
            rw [g3, h2.placed, Nat.mul_add, ← Nat.mul_assoc w, Nat.mul_comm w 2, Nat.mul_comm (2 * w) h]
            omega
          rw [e]
          exact h4

/-! ## All rows -/

theorem placeRows_append {js : List Nat} : ∀ {as bs : List Nat} {s s1 : Place}, placeRows n lanes t true js as s = .ok s1 → placeRows n lanes t true js (as ++ bs) s = placeRows n lanes t true js bs s1
  | [], bs, s, s1, h => by cases h; rfl
  | a :: as, bs, s, s1, h => by
    rw [placeRows] at h
    obtain ⟨s2, h1, h2⟩ := Outcome.bind_eq_ok.1 h
    rw [List.cons_append, placeRows, h1, Outcome.bind_ok]
    exact placeRows_append h2

theorem skip_rows {js : List Nat} {i0 placed r : Nat} {v : Bool} : ∀ {is : List Nat} {s : Place}, Fresh n t E lanes i0 placed r v s → (∀ i ∈ is, onLattice i t lanes v r = false) →
    ∃ s', placeRows n lanes t true js is s = .ok s' ∧ Fresh n t E lanes i0 placed r v s'
  | [], s, H, _ => ⟨s, rfl, H⟩
  | i :: is, s, H, h => by
    have e : placeRow n lanes t true i js { s with rowLost := false, colsLost := 0 } = .ok { s with rowLost := false, colsLost := 0 } :=
      skip_row (by show onLattice i t lanes s.shiftV s.rowsLost = false; rw [H.shiftV, H.rowsLost]; exact h i (by simp))
    obtain ⟨s2, e2, h2⟩ := skip_rows (js := js) (is := is)
      (s := { s with rowLost := false, colsLost := 0, rowsLost := s.rowsLost + if false then 1 else 0 })
      ⟨H.placed, H.shiftH, H.shiftV, H.rowsLost, H.tab⟩ (fun i' hi' => h i' (by simp [hi']))
    exact ⟨s2, by rw [placeRows, e, Outcome.bind_ok]; exact e2, h2⟩

theorem fresh_mono {i i' placed r : Nat} {v : Bool} {s : Place} (H : Fresh n t E lanes i placed r v s) (h : i ≤ i') : Fresh n t E lanes i' placed r v s := by
  obtain ⟨ps, h1, h2⟩ := H.tab
  exact ⟨H.placed, H.shiftH, H.shiftV, H.rowsLost, ps, h1, fun p hp => Nat.lt_of_lt_of_le (h2 p hp) h⟩

theorem row_step {k : Nat} {s : Place} (ho : o ≤ 1) (hE : E = lanes + 1 + h * (lanes + 2) + o * (lanes + 1)) (hf : E + 1 + 2 * t < 2 ^ 64) (hk : k < h)
    (H : Fresh n t E lanes (t + (lanes + 1) + k * (lanes + 2)) (k * (2 * (2 * h + o))) k (decide (0 < k)) s) :
    ∃ s', placeRows n lanes t true (List.range' t (E + 1)) (List.range' (t + (lanes + 1) + k * (lanes + 2)) (lanes + 2)) s = .ok s' ∧
      (Full n t E lanes s' ∨ Fresh n t E lanes (t + (lanes + 1) + (k + 1) * (lanes + 2)) ((k + 1) * (2 * (2 * h + o))) (k + 1) (decide (0 < k + 1)) s') := by
  have hk2 : (k + 1) * (lanes + 2) ≤ h * (lanes + 2) := Nat.mul_le_mul_right _ hk
  rw [Nat.add_mul, Nat.one_mul] at hk2
  have hm : lanes + 1 ≤ E := by rw [hE]; omega
  have hEle : lanes + 1 + h * (lanes + 2) ≤ E := by rw [hE]; omega
  have hcond : t < t + (lanes + 1) + k * (lanes + 2) ∧ t + (lanes + 1) + k * (lanes + 2) < t + (E - (lanes + 1)) := by omega
  have hlat : onLattice (t + (lanes + 1) + k * (lanes + 2)) t lanes true k = true := by
    rw [Nat.add_assoc, lattice_true (by omega) (by omega)]
    simp
  have R : RowHyp t E lanes (t + (lanes + 1) + k * (lanes + 2)) 2 k
      (if t < t + (lanes + 1) + k * (lanes + 2) ∧ t + (lanes + 1) + k * (lanes + 2) < t + (E - (lanes + 1)) then true else decide (0 < k)) true := by
    refine ⟨.inr (by omega), ?_, ?_, hlat, fun _ => ?_, fun _ => ⟨⟨k, rfl⟩, by omega⟩⟩
    · rw [if_neg (by omega), if_pos hcond.2]
    · rw [if_pos hcond]; exact hlat
    · simp [hcond.2]
  obtain ⟨s1, e1, h1⟩ := whole_row ho hE hf (by omega) R (by
    by_cases h0 : 0 < k
    · rw [decide_eq_true h0]; exact hlat
    · have : k = 0 := by omega
      subst this
      rw [decide_eq_false h0, Nat.add_assoc, lattice_false (by omega) (by omega)]
      simp) H
  have hsplit : List.range' (t + (lanes + 1) + k * (lanes + 2)) (lanes + 2) = (t + (lanes + 1) + k * (lanes + 2)) :: List.range' (t + (lanes + 1) + k * (lanes + 2) + 1) (lanes + 1) := List.range'_succ
  rw [hsplit, placeRows, e1, Outcome.bind_ok]
  rcases h1 with h1 | h1
  · obtain ⟨s2, e2, h2⟩ := full_rows (lanes := lanes) (js := List.range' t (E + 1)) (is := List.range' (t + (lanes + 1) + k * (lanes + 2) + 1) (lanes + 1)) hm hf
      (s := { s1 with rowsLost := s1.rowsLost + if s1.rowLost then 1 else 0 }) h1 (fun i hi j hj => by
        rw [List.mem_range'_1] at hi hj
        unfold InCore
        omega)
    exact ⟨s2, e2, .inl h2⟩
  · rw [if_pos hcond] at h1
    obtain ⟨ps, hT, hps⟩ := h1.tab
    have hrl : s1.rowLost = true := by rw [h1.rowLost]; simp [hcond]
    have F : Fresh n t E lanes (t + (lanes + 1) + (k + 1) * (lanes + 2)) ((k + 1) * (2 * (2 * h + o))) (k + 1) true { s1 with rowsLost := s1.rowsLost + if s1.rowLost then 1 else 0 } := by
      refine ⟨?_, h1.shiftH, h1.shiftV.elim id id, ?_, ps, hT, fun p hp => ?_⟩
      · show s1.placed = _
        rw [h1.placed, Nat.add_mul k, Nat.one_mul]
      · show s1.rowsLost + (if s1.rowLost then 1 else 0) = _
        rw [h1.rowsLost, hrl]; rfl
      · have := hps p hp
        rw [Nat.add_mul, Nat.one_mul]
        omega
    obtain ⟨s2, e2, h2⟩ := skip_rows (lanes := lanes) (js := List.range' t (E + 1)) (is := List.range' (t + (lanes + 1) + k * (lanes + 2) + 1) (lanes + 1)) F (fun i hi => by
      rw [List.mem_range'_1] at hi
      obtain ⟨d, hd⟩ : ∃ d, i = t + (lanes + 1 + (k * (lanes + 2) + d)) := ⟨i - (t + (lanes + 1) + k * (lanes + 2)), by omega⟩
      rw [hd, lattice_true (by omega) (by omega)]
      have : (lanes + 1 + (k * (lanes + 2) + d) - (lanes + 1)) % (lanes + 2) = d := by
        rw [Nat.add_sub_cancel_left, Nat.mul_comm, Nat.mul_add_mod, Nat.mod_eq_of_lt (by omega)]
      rw [this]
      simp
      omega)
    refine ⟨s2, e2, .inr ?_⟩
    rw [decide_eq_true (Nat.succ_pos k)]
    exact h2

theorem row_groups (ho : o ≤ 1) (hE : E = lanes + 1 + h * (lanes + 2) + o * (lanes + 1)) (hf : E + 1 + 2 * t < 2 ^ 64) :
    ∀ {d k : Nat} {s : Place}, Fresh n t E lanes (t + (lanes + 1) + k * (lanes + 2)) (k * (2 * (2 * h + o))) k (decide (0 < k)) s → k + d = h →
      ∃ s', placeRows n lanes t true (List.range' t (E + 1)) (List.range' (t + (lanes + 1) + k * (lanes + 2)) (d * (lanes + 2))) s = .ok s' ∧
        (Full n t E lanes s' ∨ Fresh n t E lanes (t + (lanes + 1) + h * (lanes + 2)) (h * (2 * (2 * h + o))) h (decide (0 < h)) s')
  | 0, k, s, H, hk => by
    rw [Nat.add_zero] at hk
    subst hk
    exact ⟨s, by rw [Nat.zero_mul]; rfl, .inr H⟩
  | d + 1, k, s, H, hk => by
    obtain ⟨s1, e1, h1⟩ := row_step ho hE hf (by omega) H
    have hk2 : (k + 1 + d) * (lanes + 2) = h * (lanes + 2) := by rw [← hk]; congr 1; omega
    rw [Nat.add_mul, Nat.add_mul, Nat.one_mul] at hk2
    have hEle : lanes + 1 + h * (lanes + 2) ≤ E := by rw [hE]; omega
    have hsplit : List.range' (t + (lanes + 1) + k * (lanes + 2)) ((d + 1) * (lanes + 2)) =
        List.range' (t + (lanes + 1) + k * (lanes + 2)) (lanes + 2) ++ List.range' (t + (lanes + 1) + (k + 1) * (lanes + 2)) (d * (lanes + 2)) := by
      rw [Nat.add_mul d, Nat.one_mul, Nat.add_comm (d * (lanes + 2)), ← List.range'_append_1, Nat.add_mul k, Nat.one_mul, Nat.add_assoc (t + (lanes + 1))]
    rw [hsplit, placeRows_append e1]
    rcases h1 with h1 | h1
    · obtain ⟨s2, e2, h2⟩ := full_rows (lanes := lanes) (js := List.range' t (E + 1)) (is := List.range' (t + (lanes + 1) + (k + 1) * (lanes + 2)) (d * (lanes + 2))) (by omega) hf h1
        (fun i hi j hj => by
          rw [List.mem_range'_1] at hi hj
          rw [Nat.add_mul, Nat.one_mul] at hi
          unfold InCore
          omega)
      exact ⟨s2, e2, .inl h2⟩
    · exact row_groups ho hE hf h1 (by omega)

/-- All qubits find a place. -/
theorem all_rows (ho : o ≤ 1) (hE : E = lanes + 1 + h * (lanes + 2) + o * (lanes + 1)) (hf : E + 1 + 2 * t < 2 ^ 64) (hn : n ≤ (2 * h + o) * (2 * h + o)) :
    ∃ s, placeRows n lanes t true (List.range' t (E + 1)) (List.range' t (E + 1)) { table := Table.fresh (E + 1 + 2 * t) (E + 1 + 2 * t) } = .ok s ∧ Full n t E lanes s := by
  have hm : lanes + 1 ≤ E := by rw [hE]; omega
  have hEle : lanes + 1 + h * (lanes + 2) ≤ E := by rw [hE]; omega
  have core : ∀ {a b : Nat}, t ≤ a → a + b ≤ t + E + 1 → ∀ i ∈ List.range' a b, ∀ j ∈ List.range' t (E + 1), InCore t (E + 1) i j := by
    intro a b h1 h2 i hi j hj
    rw [List.mem_range'_1] at hi hj
    unfold InCore
    omega
  have htab : Tab n t E lanes (Table.fresh (E + 1 + 2 * t) (E + 1 + 2 * t)) 0 [] := tab_start
  rcases Nat.eq_zero_or_pos n with h0 | hpos
  · subst h0
    exact full_rows hm hf ⟨rfl, [], htab⟩ (core (Nat.le_refl _) (by omega))
  have hho : 0 < h + o := by
    rcases Nat.eq_zero_or_pos (h + o) with h0 | h0
    · have h1 : h = 0 := by omega
      have h2 : o = 0 := by omega
      subst h1 h2
      omega
    · exact h0
  have hsplit : List.range' t (E + 1) = t :: (List.range' (t + 1) lanes ++ (List.range' (t + (lanes + 1)) (h * (lanes + 2)) ++ List.range' (t + (lanes + 1) + h * (lanes + 2)) (o * (lanes + 1) + 1))) := by
    rw [List.range'_append_1, show t + (lanes + 1) = t + 1 + lanes by omega, List.range'_append_1, ← List.range'_succ]
    congr 1
    rw [hE]; omega
  have hlat0 : onLattice t t lanes false 0 = true := by
    have := lattice_false (t := t) (lanes := lanes) (b := 0) (lost := 0) (by omega) (by omega)
    rw [Nat.add_zero] at this
    rw [this]
    simp
  have R0 : RowHyp t E lanes t 0 0 (if t < t ∧ t < t + (E - (lanes + 1)) then true else false) false := by
    refine ⟨.inl rfl, by rw [if_pos rfl], ?_, hlat0, fun h => absurd rfl h, fun h => absurd rfl h⟩
    rw [if_neg (by omega)]; exact hlat0
  have F0 : Fresh n t E lanes t 0 0 false { table := Table.fresh (E + 1 + 2 * t) (E + 1 + 2 * t) } := ⟨rfl, rfl, rfl, rfl, [], htab, fun p hp => by simp at hp⟩
  obtain ⟨s1, e1, h1⟩ := whole_row ho hE hf hho R0 hlat0 F0
  generalize hcols : List.range' t (E + 1) = cols at e1 core
  rw [hcols] at hsplit
  rw [show placeRows n lanes t true cols cols { table := Table.fresh (E + 1 + 2 * t) (E + 1 + 2 * t) } = placeRows n lanes t true cols (t :: (List.range' (t + 1) lanes ++
    (List.range' (t + (lanes + 1)) (h * (lanes + 2)) ++ List.range' (t + (lanes + 1) + h * (lanes + 2)) (o * (lanes + 1) + 1)))) { table := Table.fresh (E + 1 + 2 * t) (E + 1 + 2 * t) } by rw [← hsplit],
    placeRows, e1, Outcome.bind_ok]
  have htail : ∀ i ∈ List.range' (t + (lanes + 1) + h * (lanes + 2)) (o * (lanes + 1) + 1), ∀ j ∈ cols, InCore t (E + 1) i j := core (by omega) (by rw [hE]; omega)
  rcases h1 with h1 | h1
  · refine full_rows hm hf h1 fun i hi => ?_
    refine core (a := t) (b := E + 1) (Nat.le_refl _) (by omega) i ?_
    rw [hcols, hsplit]
    exact List.mem_cons_of_mem _ hi
  rw [if_neg (by omega)] at h1
  obtain ⟨ps, hT, -⟩ := h1.tab
  have hrl : s1.rowLost = false := by rw [h1.rowLost]; simp
  have hp0 : s1.placed = 0 := by rw [h1.placed]; omega
  have hps : ps = [] := by
    have := hT.len
    rw [hp0] at this
    exact List.length_eq_zero_iff.1 this
  have F1 : Fresh n t E lanes (t + (lanes + 1)) 0 0 false { s1 with rowsLost := s1.rowsLost + if s1.rowLost then 1 else 0 } := by
    refine ⟨hp0, h1.shiftH, h1.shiftV.elim id id, ?_, ps, hT, fun p hp => by rw [hps] at hp; simp at hp⟩
    show s1.rowsLost + (if s1.rowLost then 1 else 0) = _
    rw [h1.rowsLost, hrl]; rfl
  obtain ⟨s2, e2, h2⟩ := skip_rows (lanes := lanes) (js := cols) (is := List.range' (t + 1) lanes) F1 (fun i hi => by
    rw [List.mem_range'_1] at hi
    obtain ⟨d, hd⟩ : ∃ d, i = t + d := ⟨i - t, by omega⟩
    rw [hd, lattice_false (by omega) (by omega)]
    rw [Nat.zero_mul, Nat.sub_zero, Nat.mod_eq_of_lt (by omega)]
    simp
    omega)
  rw [placeRows_append e2]
  obtain ⟨s3, e3, h3⟩ := row_groups (s := s2) (k := 0) (d := h) ho hE hf (by
    rw [Nat.zero_mul, Nat.zero_mul, Nat.add_zero]
    exact h2) (Nat.zero_add _)
  rw [Nat.zero_mul, hcols] at e3
  change placeRows n lanes t true cols (List.range' (t + (lanes + 1)) (h * (lanes + 2))) s2 = _ at e3
  rw [placeRows_append e3]
  have hfin : Full n t E lanes s3 → ∃ s, placeRows n lanes t true cols (List.range' (t + (lanes + 1) + h * (lanes + 2)) (o * (lanes + 1) + 1)) s3 = .ok s ∧ Full n t E lanes s := fun h => full_rows hm hf h htail
  rcases h3 with h3 | h3
  · exact hfin h3
  · obtain ⟨qs, hQ, hqs⟩ := h3.tab
    rcases Nat.eq_zero_or_pos o with h0 | h0
    · subst h0
      have hp : s3.placed = n := by
        refine Nat.le_antisymm hQ.le ?_
        rw [h3.placed]
        have e : h * (2 * (2 * h + 0)) = (2 * h + 0) * (2 * h + 0) := by
          rw [Nat.add_zero, ← Nat.mul_assoc, Nat.mul_comm h 2]
        omega
      exact hfin ⟨hp, qs, by rw [← hp]; rw [hp] at hQ ⊢; exact hQ⟩
    · have ho1 : o = 1 := by omega
      subst ho1
      have hlast : t + (E - (lanes + 1)) = t + (lanes + 1) + h * (lanes + 2) := by rw [hE]; omega
      have hl0 : onLattice (t + (lanes + 1) + h * (lanes + 2)) t lanes false h = true := by
        rw [show t + (lanes + 1) + h * (lanes + 2) = t + (h * (lanes + 2) + (lanes + 1)) by omega, lattice_false (by omega) (by omega), Nat.add_sub_cancel_left]
        simp
      have hl1 : onLattice (t + (lanes + 1) + h * (lanes + 2)) t lanes (decide (0 < h)) h = true := by
        by_cases hh : 0 < h
        · rw [decide_eq_true hh, Nat.add_assoc, lattice_true (by omega) (by omega)]
          simp
        · rw [decide_eq_false hh]; exact hl0
      have R : RowHyp t E lanes (t + (lanes + 1) + h * (lanes + 2)) 1 h
          (if t < t + (lanes + 1) + h * (lanes + 2) ∧ t + (lanes + 1) + h * (lanes + 2) < t + (E - (lanes + 1)) then true else decide (0 < h)) false := by
        refine ⟨.inr (by omega), ?_, ?_, hl0, fun _ => ?_, fun _ => ⟨⟨h, rfl⟩, by omega⟩⟩
        · rw [if_neg (by omega), if_neg (by omega)]
        · rw [if_neg (by omega)]; exact hl1
        · rw [decide_eq_false (by omega)]
      obtain ⟨s4, e4, h4⟩ := whole_row ho hE hf hho R hl1 h3
      rw [hcols] at e4
      have hF : Full n t E lanes s4 := by
        rcases h4 with h4 | h4
        · exact h4
        · obtain ⟨rs, hR, -⟩ := h4.tab
          have hp : s4.placed = n := by
            refine Nat.le_antisymm hR.le ?_
            rw [h4.placed]
            have e : h * (2 * (2 * h + 1)) + 1 * (2 * h + 1) = (2 * h + 1) * (2 * h + 1) := by
              rw [← Nat.mul_assoc, Nat.mul_comm h 2, ← Nat.add_mul]
            omega
          exact ⟨hp, rs, by rw [← hp]; rw [hp] at hR ⊢; exact hR⟩
      rw [List.range'_succ, placeRows, e4, Outcome.bind_ok]
      exact full_rows hm hf (s := { s4 with rowsLost := s4.rowsLost + if s4.rowLost then 1 else 0 }) hF fun i hi => htail i (by
        rw [List.range'_succ]
        exact List.mem_cons_of_mem _ hi)

/-! ## The finished table -/

theorem coreSide_dense (hs : ceilSqrt n = 2 * h + o) (ho : o ≤ 1) (hf : (ceilSqrt n + 1) * (lanes + 1) + 1 < 2 ^ 64) :
    coreSide n lanes true = lanes + 1 + h * (lanes + 2) + o * (lanes + 1) + 1 := by
  have h1 := coreSide_eq hf
  have h2 : coreSide n lanes true = coreSide n lanes false - lanes * (ceilSqrt n / 2) := by
    unfold coreSide
    simp only [if_true, Bool.false_eq_true, if_false, Nat.sub_zero]
  rw [h2, h1, hs, show (2 * h + o) / 2 = h by omega]
  have e1 : (2 * h + o + 1) * (lanes + 1) = 2 * (h * lanes) + 2 * h + o * (lanes + 1) + (lanes + 1) := by
    rw [Nat.add_mul, Nat.add_mul, Nat.one_mul, Nat.mul_assoc, Nat.mul_add h, Nat.mul_one]
    omega
  have e2 : h * (lanes + 2) = h * lanes + 2 * h := by rw [Nat.mul_add]; omega
  rw [e1, e2, Nat.mul_comm lanes h]
  omega

theorem apart {q a b d : Nat} (hd : 0 < d) (hq : d < q) (h : a * q = b * q + d) : False := by
  rcases Nat.lt_or_ge b a with hl | hl
  · have := Nat.mul_le_mul_right q hl
    rw [Nat.succ_mul] at this
    omega
  · have := Nat.mul_le_mul_right q hl
    omega

/-- Next to the row of a group there is a lane. -/
theorem Post.lane {x : Nat} (hl : 0 < lanes) (h : Post t E lanes x) : ∃ y, (x = y + 1 ∨ y = x + 1) ∧ t < y ∧ y < t + E ∧ ¬ Post t E lanes y := by
  obtain ⟨k, e, he, hx, hf⟩ := h
  rcases Nat.lt_or_ge e 1 with h0 | h0
  · refine ⟨x - 1, .inl (by omega), by omega, by omega, ?_⟩
    rintro ⟨k', e', he', hy, -⟩
    exact apart (q := lanes + 2) (a := k) (b := k') (d := e' + 1) (by omega) (by omega) (by omega)
  · refine ⟨x + 1, .inr rfl, by omega, by omega, ?_⟩
    rintro ⟨k', e', he', hy, -⟩
    exact apart (q := lanes + 2) (a := k') (b := k) (d := 2 - e') (by omega) (by omega) (by omega)

theorem dense_table (n lanes : Nat) (e pre : Bool) (hfit : (ceilSqrt n + 1) * (lanes + 1) + 11 < 2 ^ 64) :
    ∃ (tb : Table) (t E : Nat), edpcTable n lanes true e pre = .ok tb ∧ t = (if e then 5 else 0) ∧ E + 1 = coreSide n lanes true ∧ 0 < E ∧
      tb.rows = E + 1 + 2 * t ∧ tb.cols = E + 1 + 2 * t ∧ (findAll tb.toGrid .qubit).length = n ∧
      (∀ i j, tb.at' i j = .qubit → t < i ∧ i < t + E ∧ t < j ∧ j < t + E) ∧
      (∀ i j, ¬ InCore t (E + 1) i j → tb.at' i j = .dead ∨ tb.at' i j = .distillation 0) ∧ ¬ Clash tb.toGrid ∧
      (0 < lanes → ∃ P : Nat → Prop, (∀ x y, t < x → x < t + E → t < y → y < t + E → P x ∨ P y → tb.at' x y = .routing) ∧
        (∀ i j, tb.at' i j = .qubit → (∃ y, (i = y + 1 ∨ y = i + 1) ∧ t < y ∧ y < t + E ∧ P y) ∧ ∃ z, (j = z + 1 ∨ z = j + 1) ∧ t < z ∧ z < t + E ∧ P z) ∧ P (t + 1) ∧ P (t + E - 1)) ∧
      (∀ x y, t < x → x < t + E → t < y → y < t + E → tb.at' x y = .routing ∨ tb.at' x y = .qubit) ∧ lanes < E := by
  have hsq := le_ceilSqrt n
  obtain ⟨h, o, hs, ho⟩ : ∃ h o, ceilSqrt n = 2 * h + o ∧ o ≤ 1 := ⟨ceilSqrt n / 2, ceilSqrt n % 2, by omega, by omega⟩
  have hcs := coreSide_dense (lanes := lanes) hs ho (by omega)
  have hle : coreSide n lanes true ≤ coreSide n lanes false := by
    unfold coreSide
    simp only [if_true, Bool.false_eq_true, if_false, Nat.sub_zero]
    exact Nat.sub_le _ _
  rw [coreSide_eq (by omega)] at hle
  have ht : (if e then 5 else 0 : Nat) ≤ 5 := by split <;> omega
  generalize htt : (if e then 5 else 0 : Nat) = t at ht
  generalize hEE : lanes + 1 + h * (lanes + 2) + o * (lanes + 1) = E at hcs
  have hEpos : 0 < E := by omega
  obtain ⟨s, es, hplaced, ps, hs⟩ := all_rows (n := n) (t := t) ho hEE.symm (by omega) (by rw [← hs]; exact hsq)
  generalize hcc : E + 1 = core at *
  have hpos : 0 < core := by omega
  have hspan : ∀ x ∈ List.range' t core, t ≤ x ∧ x < t + core := by intro x hx; simpa using hx
  have et : t = 0 ∨ (t = 5 ∧ e = true) := by
    cases e
    · exact .inl htt.symm
    · exact .inr ⟨htt.symm, rfl⟩
  have hsrows : s.table.rows = core + 2 * t := by rw [hs.rows, hcc]
  have hscols : s.table.cols = core + 2 * t := by rw [hs.cols, hcc]
  obtain ⟨b1, e1, h1⟩ := edge_spec (t := t) (core := core) (e := e) (pre := pre) (blk := fun p => block (p.1 - t) t (p.2 - 1) 3)
    (ps := (List.range' t core).map fun j => (t, j)) (a := s.table) (k := 0) (by
      intro p hp
      obtain ⟨j, hj, rfl⟩ := List.mem_map.1 hp
      have := hspan j hj
      rw [hsrows, hscols]
      refine ⟨by dsimp only; omega, by dsimp only; omega, by unfold InCore; omega, ?_⟩
      intro q hq
      rw [mem_block] at hq
      dsimp only at hq
      unfold InCore
      rcases et with h0 | ⟨h5, he⟩
      · omega
      · exact ⟨he, by omega, by omega, by omega⟩)
  obtain ⟨b2, e2, h2⟩ := edge_spec (t := t) (core := core) (e := e) (pre := pre) (blk := fun p => block (p.1 + 1) t (p.2 - 1) 3)
    (ps := (List.range' t core).map fun j => (core + 2 * t - t - 1, j)) (a := b1) (k := 0) (by
      intro p hp
      obtain ⟨j, hj, rfl⟩ := List.mem_map.1 hp
      have := hspan j hj
      rw [h1.rows, h1.cols, hsrows, hscols]
      refine ⟨by dsimp only; omega, by dsimp only; omega, by unfold InCore; omega, ?_⟩
      intro q hq
      rw [mem_block] at hq
      dsimp only at hq
      unfold InCore
      rcases et with h0 | ⟨h5, he⟩
      · omega
      · exact ⟨he, by omega, by omega, by omega⟩)
  obtain ⟨b3, e3, h3⟩ := edge_spec (t := t) (core := core) (e := e) (pre := pre) (blk := fun p => block (p.1 - 1) 3 (p.2 - t) t)
    (ps := (List.range' t core).map fun i => (i, t)) (a := b2) (k := 0) (by
      intro p hp
      obtain ⟨j, hj, rfl⟩ := List.mem_map.1 hp
      have := hspan j hj
      rw [h2.rows, h2.cols, h1.rows, h1.cols, hsrows, hscols]
      refine ⟨by dsimp only; omega, by dsimp only; omega, by unfold InCore; omega, ?_⟩
      intro q hq
      rw [mem_block] at hq
      dsimp only at hq
      unfold InCore
      rcases et with h0 | ⟨h5, he⟩
      · omega
      · exact ⟨he, by omega, by omega, by omega⟩)
  obtain ⟨b4, e4, h4⟩ := edge_spec (t := t) (core := core) (e := e) (pre := pre) (blk := fun p => block (p.1 - 1) 3 (p.2 + 1) t)
    (ps := (List.range' t core).map fun i => (i, core + 2 * t - t - 1)) (a := b3) (k := 0) (by
      intro p hp
      obtain ⟨j, hj, rfl⟩ := List.mem_map.1 hp
      have := hspan j hj
      rw [h3.rows, h3.cols, h2.rows, h2.cols, h1.rows, h1.cols, hsrows, hscols]
      refine ⟨by dsimp only; omega, by dsimp only; omega, by unfold InCore; omega, ?_⟩
      intro q hq
      rw [mem_block] at hq
      dsimp only at hq
      unfold InCore
      rcases et with h0 | ⟨h5, he⟩
      · omega
      · exact ⟨he, by omega, by omega, by omega⟩)
  have hT : Tame t core e s.table b4 := ((h1.trans h2).trans h3).trans h4
  have hrows : b4.rows = core + 2 * t := by rw [hT.rows, hsrows]
  have hcols : b4.cols = core + 2 * t := by rw [hT.cols, hscols]
  have hcoreIff : ∀ i j, (t ≤ i ∧ i < b4.rows - t ∧ t ≤ j ∧ j < b4.cols - t) ↔ InCore t core i j := by
    intro i j; rw [hrows, hcols]; unfold InCore; omega
  have hout : ∀ i j, ¬ InCore t core i j → s.table.at' i j = .routing := by
    intro i j h
    exact hs.out i j (by rw [hcc]; exact h)
  have hkind := hs.kind
  have hfin : ∀ i j, (bury t b4).at' i j = .qubit ↔ s.table.at' i j = .qubit := by
    intro i j
    show (if t ≤ i ∧ i < b4.rows - t ∧ t ≤ j ∧ j < b4.cols - t then b4.at' i j
      else if b4.at' i j = .routing then .dead else b4.at' i j) = _ ↔ _
    by_cases hc : InCore t core i j
    · rw [if_pos ((hcoreIff i j).2 hc)]
      rcases hT.cell i j with h | ⟨_, h, h'⟩ | ⟨h, _⟩
      · rw [h]
      · rw [h, h']; cases e <;> simp
      · exact absurd hc h
    · rw [if_neg (fun h => hc ((hcoreIff i j).1 h)), hout i j hc]
      rcases hT.cell i j with h | ⟨h, _⟩ | ⟨_, _, h⟩
      · rw [h, hout i j hc]; simp
      · exact absurd h hc
      · rw [h]; simp
  refine ⟨bury t b4, t, E, ?_, rfl, by rw [hcc, hcs], hEpos, by rw [hcc]; exact hrows, by rw [hcc]; exact hcols, ?_, ?_, ?_, ?_, ?_, ?_⟩
  · unfold edpcTable
    dsimp only
    rw [htt, hcs, es, Outcome.bind_ok, e1, Outcome.bind_ok, e2, Outcome.bind_ok, e3, Outcome.bind_ok, e4, Outcome.bind_ok]
  · rw [← hs.len]
    have hnd : (ps.map fun p => (⟨(p.1 : Int), (p.2 : Int)⟩ : Cell)).Nodup := by
      refine List.pairwise_map.2 (hs.nodup.imp fun {p q} hne h => hne ?_)
      have h1 := congrArg Cell.row h
      have h2 := congrArg Cell.col h
      dsimp only at h1 h2
      exact Prod.ext (by omega) (by omega)
    have hperm : (findAll (bury t b4).toGrid .qubit).Perm (ps.map fun p => (⟨(p.1 : Int), (p.2 : Int)⟩ : Cell)) := by
      rw [List.perm_ext_iff_of_nodup (findAll_nodup _ _) hnd]
      intro c
      rw [mem_findAll, at_toGrid, List.mem_map]
      constructor
      · rintro ⟨i, j, rfl, _, _, hk⟩
        exact ⟨(i, j), (hs.mem i j).1 ((hfin i j).1 hk), rfl⟩
      · rintro ⟨⟨i, j⟩, hp, rfl⟩
        have := hs.inner _ hp
        dsimp only at this
        refine ⟨i, j, rfl, ?_, ?_, (hfin i j).2 ((hs.mem i j).2 hp)⟩
        · show i < b4.rows; omega
        · show j < b4.cols; omega
    rw [hperm.length_eq, List.length_map]
  · intro i j hq
    exact hs.inner _ ((hs.mem i j).1 ((hfin i j).1 hq))
  · intro i j hc
    have hc : ¬ InCore t core i j := by rw [← hcc]; exact hc
    have he : (bury t b4).at' i j = if b4.at' i j = .routing then .dead else b4.at' i j := if_neg fun h => hc ((hcoreIff i j).1 h)
    rw [he]
    rcases hT.cell i j with h | ⟨h, _⟩ | ⟨_, _, h⟩
    · rw [h, hout i j hc]; simp
    · exact absurd h hc
    · rw [h]; simp
  rotate_left
  · intro hl
    refine ⟨fun x => ¬ Post t E lanes x, fun x y h1 h2 h3 h4 hP => ?_, fun i j hq => ?_, ?_, ?_⟩
    · have hr : s.table.at' x y = .routing := by
        rcases hs.kind x y with g | g | g
        · exact g
        · exact absurd g (hs.clear x y h1 h2 h3 h4)
        · have hp := hs.post _ ((hs.mem x y).1 g)
          exact hP.elim (fun h => absurd hp.1 h) fun h => absurd hp.2 h
      have hc : InCore t core x y := by unfold InCore; omega
      refine (if_pos ((hcoreIff x y).2 hc)).trans ?_
      rcases hT.cell x y with g | ⟨_, g, _⟩ | ⟨g, _⟩
      · rw [g, hr]
      · rw [hr] at g; cases g
      · exact absurd hc g
    · obtain ⟨pi, pj⟩ := hs.post _ ((hs.mem i j).1 ((hfin i j).1 hq))
      exact ⟨pi.lane hl, pj.lane hl⟩
    · rintro ⟨k, e', _, hx, _⟩; omega
    · rintro ⟨k, e', _, _, hx⟩; omega
  · refine ⟨fun x y h1 h2 h3 h4 => ?_, by rw [← hEE] at hEpos ⊢; omega⟩
    have hc : InCore t core x y := by unfold InCore; omega
    have he : (bury t b4).at' x y = b4.at' x y := if_pos ((hcoreIff x y).2 hc)
    rw [he]
    rcases hT.cell x y with g | ⟨_, g, _⟩ | ⟨g, _⟩
    · rw [g]
      rcases hs.kind x y with f | f | f
      · exact .inl f
      · exact absurd f (hs.clear x y h1 h2 h3 h4)
      · exact .inr f
    · exact absurd g (hs.clear x y h1 h2 h3 h4)
    · exact absurd hc g
  · rintro ⟨⟨c, hm⟩, d, c', hd⟩
    rw [at_toGrid] at hm hd
    obtain ⟨i, j, _, _, _, hm⟩ := hm
    obtain ⟨i', j', _, _, _, hd⟩ := hd
    have hb : ∀ i j k, (bury t b4).at' i j = k → k ≠ .dead → b4.at' i j = k := by
      intro i j k h hk
      change (if _ then _ else _) = _ at h
      split at h
      · exact h
      · split at h
        · exact absurd h.symm hk
        · exact h
    have hm' := hb i j _ hm (by simp)
    have hd' := hb i' j' _ hd (by simp)
    rcases hT.cell i j with h | ⟨_, _, h⟩ | ⟨_, _, h⟩
    · rw [hm'] at h; rcases hkind i j with g | g | g <;> rw [g] at h <;> cases h
    · rcases hT.cell i' j' with g | ⟨_, _, g⟩ | ⟨_, g, _⟩
      · rw [hd'] at g; rcases hkind i' j' with f | f | f <;> rw [f] at g <;> cases g
      · rw [hd'] at g; cases e <;> simp at g
      · rw [hm', g] at h; simp at h
    · rw [hm'] at h; cases h

end Verif.Layouts.Dense
