import Verif.LayoutProps

/-! # The shape of the compact layout (C39) -/

namespace Verif.Layouts.Spec

open Verif Verif.Layouts

/-- The compact layout, drawn row by row: the qubits on the left in the rows above and below, then the places for ancilla patches between routing cells, and the factory on the right. Without
factory there is a cell reserved for magic states. -/
def compactPicture (n : Nat) (noClogging : Bool) : Grid :=
  let up := (n + 1) / 2
  let down := n / 2
  if noClogging then
    [List.replicate up .qubit ++ [.routing, .ancilla, .routing],
     List.replicate up .routing ++ [.routing, .routing, .magic],
     List.replicate down .qubit ++ List.replicate (up - down) .routing ++ [.routing, .routing, .routing]]
  else
    [List.replicate up .qubit ++ [.routing, .ancilla, .routing] ++ List.replicate 5 (.distillation 0),
     List.replicate up .routing ++ [.routing, .routing, .routing] ++ List.replicate 5 (.distillation 0),
     List.replicate down .qubit ++ List.replicate (up - down) .routing ++ [.routing, .ancilla, .routing] ++ List.replicate 5 (.distillation 0)]

/-! ## Proofs -/

theorem map_const {f : Nat → CellType} {v : CellType} : ∀ {n : Nat}, (∀ i, i < n → f i = v) → (List.range n).map f = List.replicate n v
  | 0, _ => rfl
  | n + 1, h => by
    rw [List.range_succ, List.map_append, map_const fun i hi => h i (by omega), List.replicate_succ']
    simp [h n (by omega)]

theorem map_add (f : Nat → CellType) (m : Nat) : ∀ n : Nat, (List.range (m + n)).map f = (List.range m).map f ++ (List.range n).map fun i => f (m + i)
  | 0 => by simp
  | n + 1 => by
    rw [← Nat.add_assoc, List.range_succ, List.map_append, map_add f m n, List.range_succ, List.map_append, List.append_assoc]
    rfl

theorem row_eq {f : Nat → CellType} {v u x y z d : CellType} {a b c n : Nat} (hn : n = a + (b + (3 + c))) (h1 : ∀ i, i < a → f i = v) (h2 : ∀ i, i < b → f (a + i) = u)
    (h3 : f (a + b) = x) (h4 : f (a + b + 1) = y) (h5 : f (a + b + 2) = z) (h6 : ∀ i, i < c → f (a + b + 3 + i) = d) :
    (List.range n).map f = List.replicate a v ++ List.replicate b u ++ [x, y, z] ++ List.replicate c d := by
  rw [hn, map_add, map_const h1, map_add, map_const h2, map_add, map_const (n := c) (v := d) fun i hi => by rw [← h6 i hi]; congr 1; omega]
  simp [List.range_succ, ← Nat.add_assoc, h3, h4, h5]

theorem toGrid_three {t : Table} (h : t.rows = 3) : t.toGrid = [(List.range t.cols).map fun j => t.at' 0 j, (List.range t.cols).map fun j => t.at' 1 j, (List.range t.cols).map fun j => t.at' 2 j] := by
  unfold Table.toGrid
  rw [h]
  rfl

theorem compact_picture (n : Nat) (b : Bool) : ∃ t, compactTable n b = .ok t ∧ t.toGrid = compactPicture n b := by
  have e : n - (n + 1) / 2 = n / 2 := by omega
  cases b
  · unfold compactTable
    dsimp only
    simp only [Bool.false_eq_true, if_false, e]
    rw [fill_ok (by simp) (by simp), Outcome.bind_ok, fill_ok (by simp) (by simp; omega), Outcome.bind_ok, putAt_ok (by simp) (by simp),
      Outcome.bind_ok, putAt_ok (by simp) (by simp), Outcome.bind_ok, fill_ok (by simp) (by simp), Outcome.bind_ok,
      fill_ok (by simp) (by simp), Outcome.bind_ok, fill_ok (by simp) (by simp)]
    refine ⟨_, rfl, ?_⟩
    rw [toGrid_three rfl, row_eq (a := (n + 1) / 2) (b := 0) (c := 5) (v := .qubit) (u := .routing) (x := .routing) (y := .ancilla) (z := .routing) (d := .distillation 0) (f := fun j => Table.at' _ 0 j),
      row_eq (a := (n + 1) / 2) (b := 0) (c := 5) (v := .routing) (u := .routing) (x := .routing) (y := .routing) (z := .routing) (d := .distillation 0) (f := fun j => Table.at' _ 1 j),
      row_eq (a := n / 2) (b := (n + 1) / 2 - n / 2) (c := 5) (v := .qubit) (u := .routing) (x := .routing) (y := .ancilla) (z := .routing) (d := .distillation 0) (f := fun j => Table.at' _ 2 j)]
    · simp [compactPicture]
    all_goals simp only [Table.filled, Table.write, Table.fresh, true_and, Nat.reduceEqDiff, Nat.zero_ne_one, Nat.one_ne_zero, false_and, if_false]
    all_goals try intro i hi
    all_goals repeat' split
    all_goals first | rfl | omega | exact absurd trivial ‹_›
  · unfold compactTable
    dsimp only
    simp only [if_true, e]
    rw [fill_ok (by simp) (by simp), Outcome.bind_ok, fill_ok (by simp) (by simp; omega), Outcome.bind_ok, putAt_ok (by simp) (by simp),
      Outcome.bind_ok, putAt_ok (by simp) (by simp)]
    refine ⟨_, rfl, ?_⟩
    rw [toGrid_three rfl, row_eq (a := (n + 1) / 2) (b := 0) (c := 0) (v := .qubit) (u := .routing) (x := .routing) (y := .ancilla) (z := .routing) (d := .routing) (f := fun j => Table.at' _ 0 j),
      row_eq (a := (n + 1) / 2) (b := 0) (c := 0) (v := .routing) (u := .routing) (x := .routing) (y := .routing) (z := .magic) (d := .routing) (f := fun j => Table.at' _ 1 j),
      row_eq (a := n / 2) (b := (n + 1) / 2 - n / 2) (c := 0) (v := .qubit) (u := .routing) (x := .routing) (y := .routing) (z := .routing) (d := .routing) (f := fun j => Table.at' _ 2 j)]
    · simp [compactPicture]
    all_goals simp only [Table.filled, Table.write, Table.fresh, true_and, Nat.reduceEqDiff, Nat.zero_ne_one, Nat.one_ne_zero, false_and, if_false]
    all_goals try intro i hi
    all_goals repeat' split
    all_goals first | rfl | omega | exact absurd trivial ‹_›

/-- C39: the compact layout is the one of the picture. -/
theorem c39_picture (n : Nat) (o : Options) (noClogging : Bool) : makeCompact n o noClogging = fromGrid (compactPicture n noClogging) o := by
  obtain ⟨t, h1, h2⟩ := compact_picture n noClogging
  unfold makeCompact
  rw [h1, Outcome.bind_ok, h2]

/-- The picture for five qubits. -/
example : compactPicture 5 true =
    [[.qubit, .qubit, .qubit, .routing, .ancilla, .routing],
     [.routing, .routing, .routing, .routing, .routing, .magic],
     [.qubit, .qubit, .routing, .routing, .routing, .routing]] := rfl

end Verif.Layouts.Spec
