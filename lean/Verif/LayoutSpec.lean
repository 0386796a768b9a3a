import Verif.Layouts
import Verif.RouterSpec

/-!
# What a layout is (specification)

Written without the functions of the model of layouts.
-/

namespace Verif.Layouts.Spec

open Verif.Router.Spec (Touching OnGrid)

/-- The grid has a cell of that kind at that place. -/
def At (g : Grid) (c : Cell) (t : CellType) : Prop :=
  ∃ (i j : Nat) (r : List CellType), c = ⟨i, j⟩ ∧ g[i]? = some r ∧ r[j]? = some t

/-- `h` rows of `w` cells. -/
def Rect (g : Grid) (h w : Nat) : Prop := g.length = h ∧ ∀ r ∈ g, r.length = w

/-- The first cell comes before the second when reading row by row. -/
def Before (a b : Cell) : Prop := a.row < b.row ∨ (a.row = b.row ∧ a.col < b.col)

/-- The second cell is reached from the first through touching cells of one kind. -/
inductive Joined (g : Grid) (t : CellType) : Cell → Cell → Prop
  | refl {c} : At g c t → Joined g t c c
  | step {a b c} : Joined g t a b → Touching b c → At g c t → Joined g t a c

/-- The letters of layout texts. -/
def letters : List Char := ['r', 'Q', 'T', 'D', 'A', 'M', 'X', 'Y', '0', '1', '2', '3', '4', '5', '6', '7', '8', '9']

/-- The lines of a text: what stands between line ends. -/
def IsLines (s : Str) (ls : List Str) : Prop := ls ≠ [] ∧ (∀ l ∈ ls, '\n' ∉ l) ∧ s = List.intercalate ['\n'] ls

/-- The letter of each kind of cell, ascii_layout_spec.hpp:17-36. -/
def letter : CellType → Char
  | .routing => 'r'
  | .qubit => 'Q'
  | .rotated => 'T'
  | .dynamic => 'D'
  | .ancilla => 'A'
  | .magic => 'M'
  | .dead => 'X'
  | .ystate => 'Y'
  | .distillation d => Char.ofNat (48 + d.val)

/-- A distillation region and the cells its states appear on: all cells joined to a start cell, each once, with no boundary
between two of them and a smooth one all around; states appear on the routing cells touching it. -/
structure Region (g : Grid) (os : List OccCell) (queue : List Cell) : Prop where
  joined : ∃ d start, At g start (.distillation d) ∧ ∀ c, c ∈ os.map (·.cell) ↔ Joined g (.distillation d) start c
  once : (os.map (·.cell)).Nodup
  inside : ∀ o ∈ os, ∀ n dir, Router.Spec.Faces o.cell n dir → n ∈ os.map (·.cell) → o.bounds.get dir = ⟨.none, false⟩
  outside : ∀ o ∈ os, ∀ n dir, Router.Spec.Faces o.cell n dir → n ∉ os.map (·.cell) → o.bounds.get dir = ⟨.smooth, false⟩
  queued : ∀ n, n ∈ queue ↔ At g n .routing ∧ ∃ o ∈ os, Touching o.cell n

/-- Nothing is placed on the cell of the layout when the computation starts. -/
def Vacant (L : Layout) (c : Cell) : Prop :=
  OnGrid L c ∧ (∀ p ∈ L.core, ∀ o, p.cells = .single o → o.cell ≠ c) ∧ (∀ r ∈ L.regions, ∀ o ∈ r, o.cell ≠ c) ∧
    c ∉ L.dead ∧ c ∉ L.reserved ∧ c ∉ L.predistilled

/-- The cells of the logical qubits. -/
def Qubits (L : Layout) (cs : List Cell) : Prop :=
  cs.Nodup ∧ L.core = cs.map fun c => basicSquare c none none

/-- An idle logical qubit: smooth above and below, rough on the left and right. -/
def Square (p : DensePatch) (id : Option Nat) : Prop :=
  p.type = .qubit ∧ p.activity = .none ∧ p.id = id ∧
    p.bounds = ⟨⟨.smooth, false⟩, ⟨.smooth, false⟩, ⟨.rough, false⟩, ⟨.rough, false⟩⟩

/-- The slice shows the grid: the ids in order on the qubit cells in reading order, the resource states, factories, reserved
and dead cells where they are drawn, and nothing anywhere else. -/
structure Shows (g : Grid) (ids : List Nat) (s : DSlice) : Prop where
  rows : g.length = s.rows
  cols : ∀ r ∈ g, r.length = s.cols
  qubits : ∃ cs : List Cell, cs.Pairwise Before ∧ (∀ c, c ∈ cs ↔ At g c .qubit) ∧
    (∀ (i id : Nat), ids[i]? = some id → ∃ c p, cs[i]? = some c ∧ s.cells c = some p ∧ Square p (some id)) ∧
    ∀ (i : Nat) c, cs[i]? = some c → ids[i]? = none → s.cells c = none
  ystates : ∀ c, At g c .ystate → ∃ p, s.cells c = some p ∧ Square p none
  factories : ∀ c d, At g c (.distillation d) → ∃ p, s.cells c = some p ∧ p.type = .distillation ∧ p.activity = .distillation ∧ p.id = none
  reserved : ∀ c, At g c .magic → ∃ p, s.cells c = some p ∧ p.type = .distillation ∧ p.activity = .distillation ∧ p.id = none
  dead : ∀ c, At g c .dead → ∃ p, s.cells c = some p ∧ p.type = .dead ∧ p.id = none
  free : ∀ c, At g c .routing ∨ At g c .ancilla ∨ At g c .rotated ∨ At g c .dynamic → s.cells c = none

end Verif.Layouts.Spec
