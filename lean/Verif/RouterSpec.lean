import Verif.Slice

/-!
# What a route is (specification)

Written without the functions of the model of the router: a route is a list of cells, from the one touching the target
patch to the one touching the source patch.
-/

namespace Verif.Router.Spec

/-- `b` lies next to `a` in the given direction. -/
def Faces (a b : Cell) : CellDirection → Prop
  | .top => b.row = a.row - 1 ∧ b.col = a.col
  | .bottom => b.row = a.row + 1 ∧ b.col = a.col
  | .left => b.row = a.row ∧ b.col = a.col - 1
  | .right => b.row = a.row ∧ b.col = a.col + 1

/-- The cells share a side. -/
def Touching (a b : Cell) : Prop := ∃ d, Faces a b d

/-- The cell is on the lattice of the layout. -/
def OnGrid (L : Layout) (c : Cell) : Prop := 0 ≤ c.row ∧ c.row ≤ L.furthest.row ∧ 0 ≤ c.col ∧ c.col ≤ L.furthest.col

/-- The slice has exactly the cells of the lattice. -/
def Fits (L : Layout) (s : DSlice) : Prop :=
  0 ≤ L.furthest.row ∧ 0 ≤ L.furthest.col ∧ (s.rows : Int) = L.furthest.row + 1 ∧ (s.cols : Int) = L.furthest.col + 1

/-- Nothing is on the cell; with edge-disjoint routing a cell holding only a routing mark counts too. -/
def Passable (edpc : Bool) (s : DSlice) (c : Cell) : Prop :=
  s.cells c = none ∨ (edpc = true ∧ ∃ p, s.cells c = some p ∧ p.activity = .edpc)

/-- The patch on `a` has, towards `b`, a boundary through which the operator can be measured: rough for X, smooth
for Z. -/
def Offers (s : DSlice) (a b : Cell) (op : Pauli) : Prop :=
  ∃ p d, s.cells a = some p ∧ Faces a b d ∧
    ((op = .X ∧ (p.bounds.get d).ty = .rough) ∨ (op = .Z ∧ (p.bounds.get d).ty = .smooth))

/-- The side of `a` towards `b` already carries a route. -/
def Taken (s : DSlice) (a b : Cell) : Prop :=
  ∃ p d, s.cells a = some p ∧ Faces a b d ∧ ((p.bounds.get d).ty = .reserved1 ∨ (p.bounds.get d).ty = .reserved2)

/-- The relation holds between any two consecutive elements. -/
def Linked {α : Type} (R : α → α → Prop) : List α → Prop
  | a :: b :: l => R a b ∧ Linked R (b :: l)
  | _ => True

/-- A route from the patch on `src` to the patch on `tgt`. -/
structure Admissible (L : Layout) (s : DSlice) (edpc : Bool) (src : Cell) (srcOp : Pauli) (tgt : Cell) (tgtOp : Pauli) (r : List Cell) :
    Prop where
  chain : Linked Touching (tgt :: (r ++ [src]))
  inside : ∀ c ∈ r, OnGrid L c
  clear : ∀ c ∈ r, Passable edpc s c
  untaken : edpc = true → Linked (fun b a => ¬ Taken s a b) r
  fromSrc : ∀ c, (tgt :: r).getLast? = some c → Offers s src c srcOp
  toTgt : ∀ c, (r ++ [src]).head? = some c → Offers s tgt c tgtOp

/-- The cell is in the slice and holds a patch with the given id. -/
def Holds (s : DSlice) (id : Nat) (c : Cell) : Prop :=
  0 ≤ c.row ∧ c.row < s.rows ∧ 0 ≤ c.col ∧ c.col < s.cols ∧ ∃ p, s.cells c = some p ∧ p.id = some id

/-- The first cell of the rest of a region, or the cell after it. -/
def nextCell (last : Cell) : List OccCell → Cell
  | [] => last
  | o :: _ => o.cell

/-- Every cell of a region is marked exactly on the sides towards the cell before it and the cell after it. -/
def Marked (mark : Boundary) : Cell → List OccCell → Cell → Prop
  | _, [], _ => True
  | prec, o :: os, last =>
    (∀ n d, Faces o.cell n d → o.bounds.get d = if n = prec ∨ n = nextCell last os then mark else ⟨.none, false⟩) ∧
    Marked mark o.cell os last

end Verif.Router.Spec
