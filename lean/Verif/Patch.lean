import Verif.Basic

/-!
# Cells, boundaries and patches (model)

Models `/repo/include/lsqecc/patches/patches.hpp`, `/repo/src/patches/patches.cpp` and
`/repo/include/lsqecc/pauli_rotations/pauli_operator.hpp`.

Simplifications: coordinates (`int32_t`) are unbounded integers; patch ids (`uint32_t`) and
operation ids (`uint64_t`) are natural numbers; labels are strings.
-/

namespace Verif

/-- pauli_operator.hpp:11-16. -/
inductive Pauli where
  | I | X | Y | Z
  deriving DecidableEq, Repr

/-- patches.hpp:16-23. -/
inductive BoundaryType where
  | none | connected | rough | smooth | reserved1 | reserved2
  deriving DecidableEq, Repr

/-- patches.hpp:25-27. -/
inductive CellDirection where
  | top | bottom | left | right
  deriving DecidableEq, Repr

/-- patches.cpp:7-23 `operator!(BoundaryType)`. -/
def BoundaryType.flip : BoundaryType → BoundaryType
  | .none => .connected
  | .connected => .none
  | .rough => .smooth
  | .smooth => .rough
  | .reserved1 => .reserved2
  | .reserved2 => .reserved1

/-- patches.cpp:25-37 `operator!(CellDirection)`. -/
def CellDirection.flip : CellDirection → CellDirection
  | .top => .bottom
  | .bottom => .top
  | .left => .right
  | .right => .left

/-- patches.cpp:60-70 `boundary_for_operator`. -/
def boundaryForOperator : Pauli → Outcome BoundaryType
  | .X => .ok .rough
  | .Z => .ok .smooth
  | .I => .throws
  | .Y => .throws

/-- patches.hpp:39-59. -/
structure Cell where
  row : Int
  col : Int
  deriving DecidableEq, Repr

/-- patches.cpp:228-234 `get_neigbours`. -/
def Cell.neighbours (c : Cell) : List Cell :=
  [⟨c.row - 1, c.col⟩, ⟨c.row + 1, c.col⟩, ⟨c.row, c.col - 1⟩, ⟨c.row, c.col + 1⟩]

/-- patches.cpp:236-254 `get_directional_neighbor`. -/
def Cell.directional (c origin furthest : Cell) : CellDirection → Option Cell
  | .top => if c.row > origin.row then some ⟨c.row - 1, c.col⟩ else none
  | .bottom => if c.row < furthest.row then some ⟨c.row + 1, c.col⟩ else none
  | .left => if c.col > origin.col then some ⟨c.row, c.col - 1⟩ else none
  | .right => if c.col < furthest.col then some ⟨c.row, c.col + 1⟩ else none

/-- patches.cpp:256-264 `get_neigbours_within_bounding_box_inclusive`. -/
def Cell.neighboursIn (c origin furthest : Cell) : List Cell :=
  (if c.row > origin.row then [⟨c.row - 1, c.col⟩] else []) ++
  (if c.row < furthest.row then [⟨c.row + 1, c.col⟩] else []) ++
  (if c.col > origin.col then [⟨c.row, c.col - 1⟩] else []) ++
  (if c.col < furthest.col then [⟨c.row, c.col + 1⟩] else [])

/-- patches.hpp:65-71. -/
inductive PatchType where
  | distillation | preparedState | qubit | routing | dead
  deriving DecidableEq, Repr

/-- patches.hpp:73-84. -/
inductive PatchActivity where
  | none | measurement | unitary | distillation | dead | multiPatchMeasurement | rotation | edpc | reserved
  deriving DecidableEq, Repr

/-- patches.hpp:87-92. -/
structure Boundary where
  ty : BoundaryType
  active : Bool
  deriving DecidableEq, Repr

/-- patches.hpp:96-107. -/
structure CellBoundaries where
  top : Boundary
  bottom : Boundary
  left : Boundary
  right : Boundary
  deriving DecidableEq, Repr

/-- patches.cpp:304-307 `has_active_boundary`. -/
def CellBoundaries.hasActive (b : CellBoundaries) : Bool :=
  b.top.active || b.bottom.active || b.left.active || b.right.active

/-- patches.cpp:309-316 `instant_rotate`. -/
def CellBoundaries.instantRotate (b : CellBoundaries) : CellBoundaries :=
  let oldRight := b.right
  let b := { b with right := b.top }
  let b := { b with top := b.left }
  let b := { b with left := b.bottom }
  { b with bottom := oldRight }

/-- patches.hpp:110-120. -/
structure OccCell where
  bounds : CellBoundaries
  cell : Cell
  deriving DecidableEq, Repr

/-- The side of `c` facing the adjacent cell `n` (patches.cpp:268-271). -/
def Cell.sideTowards (c n : Cell) : Option CellDirection :=
  if n = ⟨c.row - 1, c.col⟩ then some .top
  else if n = ⟨c.row + 1, c.col⟩ then some .bottom
  else if n = ⟨c.row, c.col - 1⟩ then some .left
  else if n = ⟨c.row, c.col + 1⟩ then some .right
  else none

def CellBoundaries.get (b : CellBoundaries) : CellDirection → Boundary
  | .top => b.top
  | .bottom => b.bottom
  | .left => b.left
  | .right => b.right

def CellBoundaries.set (b : CellBoundaries) (x : Boundary) : CellDirection → CellBoundaries
  | .top => { b with top := x }
  | .bottom => { b with bottom := x }
  | .left => { b with left := x }
  | .right => { b with right := x }

/-- patches.cpp:266-274 `get_boundary_with`. -/
def OccCell.boundaryWith (o : OccCell) (n : Cell) : Option Boundary :=
  (o.cell.sideTowards n).map o.bounds.get

/-- patches.cpp:276-284, 295-303: writing through `get_boundary_reference_with` / `get_mut_boundary_with`;
`none` when the cells are not adjacent. -/
def OccCell.setBoundaryWith (o : OccCell) (n : Cell) (f : Boundary → Boundary) : Option OccCell :=
  (o.cell.sideTowards n).map fun d => { o with bounds := o.bounds.set (f (o.bounds.get d)) d }

/-- patches.cpp:286-292 `have_boundary_of_type_with`. `boundary_for_operator` is only evaluated
when there is a boundary. -/
def OccCell.haveBoundaryOfTypeWith (o : OccCell) (op : Pauli) (n : Cell) : Outcome Bool :=
  match o.boundaryWith n with
  | none => .ok false
  | some b => do
      let t ← boundaryForOperator op
      .ok (b.ty == t)

/-- patches.hpp:131-139. -/
structure Patch where
  type : PatchType
  activity : PatchActivity
  id : Option Nat := none
  label : Option String := none
  opId : Option Nat := none
  deriving DecidableEq, Repr

/-- patches.hpp:144-154; `cells` is a variant of one occupied cell or several. -/
inductive Occupied where
  | single (c : OccCell)
  | multi (cs : List OccCell)
  deriving DecidableEq, Repr

structure SparsePatch extends Patch where
  cells : Occupied
  deriving DecidableEq, Repr

/-- patches.cpp:78-94 `get_cells`: the vector is created with `n` value-initialised cells and the
sub cells are appended to it. -/
def SparsePatch.getCells (p : SparsePatch) : List Cell :=
  match p.cells with
  | .single c => [c.cell]
  | .multi cs => List.replicate cs.length ⟨0, 0⟩ ++ cs.map (·.cell)

/-- patches.cpp:97-108 `get_a_cell`; `front()` of an empty vector is undefined. -/
def SparsePatch.getACell (p : SparsePatch) : Outcome Cell :=
  match p.cells with
  | .single c => .ok c.cell
  | .multi [] => .ub
  | .multi (c :: _) => .ok c.cell

/-- patches.cpp:198-209 `visit_individual_cells_mut`. -/
def SparsePatch.mapCells (p : SparsePatch) (f : OccCell → OccCell) : SparsePatch :=
  match p.cells with
  | .single c => { p with cells := .single (f c) }
  | .multi cs => { p with cells := .multi (cs.map f) }

/-- The occupied cells in visiting order (patches.cpp:211-214). -/
def SparsePatch.occ (p : SparsePatch) : List OccCell :=
  match p.cells with
  | .single c => [c]
  | .multi cs => cs

/-- patches.cpp:216-226 `SparsePatch::is_active`. -/
def SparsePatch.isActive (p : SparsePatch) : Bool :=
  if p.activity ≠ .none then true else p.occ.any (·.bounds.hasActive)

/-- patches.hpp:157-164. -/
structure DensePatch extends Patch where
  bounds : CellBoundaries
  deriving DecidableEq, Repr

/-- patches.cpp:318-321 `to_sparse_patch`: label and operation id are not carried over. -/
def DensePatch.toSparse (p : DensePatch) (c : Cell) : SparsePatch :=
  { type := p.type, activity := p.activity, id := p.id, cells := .single ⟨p.bounds, c⟩ }

/-- patches.cpp:322-332 `from_sparse_patch`. -/
def DensePatch.fromSparse (p : SparsePatch) : Outcome DensePatch :=
  match p.cells with
  | .multi _ => .throws
  | .single c => .ok { toPatch := p.toPatch, bounds := c.bounds }

/-- patches.cpp:333-337 `DensePatch::is_active`. -/
def DensePatch.isActive (p : DensePatch) : Bool :=
  if p.activity ≠ .none then true else p.bounds.hasActive

/-- patches.hpp:167-173. -/
structure RoutingRegion where
  cells : List OccCell
  regionId : Option Nat := none
  deriving DecidableEq, Repr

end Verif
