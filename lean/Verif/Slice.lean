import Verif.Instr

/-!
# Slices (model)

Models `/repo/include/lsqecc/layout/layout.hpp`, `/repo/src/layout/layout.cpp`,
`/repo/include/lsqecc/patches/dense_slice.hpp`, `/repo/src/patches/dense_slice.cpp` and the functions of
`/repo/src/patches/dense_patch_computation.cpp` that change a slice without looking at an instruction.

Simplifications:
* the vector of rows is a lookup function together with the numbers of rows and columns (every row is created with the
  same length by dense_slice.cpp:108-114 and no row is ever resized);
* a reference to a boundary stored in `marked_*_boundaries_EDPC` is the cell and the side it refers to;
* `predistilled_ystates_available` is unbounded; distillation times are 32 bit and wrap when decremented.
-/

namespace Verif

/-- The data a `Layout` object answers with (layout.hpp:16-32). -/
structure Layout where
  core : List SparsePatch := []
  furthest : Cell
  regions : List (List OccCell) := []
  distilled : List (List Cell) := []
  times : List Nat := []
  ancilla : List Cell := []
  dead : List Cell := []
  reserved : List Cell := []
  predistilled : List Cell := []
  magicReserved : Bool := false
  deriving Repr

/-- `{None,false}` or `{Connected,false}` on every side. -/
def CellBoundaries.all (b : Boundary) : CellBoundaries := ⟨b, b, b, b⟩

/-- layout.cpp:6-23 `basic_square_patch`. -/
def basicSquare (c : Cell) (id : Option Nat) (label : Option String) : SparsePatch :=
  { type := .qubit, activity := .none, id := id, label := label,
    cells := .single ⟨⟨⟨.smooth, false⟩, ⟨.smooth, false⟩, ⟨.rough, false⟩, ⟨.rough, false⟩⟩, c⟩ }

/-- layout.cpp:24-34 `make_distillation_region_cell`. -/
def distillationCell (c : Cell) : OccCell := ⟨.all ⟨.connected, false⟩, c⟩

/-- dense_slice.hpp:18-33. `magic` is a `std::set`, kept sorted. -/
structure DSlice where
  rows : Nat
  cols : Nat
  cells : Cell → Option DensePatch
  magic : List Cell := []
  times : List Nat := []
  yAvail : Nat := 0
  crossing : List Cell := []
  markedRough : List (Cell × CellDirection) := []
  markedSmooth : List (Cell × CellDirection) := []

namespace DSlice

/-- Is the cell inside the vectors (`at` throws otherwise; a negative coordinate becomes a huge index)? -/
def inRange (s : DSlice) (c : Cell) : Bool := decide (0 ≤ c.row ∧ c.row < s.rows ∧ 0 ≤ c.col ∧ c.col < s.cols)

/-- dense_slice.cpp:81-89 `patch_at`, reading. -/
def patchAt (s : DSlice) (c : Cell) : Outcome (Option DensePatch) := if s.inRange c then .ok (s.cells c) else .throws

/-- Assigning through the reference `patch_at` returns. -/
def put (s : DSlice) (c : Cell) (p : Option DensePatch) : DSlice := { s with cells := upd s.cells c p }

/-- Assigning through `patch_at`, including the range check. -/
def assign (s : DSlice) (c : Cell) (p : Option DensePatch) : Outcome DSlice := if s.inRange c then .ok (s.put c p) else .throws

/-- The cells in the order of dense_slice.cpp:18-32 `traverse_cells_mut`. -/
def allCells (s : DSlice) : List Cell :=
  (List.range s.rows).flatMap fun (r : Nat) => (List.range s.cols).map fun (c : Nat) => Cell.mk r c

def holdsId (s : DSlice) (id : Nat) (c : Cell) : Bool :=
  match s.cells c with
  | some p => p.id == some id
  | none => false

/-- dense_slice.cpp:71-79 `get_cell_by_id`: the last match wins. -/
def cellById (s : DSlice) (id : Nat) : Option Cell := (s.allCells.filter (s.holdsId id)).getLast?

/-- dense_slice.cpp:39-47 `get_patch_by_id`. -/
def patchById (s : DSlice) (id : Nat) : Option DensePatch := (s.cellById id).bind s.cells

/-- dense_slice.cpp:222-225 `has_patch`. -/
def hasPatch (s : DSlice) (id : Nat) : Bool := (s.patchById id).isSome

/-- dense_slice.cpp:91-96 `delete_patch_by_id`. -/
def deleteById (s : DSlice) (id : Nat) : DSlice := { s with cells := fun c => if s.holdsId id c then none else s.cells c }

/-- dense_slice.cpp:170-173 `is_cell_free`. -/
def isFree (s : DSlice) (c : Cell) : Outcome Bool := do
  let p ← s.patchAt c
  .ok p.isNone

/-- dense_slice.cpp:175-194 `is_cell_free_or_activity`. -/
def isFreeOr (s : DSlice) (c : Cell) (acts : List PatchActivity) : Outcome Bool := do
  match ← s.patchAt c with
  | none => .ok true
  | some p => .ok (decide (p.activity ∈ acts))

/-- dense_slice.cpp:196-209 `place_single_cell_sparse_patch`; returns the cell too. -/
def placeSingle (s : DSlice) (p : SparsePatch) (distillation : Bool) : Outcome (DSlice × Cell) :=
  match p.cells with
  | .multi _ => .throws
  | .single o => do
    let free ← s.isFree o.cell
    if !free && !distillation then .throws
    else do
      let d ← DensePatch.fromSparse p
      .ok (s.put o.cell (some d), o.cell)

/-- dense_slice.cpp:217-218: the sub cells of a multi cell patch, each as a patch with default fields. -/
def placeSubs (distillation : Bool) : List OccCell → DSlice → Outcome DSlice
  | [], s => .ok s
  | o :: os, s => do
    let r ← s.placeSingle { type := .distillation, activity := .none, cells := .single o } distillation
    placeSubs distillation os r.1

/-- dense_slice.cpp:210-220 `place_sparse_patch`. -/
def place (s : DSlice) (p : SparsePatch) (distillation : Bool) : Outcome DSlice :=
  match p.cells with
  | .single _ => do
    let r ← s.placeSingle p distillation
    .ok r.1
  | .multi os => placeSubs distillation os s

/-- The side `get_boundary_between(target, neighbour)` refers to, if any (dense_slice.cpp:227-240). -/
def sideBetween (s : DSlice) (target neighbour : Cell) : Outcome (Option CellDirection) := do
  match ← s.patchAt target with
  | none => .ok none
  | some _ => .ok (target.sideTowards neighbour)

/-- dense_slice.cpp:227-240, 249-255 `get_boundary_between`, reading. -/
def boundaryBetween (s : DSlice) (target neighbour : Cell) : Outcome (Option Boundary) := do
  match ← s.patchAt target with
  | none => .ok none
  | some p => .ok ((target.sideTowards neighbour).map p.bounds.get)

/-- Writing through a reference to one side of the patch at `c`. -/
def setSide (s : DSlice) (c : Cell) (d : CellDirection) (f : Boundary → Boundary) : DSlice :=
  match s.cells c with
  | none => s
  | some p => s.put c (some { p with bounds := p.bounds.set (f (p.bounds.get d)) d })

/-- `get_boundary_between_or_fail(a, b).get().is_active = true` (dense_slice.cpp:242-246). -/
def activateOrFail (s : DSlice) (a b : Cell) : Outcome DSlice := do
  match ← s.sideBetween a b with
  | none => .throws
  | some d => .ok (s.setSide a d fun x => { x with active := true })

/-- `get_boundary_between(a, b)->get().is_active = true`: an empty optional must not be dereferenced. -/
def activate (s : DSlice) (a b : Cell) : Outcome DSlice := do
  match ← s.sideBetween a b with
  | none => .ub
  | some d => .ok (s.setSide a d fun x => { x with active := true })

/-- dense_slice.cpp:257-261 `have_boundary_of_type_with`. -/
def haveBoundaryOfType (s : DSlice) (target neighbour : Cell) (op : Pauli) : Outcome Bool := do
  match ← s.boundaryBetween target neighbour with
  | none => .ok false
  | some b => do
    let t ← boundaryForOperator op
    .ok (b.ty == t)

def reservedType (t : BoundaryType) : Bool := t == .reserved1 || t == .reserved2

/-- dense_slice.cpp:263-267 `is_boundary_reserved`. -/
def boundaryReserved (s : DSlice) (target neighbour : Cell) : Outcome Bool := do
  match ← s.boundaryBetween target neighbour with
  | none => .ok false
  | some b => .ok (reservedType b.ty)

/-- Writing to one field of the patch at `c` (the patch is there). -/
def modPatch (s : DSlice) (c : Cell) (f : DensePatch → DensePatch) : DSlice := s.put c ((s.cells c).map f)

/-- dense_slice.cpp:108-114: the empty slice. -/
def empty (L : Layout) : DSlice := { rows := (L.furthest.row + 1).toNat, cols := (L.furthest.col + 1).toNat, cells := fun _ => none }

/-- dense_slice.cpp:122-128. -/
def placeCore : List SparsePatch → List Nat → DSlice → Outcome DSlice
  | p :: ps, i :: is, s => do
    let r ← s.placeSingle p false
    placeCore ps is (r.1.modPatch r.2 fun d => { d with id := some i })
  | _, _, s => .ok s

/-- dense_slice.cpp:130-135. -/
def placeY : List Cell → DSlice → Outcome DSlice
  | [], s => .ok s
  | c :: cs, s => do
    let r ← s.placeSingle (basicSquare c none none) false
    placeY cs { r.1 with yAvail := r.1.yAvail + 1 }

/-- Assigning one patch to each of several cells (dense_slice.cpp:139-144, 147-153, 160-166). -/
def assignAll : List (Cell × DensePatch) → DSlice → Outcome DSlice
  | [], s => .ok s
  | (c, p) :: cs, s => do
    let s ← s.assign c (some p)
    assignAll cs s

/-- The patch put on a distillation tile (dense_slice.cpp:141-143, 149-152). -/
def distillationPatch (b : CellBoundaries) : DensePatch := { type := .distillation, activity := .distillation, bounds := b }

/-- dense_slice.cpp:162-165. -/
def deadPatch : DensePatch := { type := .dead, activity := .dead, bounds := .all ⟨.connected, false⟩ }

/-- dense_slice.cpp:116-168: the initial slice. -/
def init (L : Layout) (ids : List Nat) : Outcome DSlice :=
  if L.core.length < ids.length then .throws
  else do
    let s ← placeCore L.core ids (empty L)
    let s ← placeY L.predistilled s
    let s ← assignAll (L.regions.flatten.map fun o => (o.cell, distillationPatch o.bounds)) s
    let s ← assignAll (L.reserved.map fun c => (c, distillationPatch (.all ⟨.connected, false⟩))) s
    let s := { s with times := L.times }
    assignAll (L.dead.map fun c => (c, deadPatch)) s

/-- Insertion into a `std::set<Cell>`, ordered by row and then column (patches.hpp:53). -/
def setInsert (c : Cell) : List Cell → List Cell
  | [] => [c]
  | x :: xs =>
    if x = c then x :: xs
    else if c.row < x.row ∨ (c.row = x.row ∧ c.col < x.col) then c :: x :: xs
    else x :: setInsert c xs

/-- One cell in the traversal of dense_patch_computation.cpp:81-108. -/
def age (p : DensePatch) : Option DensePatch :=
  let p := if p.activity = .unitary then { p with activity := .none } else p
  let p := if p.activity = .edpc then { p with activity := .reserved } else p
  let off : Boundary → Boundary := fun b => { b with active := false }
  let p := if p.activity ≠ .rotation ∧ p.activity ≠ .reserved then
      { p with bounds := ⟨off p.bounds.top, off p.bounds.bottom, off p.bounds.left, off p.bounds.right⟩ }
    else p
  if p.activity = .multiPatchMeasurement ∨ p.activity = .measurement then none else some p

def ageAll (s : DSlice) : DSlice := { s with cells := fun c => (s.cells c).bind age }

/-- Decrement of a `uint32_t`. -/
def dec32 (n : Nat) : Nat := if n = 0 then 2 ^ 32 - 1 else n - 1

/-- dense_patch_computation.cpp:136-138: a magic state appears. -/
def spawn (s : DSlice) (c : Cell) : Outcome DSlice := do
  let r ← s.placeSingle { basicSquare c none (some "Magic State") with type := .preparedState } true
  .ok { r.1 with magic := setInsert c r.1.magic }

/-- dense_patch_computation.cpp:118-129. Indexing the vectors is unchecked. -/
def respawnCount (L : Layout) (s : DSlice) (i : Nat) (c : Cell) : Outcome DSlice := do
  match ← s.patchAt c with
  | none =>
    match s.times[i]?, L.times[i]? with
    | some _, some t => .ok { s.put c (some (distillationPatch (.all ⟨.connected, false⟩))) with times := s.times.set i t }
    | _, _ => .ub
  | some p =>
    if p.type = .distillation then
      match s.times[i]? with
      | some t => .ok { s with times := s.times.set i (dec32 t) }
      | none => .ub
    else .ok s

/-- dense_patch_computation.cpp:131-141. -/
def respawnPlace (s : DSlice) (i : Nat) (c : Cell) : Outcome DSlice :=
  match s.times[i]?, s.cells c with
  | some t, some p => if t = 0 ∧ p.type ≠ .preparedState ∧ p.type ≠ .qubit then s.spawn c else .ok s
  | _, _ => .ub

/-- dense_patch_computation.cpp:116-143. -/
def respawn (L : Layout) : List Cell → Nat → DSlice → Outcome DSlice
  | [], _, s => .ok s
  | c :: cs, i, s => do
    let s ← respawnCount L s i c
    let s ← respawnPlace s i c
    respawn L cs (i + 1) s

/-- dense_patch_computation.cpp:49-65: the first free cell of a list. -/
def firstFree (s : DSlice) : List Cell → Outcome (Option Cell)
  | [] => .ok none
  | c :: cs => do
    let f ← s.isFree c
    if f then .ok (some c) else firstFree s cs

/-- dense_patch_computation.cpp:156-164, when the time has come: indexing the layout is unchecked. -/
def deliver (L : Layout) (s : DSlice) (i : Nat) : Outcome DSlice :=
  match L.distilled[i]?, L.times[i]? with
  | some locs, some t => do
    match ← s.firstFree locs with
    | some c => do
      let s ← s.spawn c
      .ok { s with times := s.times.set i t }
    | none => .ok { s with times := s.times.set i t }
  | _, _ => .ub

/-- dense_patch_computation.cpp:149-168: the factories from index `i` on; `n` are left. -/
def factories (L : Layout) : Nat → Nat → DSlice → Outcome DSlice
  | 0, _, s => .ok s
  | n + 1, i, s =>
    let t := dec32 (s.times.getD i 0)
    let s := { s with times := s.times.set i t }
    if t = 0 then do
      let s ← deliver L s i
      factories L n (i + 1) s
    else factories L n (i + 1) s

/-- dense_patch_computation.cpp:79-174 `advance_slice`. -/
def advance (L : Layout) (s : DSlice) : Outcome DSlice := do
  let s := s.ageAll
  let s ← if L.magicReserved then respawn L L.reserved 0 s else factories L s.times.length 0 s
  .ok { s with crossing := [] }

end DSlice

end Verif
