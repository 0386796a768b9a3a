import Verif.Slice
import Verif.Wave

/-!
# Applying instructions to slices (model)

Models `/repo/src/patches/dense_patch_computation.cpp:13-77, 177-1446` and the EDPC functions of
`/repo/src/patches/dense_slice.cpp:275-526`.

The router is a parameter: any function from a router state, a slice and the end points to a route (or none) and a new
router state. Error messages are not modelled, only whether an error is returned. A failed `assert` ends the run
(outcome `throws`) when `asserts` is set and has no effect otherwise.
-/

namespace Verif

/-- router.hpp:19-34, as used by the functions below. -/
structure RouterI (ρ : Type) where
  find : ρ → DSlice → Nat → Pauli → Nat → Pauli → Outcome (Option RoutingRegion × ρ)
  edpc : Bool

/-- The fixed arguments of `try_apply_instruction_direct_followup` (dense_patch_computation.cpp:748-755). -/
structure Ctx (ρ : Type) where
  localInstrs : Bool
  twists : Bool
  genIds : Bool
  asserts : Bool
  layout : Layout
  router : RouterI ρ

/-- What an application can change: the slice, the router's cache, and `multi_body_measurement_op_id_counter`
(dense_patch_computation.cpp:302). -/
structure Mach (ρ : Type) where
  slice : DSlice
  rs : ρ
  counter : Nat := 1

namespace Apply

/-! ### Rotation -/

/-- A cell of a region with no boundaries (dense_patch_computation.cpp:23-34, 964-976). -/
def bareCell (c : Cell) : OccCell := ⟨.all ⟨.none, false⟩, c⟩

/-- dense_patch_computation.cpp:13-46; dereferencing the empty result of `get_mut_boundary_with` is undefined. -/
def rotation (p : SparsePatch) (n : Cell) : Outcome (RoutingRegion × Nat × List SparsePatch) :=
  match p.cells with
  | .multi _ => .throws
  | .single t =>
    match (bareCell t.cell).setBoundaryWith n (fun _ => ⟨.connected, true⟩),
      (bareCell n).setBoundaryWith t.cell (fun _ => ⟨.connected, true⟩) with
    | some a, some b => .ok (⟨[a, b], none⟩, 3, [{ p with cells := .single { t with bounds := t.bounds.instantRotate } }])
    | _, _ => .ub

/-! ### Finding places -/

/-- The loop of dense_patch_computation.cpp:70-75. -/
def nextToGo (s : DSlice) (t : Cell) (op : Pauli) : List Cell → Outcome (Option Cell)
  | [] => .ok none
  | c :: cs => do
    match ← s.boundaryBetween t c with
    | none => nextToGo s t op cs
    | some b => do
      let ty ← boundaryForOperator op
      if b.ty = ty then do
        let f ← s.isFree c
        if f then .ok (some c) else nextToGo s t op cs
      else nextToGo s t op cs

/-- dense_patch_computation.cpp:67-77 `place_ancilla_next_to`. -/
def nextTo (L : Layout) (s : DSlice) (target : Nat) (op : Pauli) : Outcome (Option Cell) :=
  match s.cellById target with
  | none => .throws
  | some t => nextToGo s t op (t.neighboursIn ⟨0, 0⟩ L.furthest)

/-! ### Marking routes -/

/-- dense_patch_computation.cpp:177-193 `stitch_boundaries`. -/
def stitch (s : DSlice) (source target : Cell) (r : RoutingRegion) : Outcome DSlice :=
  match r.cells.getLast?, r.cells.head? with
  | some b, some f => do
    let s ← s.activate source b.cell
    s.activate target f.cell
  | _, _ => do
    let s ← s.activate source target
    s.activate target source

/-- The directions in the order of dense_slice.cpp:289, 348. -/
def directions : List CellDirection := [.top, .bottom, .left, .right]

/-- Flip or set the boundary of the neighbour `n` facing `c`, if `n` holds a patch (dense_slice.cpp:306-309). -/
def conjugate (s : DSlice) (n c : Cell) (f : Boundary → Boundary) : Outcome DSlice := do
  match ← s.sideBetween n c with
  | none => .ok s
  | some d => .ok (s.setSide n d f)

def flipTy (b : Boundary) : Boundary := { b with ty := b.ty.flip }

/-- dense_slice.cpp:295-326, one side after the other. -/
def flipSides (L : Layout) (c : Cell) (dir : CellDirection) : List CellDirection → DSlice → Outcome DSlice
  | [], s => .ok s
  | d :: ds, s =>
    match c.directional ⟨0, 0⟩ L.furthest d, s.cells c with
    | some n, some p =>
      if DSlice.reservedType (p.bounds.get d).ty then
        if d ≠ dir.flip then do
          let s ← conjugate (s.setSide c d flipTy) n c flipTy
          flipSides L c dir ds s
        else flipSides L c dir ds s
      else .throws
    | _, _ => .throws

/-- dense_slice.cpp:275-338 `flip_crossing_chain`; `fuel` bounds the number of cells passed, all in direction `dir`
inside the layout (see `chainFuel`). -/
def flipChain (L : Layout) (dir : CellDirection) : Nat → Cell → DSlice → Outcome DSlice
  | 0, _, _ => .ub
  | fuel + 1, c, s =>
    if c ∉ s.crossing then .throws
    else do
      match ← s.patchAt c with
      | none => .throws
      | some _ => do
        let s ← flipSides L c dir directions s
        match c.directional ⟨0, 0⟩ L.furthest dir with
        | some n => if n ∈ s.crossing then flipChain L dir fuel n s else .ok s
        | none => .ok s

/-- More steps than there are cells between a cell and the border of the layout. -/
def chainFuel (L : Layout) : Nat := L.furthest.row.toNat + L.furthest.col.toNat + 2

/-- Local variables of the loop dense_slice.cpp:371-475. -/
structure Crossing where
  slice : DSlice
  first : Option CellDirection := none
  indices : List CellDirection := []
  crossings : Nat
  reserved : Nat := 0

/-- dense_slice.cpp:419-424, 448-453: the neighbour is itself a crossing. -/
def spread (L : Layout) (n : Cell) (d : CellDirection) (st : Crossing) : Outcome Crossing :=
  if n ∈ st.slice.crossing then do
    let s ← flipChain L d (chainFuel L) n st.slice
    .ok { st with slice := s, indices := st.indices ++ [d], crossings := st.crossings + 1 }
  else .ok st

/-- dense_slice.cpp:383-459: the side `d`, with neighbour `n`, is reserved. `b` is the boundary there and `pb` the one
towards the previous cell. -/
def crossReserved (L : Layout) (c prev n : Cell) (prevCross : Bool) (d : CellDirection) (p : DensePatch) (st : Crossing) : Outcome Crossing :=
  let b := p.bounds.get d
  let st := { st with reserved := st.reserved + 1 }
  if n = prev then
    if prevCross then .ok { st with indices := st.indices ++ [d] } else .throws
  else
    match st.first with
    | none =>
      match (c.sideTowards prev).map p.bounds.get with
      | none => .throws
      | some pb =>
        if b.ty = pb.ty then do
          let s ← conjugate (st.slice.setSide c d flipTy) n c flipTy
          spread L n d { st with slice := s, first := some d }
        else .ok { st with first := some d }
    | some f =>
      if b.ty ≠ (p.bounds.get f).ty then do
        let s ← conjugate (st.slice.setSide c d flipTy) n c (fun x => { x with ty := b.ty.flip })
        spread L n d { st with slice := s }
      else .ok st

/-- dense_slice.cpp:376-475. -/
def crossSides (L : Layout) (c prev : Cell) (prevCross : Bool) : List CellDirection → Crossing → Outcome Crossing
  | [], st => .ok st
  | d :: ds, st =>
    match c.directional ⟨0, 0⟩ L.furthest d, st.slice.cells c with
    | some n, some p =>
      let ty := (p.bounds.get d).ty
      if DSlice.reservedType ty then do
        let st ← crossReserved L c prev n prevCross d p st
        crossSides L c prev prevCross ds st
      else if ty ≠ .none then .throws
      else crossSides L c prev prevCross ds st
    | _, _ => .throws

/-- dense_slice.cpp:477-500: the consistency checks. -/
def crossChecks (asserts prevCross : Bool) (st : Crossing) : Outcome Unit :=
  let opposite : Outcome Unit :=
    if st.crossings = 2 then
      match st.indices with
      | [a, b] => if a ≠ b.flip then .throws else .ok ()
      | _ => if asserts then .throws else .ub
    else .ok ()
  if 2 < st.crossings then .throws
  else do
    opposite
    if st.reserved = 4 then .throws
    else if st.reserved = 3 ∧ prevCross = false then .throws
    else if st.reserved = 2 ∧ prevCross = true then .throws
    else if st.reserved < 2 then .throws
    else .ok ()

/-- dense_slice.cpp:505-523: the remaining sides get the other label. -/
def crossFill (L : Layout) (c : Cell) (label : BoundaryType) : List CellDirection → DSlice → Outcome DSlice
  | [], s => .ok s
  | d :: ds, s =>
    match c.directional ⟨0, 0⟩ L.furthest d, s.cells c with
    | some n, some p =>
      if (p.bounds.get d).ty = .none then do
        let s ← conjugate (s.setSide c d (fun _ => ⟨label, true⟩)) n c (fun x => { x with ty := label })
        crossFill L c label ds s
      else crossFill L c label ds s
    | _, _ => crossFill L c label ds s

/-- dense_slice.cpp:340-526 `mark_boundaries_for_crossing_cell`, called with the patch at `c`. -/
def markCrossing (L : Layout) (asserts : Bool) (s : DSlice) (c prev : Cell) : Outcome (DSlice × BoundaryType) := do
  let prevCross := decide (prev ∈ s.crossing)
  match ← s.boundaryBetween c prev with
  | none => .throws
  | some pb =>
    if prevCross ∧ pb.ty = .none then .throws
    else do
      let st ← crossSides L c prev prevCross directions { slice := s, crossings := if prevCross then 1 else 0 }
      crossChecks asserts prevCross st
      match st.first, st.slice.cells c with
      | some f, some p => do
        let label := (p.bounds.get f).ty.flip
        let s ← crossFill L c label directions st.slice
        .ok (s, label)
      | _, _ => .ub

/-- dense_patch_computation.cpp:272-277: relabel the used sides of a cell. -/
def relabel (label : BoundaryType) (b : CellBoundaries) : CellBoundaries :=
  let f : Boundary → Boundary := fun x => if x.ty ≠ .none ∧ x.ty ≠ label then { x with ty := label } else x
  ⟨f b.top, f b.bottom, f b.left, f b.right⟩

/-- dense_patch_computation.cpp:232-259: the cell holds a patch that is not an EDPC one. `cells` are the cells of the
whole region and `k` the position of this one. -/
def markEnd (s : DSlice) (cells : List Cell) (k : Nat) (c : Cell) (label : BoundaryType) : Outcome DSlice :=
  if k = 0 then
    match cells[1]? with
    | none => .ub
    | some n => do
      match ← s.sideBetween c n with
      | none => .throws
      | some d => .ok { s.setSide c d (fun x => { x with ty := label }) with markedRough := s.markedRough ++ [(c, d)] }
  else if k = cells.length - 1 then
    match cells[cells.length - 2]? with
    | none => .ub
    | some n => do
      match ← s.sideBetween c n with
      | none => .throws
      | some d => .ok { s.setSide c d (fun x => { x with ty := label }) with markedSmooth := s.markedSmooth ++ [(c, d)] }
  else .throws

/-- dense_patch_computation.cpp:207-283: one cell of the region. Gives the slice, the current label and the cell as it
is left in the region. -/
def markOne (L : Layout) (asserts : Bool) (act : PatchActivity) (rid : Option Nat) (cells : List Cell) (k : Nat) (o : OccCell)
    (s : DSlice) (label : BoundaryType) : Outcome (DSlice × BoundaryType × OccCell) := do
  match ← s.patchAt o.cell with
  | some p =>
    if act = .edpc then
      if p.activity = .edpc then
        if o.cell ∈ s.crossing then .throws
        else if k = 0 then .ub
        else
          match cells[k - 1]? with
          | none => .ub
          | some prev => do
            let r ← markCrossing L asserts { s with crossing := s.crossing ++ [o.cell] } o.cell prev
            .ok (r.1, r.2, o)
      else do
        let s ← markEnd s cells k o.cell label
        .ok (s, label, o)
    else .throws
  | none => do
    let o' : OccCell := if act = .edpc then { o with bounds := relabel label o.bounds } else o
    let s ← s.place { type := .routing, activity := act, opId := rid, cells := .single o' } false
    .ok (s, label, o')

/-- dense_patch_computation.cpp:204-287. -/
def markGo (L : Layout) (asserts : Bool) (act : PatchActivity) (rid : Option Nat) (cells : List Cell) :
    List OccCell → Nat → DSlice → BoundaryType → Outcome (DSlice × List OccCell)
  | [], _, s, _ => .ok (s, [])
  | o :: os, k, s, label => do
    let r ← markOne L asserts act rid cells k o s label
    let rest ← markGo L asserts act rid cells os (k + 1) r.1 r.2.1
    .ok (rest.1, r.2.2 :: rest.2)

/-- dense_patch_computation.cpp:195-288 `mark_routing_region`; the region is changed too. -/
def mark (L : Layout) (asserts : Bool) (s : DSlice) (r : RoutingRegion) (act : PatchActivity) : Outcome (DSlice × RoutingRegion) := do
  let x ← markGo L asserts act r.regionId (r.cells.map (·.cell)) r.cells 0 s .reserved1
  .ok (x.1, { r with cells := x.2 })

/-- dense_patch_computation.cpp:290-299 `clear_routing_region`. -/
def clear (asserts : Bool) : List OccCell → DSlice → Outcome DSlice
  | [], s => .ok s
  | o :: os, s => do
    let p ← s.patchAt o.cell
    if asserts ∧ (p.map (·.type)) ≠ some .routing then .throws
    else clear asserts os (s.put o.cell none)

/-- wave_scheduler.cpp:81-92: the marked sides of data qubits are reset; a reference into an empty optional dangles. -/
def resetSides (t : BoundaryType) : List (Cell × CellDirection) → DSlice → Outcome DSlice
  | [], s => .ok s
  | (c, d) :: cs, s =>
    match s.cells c with
    | none => .ub
    | some _ => resetSides t cs (s.setSide c d fun x => { x with ty := t })

def resetMarked (s : DSlice) : Outcome DSlice := do
  let s' ← resetSides .rough s.markedRough s
  let s' ← resetSides .smooth s.markedSmooth s'
  .ok { s' with markedRough := [], markedSmooth := [] }

/-! ### Merging -/

variable {ρ : Type}

/-- dense_patch_computation.cpp:307-338 `merge_patches`. -/
def merge (ctx : Ctx ρ) (m : Mach ρ) (a : Nat) (opA : Pauli) (b : Nat) (opB : Pauli) : Outcome (Mach ρ × Bool) :=
  match m.slice.patchById a, m.slice.patchById b with
  | some pa, some pb =>
    if pa.isActive || pb.isActive then .ok (m, false)
    else do
      let (r, rs) ← ctx.router.find m.rs m.slice a opA b opB
      match r with
      | none => .ok ({ m with rs := rs }, false)
      | some region => do
        let region := if ctx.genIds then { region with regionId := some m.counter } else region
        let counter := if ctx.genIds then m.counter + 1 else m.counter
        match m.slice.cellById a, m.slice.cellById b with
        | some ca, some cb => do
          let s ← stitch m.slice ca cb region
          let x ← mark ctx.layout ctx.asserts s region .multiPatchMeasurement
          .ok ({ slice := x.1, rs := rs, counter := counter }, true)
        | _, _ => .ub
  | _, _ => .ub

/-! ### Local instructions -/

/-- The activities dense_patch_computation.cpp:367 and others accept. -/
def edpcActs : List PatchActivity := [.edpc, .reserved]

/-- Is the cell available for a new patch? (dense_patch_computation.cpp:365-389, 426-443, 481-498). -/
def available (edpc : Bool) (s : DSlice) (c : Cell) : Outcome Bool := if edpc then s.isFreeOr c edpcActs else s.isFree c

/-- With EDPC the cell is emptied first. -/
def vacate (edpc : Bool) (s : DSlice) (c : Cell) : DSlice := if edpc then s.put c none else s

/-- dense_patch_computation.cpp:347-360. -/
def prepareY (s : DSlice) (id : Option Nat) (c : Cell) : Outcome (DSlice × Bool) := do
  let f ← s.isFree c
  if !f then .throws
  else do
    let r ← s.placeSingle (basicSquare c id (some "Y State")) false
    .ok (r.1.modPatch c (fun p => { p with activity := .unitary }), false)

/-- dense_patch_computation.cpp:391-396. -/
def bellPlace (s : DSlice) (id1 id2 : Option Nat) (c1 c2 : Cell) : Outcome DSlice := do
  let r ← s.placeSingle (basicSquare c1 id1 (some "Bell 1")) false
  let r ← r.1.placeSingle (basicSquare c2 id2 (some "Bell 2")) false
  let s ← r.1.activateOrFail c1 c2
  s.activateOrFail c2 c1

/-- dense_patch_computation.cpp:362-397. -/
def bellPrepare (edpc : Bool) (s : DSlice) (id1 id2 : Option Nat) (c1 c2 : Cell) : Outcome (DSlice × Bool) := do
  let a1 ← available edpc s c1
  if !a1 then .ok (s, true)
  else do
    let a2 ← available edpc s c2
    if !a2 then .ok (s, true)
    else do
      let s ← bellPlace (vacate edpc (vacate edpc s c1) c2) id1 id2 c1 c2
      .ok (s, false)

/-- Both cells hold inactive patches (dense_patch_computation.cpp:401-408, 458-465, 509-516). -/
def bothIdle (s : DSlice) (c1 c2 : Cell) : Outcome Bool := do
  match ← s.patchAt c1 with
  | none => .ok false
  | some p1 =>
    match ← s.patchAt c2 with
    | none => .ok false
    | some p2 => .ok (!p1.isActive && !p2.isActive)

def setActivity (s : DSlice) (c : Cell) (a : PatchActivity) : DSlice := s.modPatch c fun p => { p with activity := a }

/-- dense_patch_computation.cpp:399-416. -/
def bellMeasure (s : DSlice) (c1 c2 : Cell) : Outcome (DSlice × Bool) := do
  let ok ← bothIdle s c1 c2
  if !ok then .ok (s, true)
  else do
    let s ← s.activateOrFail c1 c2
    let s ← s.activateOrFail c2 c1
    .ok (setActivity (setActivity s c1 .measurement) c2 .measurement, false)

/-- dense_patch_computation.cpp:445-453. -/
def movePlace (s : DSlice) (src dst : Cell) (newId : Option Nat) : Outcome DSlice :=
  match s.cells src with
  | none => .ub
  | some p => do
    let r ← s.placeSingle (basicSquare dst (newId.or p.id) (some "Move")) false
    let s ← r.1.activateOrFail src dst
    let s ← s.activateOrFail dst src
    .ok (s.modPatch src fun p => { p with activity := .measurement, id := none })

/-- The patch at `c` exists and is idle (dense_patch_computation.cpp:421-424, 476-479). -/
def idleAt (s : DSlice) (c : Cell) : Outcome Bool := do
  match ← s.patchAt c with
  | none => .ok false
  | some p => .ok (!p.isActive)

/-- dense_patch_computation.cpp:418-454. -/
def move (edpc : Bool) (s : DSlice) (src dst : Cell) (newId : Option Nat) : Outcome (DSlice × Bool) := do
  let i ← idleAt s src
  if !i then .ok (s, true)
  else do
    let a ← available edpc s dst
    if !a then .ok (s, true)
    else do
      let s ← movePlace (vacate edpc s dst) src dst newId
      .ok (s, false)

/-- dense_patch_computation.cpp:456-471. -/
def twoPatchMeasure (s : DSlice) (c1 c2 : Cell) : Outcome (DSlice × Bool) := do
  let ok ← bothIdle s c1 c2
  if !ok then .ok (s, true)
  else do
    let s ← s.activateOrFail c1 c2
    let s ← s.activateOrFail c2 c1
    .ok (s, false)

/-- dense_patch_computation.cpp:473-505. -/
def extendSplit (edpc : Bool) (s : DSlice) (id : Option Nat) (target ext : Cell) : Outcome (DSlice × Bool) := do
  let i ← idleAt s target
  if !i then .ok (s, true)
  else do
    let a ← available edpc s ext
    if !a then .ok (s, true)
    else do
      let r ← (vacate edpc s ext).placeSingle (basicSquare ext id (some "Extended")) false
      let s ← r.1.activateOrFail ext target
      let s ← s.activateOrFail target ext
      .ok (s, false)

/-- dense_patch_computation.cpp:507-523. -/
def mergeContract (s : DSlice) (preserved measured : Cell) : Outcome (DSlice × Bool) := do
  let ok ← bothIdle s preserved measured
  if !ok then .ok (s, true)
  else do
    let s ← s.activateOrFail preserved measured
    let s ← s.activateOrFail measured preserved
    .ok (setActivity s measured .measurement, false)

/-- dense_patch_computation.cpp:341-525 `try_apply_local_instruction`: the slice and whether an error is returned. No
case returns follow-ups. -/
def applyLocal (edpc : Bool) (s : DSlice) : LocalInstr → Outcome (DSlice × Bool)
  | .prepareY id c => prepareY s id c
  | .bellPrepare id1 id2 c1 c2 => bellPrepare edpc s id1 id2 c1 c2
  | .bellMeasure c1 c2 => bellMeasure s c1 c2
  | .move src dst newId => move edpc s src dst newId
  | .twoPatchMeasure c1 c2 => twoPatchMeasure s c1 c2
  | .extendSplit id target ext => extendSplit edpc s id target ext
  | .mergeContract p m => mergeContract s p m

/-- The loop over local instructions (dense_patch_computation.cpp:911-920, 1153-1164, 1240-1249): the slice, how many
were applied, and whether all were. -/
def runLocals (edpc : Bool) : List LocalInstr → DSlice → Outcome (DSlice × Nat × Bool)
  | [], s => .ok (s, 0, true)
  | i :: is, s => do
    let r ← applyLocal edpc s i
    if r.2 then .ok (r.1, 0, false)
    else do
      let x ← runLocals edpc is r.1
      .ok (x.1, x.2.1 + 1, x.2.2)

/-! ### Long-range Bell operations -/

/-- dense_patch_computation.cpp:528-530. -/
inductive LongRange where
  | prep | measure | merge | split
  deriving DecidableEq, Repr

/-- `route.cells[i].cell`: unchecked. -/
def cellAt (route : List Cell) (i : Nat) : Outcome Cell :=
  match route[i]? with
  | some c => .ok c
  | none => .ub

/-- The values of `for (size_t j = a; j < e; j = j+2)`. -/
def byTwo (a e : Nat) : List Nat := (List.range ((e - a + 1) / 2)).map (a + 2 * ·)

/-- The two layers `compile_long_range_Bell` appends to. -/
structure Layers where
  l1 : List LocalInstr := []
  l2 : List LocalInstr := []
  deriving DecidableEq, Repr

def Layers.push1 (l : Layers) (i : LocalInstr) : Layers := { l with l1 := l.l1 ++ [i] }
def Layers.push2 (l : Layers) (i : LocalInstr) : Layers := { l with l2 := l.l2 ++ [i] }

def mkMove (route : List Cell) (i j : Nat) : Outcome LocalInstr := do
  let a ← cellAt route i
  let b ← cellAt route j
  .ok (.move a b none)

def mkExtend (route : List Cell) (i j : Nat) : Outcome LocalInstr := do
  let a ← cellAt route i
  let b ← cellAt route j
  .ok (.extendSplit none a b)

def mkMeasure (route : List Cell) (i j : Nat) : Outcome LocalInstr := do
  let a ← cellAt route i
  let b ← cellAt route j
  .ok (.bellMeasure a b)

def mkContract (route : List Cell) (i j : Nat) : Outcome LocalInstr := do
  let a ← cellAt route i
  let b ← cellAt route j
  .ok (.mergeContract a b)

def mkPrepare (route : List Cell) (id1 id2 : Option Nat) (i j : Nat) : Outcome LocalInstr := do
  let a ← cellAt route i
  let b ← cellAt route j
  .ok (.bellPrepare id1 id2 a b)

/-- dense_patch_computation.cpp:551-571, 632-652: the `Move` of an odd route. -/
def compileMove (ty : LongRange) (route : List Cell) (start end_ : Nat) (reverse : Bool) (l : Layers) : Outcome Layers :=
  if ty = .prep ∨ ty = .split then do
    let i ← if reverse then mkMove route (end_ - 1) end_ else mkMove route (start + 1) start
    .ok (l.push2 i)
  else do
    let i ← if reverse then mkMove route end_ (end_ - 1) else mkMove route start (start + 1)
    .ok (l.push1 i)

/-- dense_patch_computation.cpp:574-629. `none` when the function returns here, else the new range. -/
def compileSplit (route : List Cell) (start end_ size : Nat) (reverse : Bool) (l : Layers) : Outcome (Layers × Option (Nat × Nat)) :=
  if size = 2 ∨ size = 3 then do
    let i ← if reverse then mkExtend route start (start + 1) else mkExtend route end_ (end_ - 1)
    .ok (l.push1 i, none)
  else if reverse then do
    let i ← mkExtend route start (start + 1)
    let j ← mkMeasure route (start + 1) (start + 2)
    .ok ((l.push1 i).push2 j, some (start + 2, end_))
  else do
    let i ← mkExtend route end_ (end_ - 1)
    let j ← mkMeasure route (end_ - 1) (end_ - 2)
    .ok ((l.push1 i).push2 j, some (start, end_ - 2))

/-- dense_patch_computation.cpp:655-710. -/
def compileMerge (route : List Cell) (start end_ size : Nat) (reverse : Bool) (side1 side2 : Option Nat) (l : Layers) :
    Outcome (Layers × Option (Nat × Nat)) :=
  if size = 2 ∨ size = 3 then do
    let i ← if reverse then mkContract route start (start + 1) else mkContract route end_ (end_ - 1)
    .ok (l.push2 i, none)
  else if reverse then do
    let i ← mkPrepare route side2 none (start + 1) (start + 2)
    let j ← mkContract route start (start + 1)
    .ok ((l.push1 i).push2 j, some (start + 2, end_))
  else do
    let i ← mkPrepare route side1 none (end_ - 1) (end_ - 2)
    let j ← mkContract route end_ (end_ - 1)
    .ok ((l.push1 i).push2 j, some (start, end_ - 2))

/-- dense_patch_computation.cpp:715-729. `off` is `!even_route && !reverse`, `back` is `!even_route && reverse`. -/
def compilePairs (ty : LongRange) (route : List Cell) (start end_ off back : Nat) (side1 side2 : Option Nat) : List Nat → Layers → Outcome Layers
  | [], l => .ok l
  | j :: js, l =>
    if ty = .prep ∨ ty = .split then do
      let i ← mkPrepare route (if j = start + off then side2 else none) (if j = end_ - 1 - back then side1 else none) j (j + 1)
      compilePairs ty route start end_ off back side1 side2 js (l.push1 i)
    else do
      let i ← mkMeasure route j (j + 1)
      compilePairs ty route start end_ off back side1 side2 js (l.push2 i)

/-- dense_patch_computation.cpp:730-744. `odd` is `!even_route`. -/
def compileBetween (ty : LongRange) (route : List Cell) (start end_ off odd : Nat) (reverse : Bool) (side1 side2 : Option Nat) : List Nat → Layers → Outcome Layers
  | [], l => .ok l
  | j :: js, l =>
    if ty = .prep ∨ ty = .split then do
      let i ← mkMeasure route (j - 1) j
      compileBetween ty route start end_ off odd reverse side1 side2 js (l.push2 i)
    else do
      let i ← mkPrepare route (if reverse = false ∧ j = start + 2 + off then side2 else none)
        (if reverse = true ∧ j = end_ - 1 - odd then side1 else none) (j - 1) j
      compileBetween ty route start end_ off odd reverse side1 side2 js (l.push1 i)

/-- dense_patch_computation.cpp:573-710: the part specific to splits and merges. -/
def compileEnd (ty : LongRange) (route : List Cell) (start end_ size : Nat) (reverse : Bool) (side1 side2 : Option Nat) (l : Layers) :
    Outcome (Layers × Option (Nat × Nat)) :=
  match ty with
  | .split => compileSplit route start end_ size reverse l
  | .merge => compileMerge route start end_ size reverse side1 side2 l
  | _ => .ok (l, some (start, end_))

/-- dense_patch_computation.cpp:574-746 except the `Move`s. -/
def compileRest (ty : LongRange) (route : List Cell) (start end_ size : Nat) (reverse : Bool) (side1 side2 : Option Nat) (l : Layers) : Outcome Layers := do
  let odd := size % 2
  let off := if reverse then 0 else odd
  let back := if reverse then odd else 0
  let x ← compileEnd ty route start end_ size reverse side1 side2 l
  match x.2 with
  | none => .ok x.1
  | some (start, end_) => do
    let l ← compilePairs ty route start end_ off back side1 side2 (byTwo (start + off) end_) x.1
    compileBetween ty route start end_ off odd reverse side1 side2 (byTwo (start + 2 + off) end_) l

/-- dense_patch_computation.cpp:538-746 `compile_long_range_Bell`. The `Move` of lines 632-652 is emitted after the
(then inactive) lines 574-629, so both kinds of `Move` come first here. -/
def compile (ty : LongRange) (route : List Cell) (start end_ : Nat) (reverse : Bool) (side1 side2 : Option Nat) (l : Layers) : Outcome Layers :=
  if start ≥ end_ ∨ end_ > route.length then .throws
  else if (end_ - start + 1) % 2 = 1 then do
    let l ← compileMove ty route start end_ reverse l
    compileRest ty route start end_ (end_ - start + 1) reverse side1 side2 l
  else compileRest ty route start end_ (end_ - start + 1) reverse side1 side2 l

/-! ### Instructions -/

open Verif.Wave (Res)

/-- `{error, {}}`. -/
def fail (m : Mach ρ) (i : Instr) : Outcome (Res (Mach ρ)) := .ok ⟨m, i, true, []⟩
/-- `{nullptr, {}}`. -/
def success (m : Mach ρ) (i : Instr) : Outcome (Res (Mach ρ)) := .ok ⟨m, i, false, []⟩
/-- `{nullptr, {f}}`. -/
def followup (m : Mach ρ) (i f : Instr) : Outcome (Res (Mach ρ)) := .ok ⟨m, i, false, [f]⟩

/-- dense_patch_computation.cpp:757-767. -/
def applyMeasure (m : Mach ρ) (i : Instr) (target : Nat) : Outcome (Res (Mach ρ)) :=
  match m.slice.cellById target with
  | none => fail m i
  | some c => success { m with slice := setActivity m.slice c .measurement } i

/-- dense_patch_computation.cpp:768-799. The correction is a new instruction. -/
def applySq (ctx : Ctx ρ) (m : Mach ρ) (i : Instr) (target : Nat) (op : SqOp) : Outcome (Res (Mach ρ)) :=
  match m.slice.cellById target, m.slice.patchById target with
  | some c, some p =>
    if op = .S then
      if ctx.router.edpc then .throws
      else do
        let (m, ok) ← merge ctx m target .X target .Z
        if ok then followup m i { op := .sq target .Z false } else fail m i
    else if p.isActive then fail m i
    else if op = .H then
      success { m with slice := m.slice.modPatch c fun p => { p with activity := .unitary, bounds := p.bounds.instantRotate } } i
    else success m i
  | _, _ => fail m i

/-- dense_patch_computation.cpp:827-850. The mismatch tests of lines 831-840 construct an exception without throwing
it. -/
def applyMultiLocal (ctx : Ctx ρ) (m : Mach ρ) (i : Instr) (obs : List (Nat × Pauli)) (neg : Bool) (ca cb : Cell) : Outcome (Res (Mach ρ)) := do
  let b1 ← m.slice.boundaryBetween ca cb
  if b1.isNone then .throws
  else do
    let b2 ← m.slice.boundaryBetween cb ca
    if b2.isNone then .throws
    else do
      let loc := LocalInstr.twoPatchMeasure ca cb
      let r ← applyLocal ctx.router.edpc m.slice loc
      .ok ⟨{ m with slice := r.1 }, { i with op := .multi obs neg (some loc) }, r.2, []⟩

/-- dense_patch_computation.cpp:800-856. -/
def applyMulti (ctx : Ctx ρ) (m : Mach ρ) (i : Instr) (obs : List (Nat × Pauli)) (neg : Bool) : Outcome (Res (Mach ρ)) :=
  match obs with
  | [(a, opA), (b, opB)] =>
    match m.slice.cellById a, m.slice.cellById b with
    | some ca, some cb =>
      if ctx.localInstrs then applyMultiLocal ctx m i obs neg ca cb
      else if ctx.router.edpc then .throws
      else do
        let (m, ok) ← merge ctx m a opA b opB
        if ok then success m i else fail m i
    | _, _ => fail m i
  | _ => .throws

/-- dense_patch_computation.cpp:859-861. -/
def initLocation (ctx : Ctx ρ) (s : DSlice) : Option NextTo → Outcome (Option Cell)
  | some n => nextTo ctx.layout s n.target n.op
  | none => s.firstFree ctx.layout.ancilla

/-- dense_patch_computation.cpp:857-869. -/
def applyInit (ctx : Ctx ρ) (m : Mach ρ) (i : Instr) (target : Nat) (next : Option NextTo) : Outcome (Res (Mach ρ)) := do
  match ← initLocation ctx m.slice next with
  | none => fail m i
  | some c => do
    let r ← m.slice.placeSingle (basicSquare c none (some "Init")) false
    success { m with slice := r.1.modPatch c fun p => { p with id := some target } } i

/-- dense_patch_computation.cpp:896-907: the local instructions of a Bell pair. -/
def bellInitLocals (b : BellInit) (route : List Cell) : Outcome (List LocalInstr) := do
  let l ← compile .prep route 0 (route.length - 1) false (some b.side1) (some b.side2) {}
  .ok (l.l1 ++ l.l2)

/-- dense_patch_computation.cpp:910-921. -/
def bellInitRun (ctx : Ctx ρ) (m : Mach ρ) (i : Instr) (b : BellInit) (locals : List LocalInstr) (second : Nat) : Outcome (Res (Mach ρ)) := do
  let x ← runLocals ctx.router.edpc (locals.drop second) m.slice
  let i' := { i with op := .bell { b with localInstrs := some locals, counter := some (second, second + x.2.1) } }
  if x.2.2 then success { m with slice := x.1 } i' else followup { m with slice := x.1 } i' i'

/-- dense_patch_computation.cpp:870-923. -/
def applyBell (ctx : Ctx ρ) (m : Mach ρ) (i : Instr) (b : BellInit) : Outcome (Res (Mach ρ)) :=
  if !ctx.localInstrs then .throws
  else if !m.slice.hasPatch b.loc1.target then fail m i
  else if !m.slice.hasPatch b.loc2.target then fail m i
  else
    match b.counter with
    | some (_, second) =>
      match b.localInstrs with
      | none => .throws
      | some locals => bellInitRun ctx m i b locals second
    | none => do
      let (r, rs) ← ctx.router.find m.rs m.slice b.loc1.target b.loc1.op b.loc2.target b.loc2.op
      let m := { m with rs := rs }
      match r with
      | none => fail m i
      | some region =>
        if region.cells.length < 2 then fail m i
        else do
          let locals ← bellInitLocals b (region.cells.map (·.cell))
          bellInitRun ctx m i b locals 0

/-- dense_patch_computation.cpp:963-976, 1197-1210: the end patches are added to the route. -/
def withEnds (s : DSlice) (c : BellCNOT) (r : RoutingRegion) : Outcome RoutingRegion :=
  match s.cellById c.control, s.cellById c.target with
  | some a, some b => .ok { r with cells := bareCell b :: r.cells ++ [bareCell a] }
  | _, _ => .throws

/-- dense_patch_computation.cpp:1219-1230, 1026-1051: an undivided route. -/
def compileWhole (c : BellCNOT) (route : List Cell) (l : Layers) : Outcome Layers :=
  let n := route.length
  if n % 2 = 0 then do
    let l ← compile .merge route (n - 2) (n - 1) false none none l
    let l ← compile .merge route 0 1 true none none l
    compile .prep route 1 (n - 2) true (some c.side1) (some c.side2) l
  else do
    let l ← compile .split route (n - 2) (n - 1) false none none l
    compile .merge route 0 (n - 2) true (some c.side1) (some c.side2) l

/-- dense_patch_computation.cpp:1238-1250. -/
def cnotRun (ctx : Ctx ρ) (m : Mach ρ) (i : Instr) (c : BellCNOT) (sets : List (List LocalInstr)) (pairs : List (Nat × Nat)) : Outcome (Res (Mach ρ)) :=
  match pairs, sets with
  | (_, second) :: ps, locals :: _ => do
    let x ← runLocals ctx.router.edpc (locals.drop second) m.slice
    let i' := { i with op := .bellCnot { c with localSets := some sets, counterPairs := some ((second, second + x.2.1) :: ps) } }
    if x.2.2 then success { m with slice := x.1 } i' else followup { m with slice := x.1 } i' i'
  | _, _ => .ub

/-- dense_patch_computation.cpp:1185-1250. -/
def applyCnotPlain (ctx : Ctx ρ) (m : Mach ρ) (i : Instr) (c : BellCNOT) : Outcome (Res (Mach ρ)) :=
  match c.counterPairs with
  | some pairs =>
    match c.localSets with
    | none => .throws
    | some sets => cnotRun ctx m i c sets pairs
  | none => do
    let (r, rs) ← ctx.router.find m.rs m.slice c.control .Z c.target .X
    let m := { m with rs := rs }
    match r with
    | none => fail m i
    | some region =>
      if region.cells.length < 2 then .throws
      else do
        let region ← withEnds m.slice c region
        let l ← compileWhole c (region.cells.map (·.cell)) {}
        cnotRun ctx m i c [l.l1 ++ l.l2] [(0, 0)]

/-- dense_patch_computation.cpp:951-985: the first pass of EDPC. -/
def cnotRoute (ctx : Ctx ρ) (m : Mach ρ) (i : Instr) (c : BellCNOT) : Outcome (Res (Mach ρ)) := do
  let (r, rs) ← ctx.router.find m.rs m.slice c.control .Z c.target .X
  let m := { m with rs := rs }
  match r with
  | none => fail m i
  | some region =>
    if region.cells.length < 2 then .throws
    else do
      let region ← withEnds m.slice c region
      let x ← mark ctx.layout ctx.asserts m.slice region .edpc
      let i' := { i with op := .bellCnot { c with route := some x.2 } }
      .ok ⟨{ m with slice := x.1 }, i', true, [i']⟩

/-- The label between two cells of the route (`.value()` throws). -/
def labelBetween (s : DSlice) (a b : Cell) : Outcome BoundaryType := do
  match ← s.boundaryBetween a b with
  | none => .throws
  | some x => .ok x.ty

/-- dense_patch_computation.cpp:998-1006: positions `k ≥ 1` where the label changes; `a :: b :: …` are the cells from
position `k` on. -/
def endpointsGo (s : DSlice) : List Cell → Nat → BoundaryType → Outcome (List (Nat × BoundaryType) × BoundaryType)
  | a :: b :: rest, k, cur => do
    let ty ← labelBetween s a b
    let x ← endpointsGo s (b :: rest) (k + 1) ty
    .ok (if ty ≠ cur then ((k, ty) :: x.1, x.2) else x)
  | _, _, cur => .ok ([], cur)

/-- dense_patch_computation.cpp:993-1007: the segments of the route with their labels, and the last label. -/
def endpoints (s : DSlice) (route : List Cell) : Outcome (List (Nat × BoundaryType) × BoundaryType) :=
  match route with
  | a :: b :: rest => do
    let ty ← labelBetween s a b
    let x ← endpointsGo s (b :: rest) 1 ty
    .ok ((0, ty) :: x.1 ++ [(route.length - 1, x.2)], x.2)
  | _ => .ub

/-- Phase 1 and phase 2 layers. -/
structure Phases where
  p1 : Layers := {}
  p2 : Layers := {}

/-- dense_patch_computation.cpp:1055-1104: segment `k` of several. -/
def compileSegment (c : BellCNOT) (route : List Cell) (last k : Nat) (a b : Nat × BoundaryType) (p : Phases) : Outcome Phases :=
  match a.2 with
  | .reserved1 => do
    let l ← if k = 0 then compile .split route a.1 b.1 true none (some c.side2) p.p1
      else if k = last then compile .split route a.1 b.1 false none (some c.side1) p.p1
      else compile .prep route a.1 b.1 false none none p.p1
    .ok { p with p1 := l }
  | .reserved2 => do
    let l ← if k = 0 then compile .merge route a.1 b.1 true none none p.p2
      else if k = last then compile .merge route a.1 b.1 false none none p.p2
      else compile .measure route a.1 b.1 false none none p.p2
    .ok { p with p2 := l }
  | _ => .throws

/-- The loop of dense_patch_computation.cpp:1020-1106 for more than one segment. -/
def compileSegments (c : BellCNOT) (route : List Cell) (last : Nat) : List (Nat × BoundaryType) → Nat → Phases → Outcome Phases
  | a :: b :: rest, k, p => do
    let p ← compileSegment c route last k a b p
    compileSegments c route last (b :: rest) (k + 1) p
  | _, _, p => .ok p

/-- dense_patch_computation.cpp:1020-1106. -/
def compileEdpc (c : BellCNOT) (route : List Cell) (eps : List (Nat × BoundaryType)) (cur : BoundaryType) : Outcome Phases :=
  if eps.length = 2 ∧ cur = .reserved1 then do
    let l ← compileWhole c route {}
    .ok { p1 := l }
  else if eps.length = 2 ∧ cur = .reserved2 then do
    let l ← compileWhole c route {}
    .ok { p2 := l }
  else compileSegments c route (eps.length - 2) eps 0 {}

/-- dense_patch_computation.cpp:991-1144: the second pass of EDPC. -/
def cnotDecompose (m : Mach ρ) (i : Instr) (c : BellCNOT) (region : RoutingRegion) : Outcome (Res (Mach ρ)) := do
  let route := region.cells.map (·.cell)
  let e ← endpoints m.slice route
  let p ← compileEdpc c route e.1 e.2
  fail m { i with op := .bellCnot { c with
    localSets := some [p.p1.l1, p.p1.l2, p.p2.l1, p.p2.l2]
    counterPairs := some [(0, 0), (0, 0), (0, 0), (0, 0)]
    phase := some 0 } }

/-- `counter_pairs[k].first = counter_pairs[k].second`. -/
def closeWindow (pairs : List (Nat × Nat)) (k : Nat) : List (Nat × Nat) := pairs.modify k fun p => (p.2, p.2)

/-- dense_patch_computation.cpp:1146-1178: a later pass of EDPC. -/
def cnotPhase (ctx : Ctx ρ) (m : Mach ρ) (i : Instr) (c : BellCNOT) (sets : List (List LocalInstr)) (pairs : List (Nat × Nat)) (phase : Nat) : Outcome (Res (Mach ρ)) :=
  match pairs[phase]?, sets[phase]? with
  | some (_, second), some locals => do
    let pairs := closeWindow (if phase ≠ 0 then closeWindow pairs (phase - 1) else pairs) phase
    let x ← runLocals ctx.router.edpc (locals.drop second) m.slice
    let pairs := pairs.set phase (second, second + x.2.1)
    let m := { m with slice := x.1 }
    let c' := { c with counterPairs := some pairs }
    if !x.2.2 then followup m { i with op := .bellCnot c' } { i with op := .bellCnot c' }
    else if phase = sets.length - 1 ∨ (phase = 1 ∧ (sets[2]?).map List.isEmpty = some true) then success m { i with op := .bellCnot c' }
    else
      let c'' := { c' with phase := some (phase + 1) }
      followup m { i with op := .bellCnot c'' } { i with op := .bellCnot c'' }
  | _, _ => .ub

/-- dense_patch_computation.cpp:947-1181. -/
def applyCnotEdpc (ctx : Ctx ρ) (m : Mach ρ) (i : Instr) (c : BellCNOT) : Outcome (Res (Mach ρ)) :=
  match c.route with
  | none => cnotRoute ctx m i c
  | some region =>
    match c.counterPairs with
    | none => cnotDecompose m i c region
    | some pairs =>
      match c.phase, c.localSets with
      | some phase, some sets => cnotPhase ctx m i c sets pairs phase
      | _, _ => .throws

/-- dense_patch_computation.cpp:924-1253. -/
def applyCnot (ctx : Ctx ρ) (m : Mach ρ) (i : Instr) (c : BellCNOT) : Outcome (Res (Mach ρ)) :=
  if !ctx.localInstrs then .throws
  else
    match m.slice.patchById c.control, m.slice.patchById c.target with
    | some pc, some pt =>
      if pc.isActive || pt.isActive then fail m i
      else if ctx.router.edpc then applyCnotEdpc ctx m i c
      else applyCnotPlain ctx m i c
    | _, _ => fail m i

/-- dense_patch_computation.cpp:1262-1264: the last free neighbour. -/
def lastFree (s : DSlice) : List Cell → Option Cell → Outcome (Option Cell)
  | [], acc => .ok acc
  | c :: cs, acc => do
    let f ← s.isFree c
    lastFree s cs (if f then some c else acc)

/-- dense_patch_computation.cpp:1254-1282. The follow-up is a new instruction. -/
def applyRotate (ctx : Ctx ρ) (m : Mach ρ) (i : Instr) (target : Nat) : Outcome (Res (Mach ρ)) :=
  match m.slice.cellById target, m.slice.patchById target with
  | some c, some p => do
    match ← lastFree m.slice (c.neighboursIn ⟨0, 0⟩ ctx.layout.furthest) none with
    | none => fail m i
    | some n => do
      let p := if p.activity = .unitary then { p with activity := .none } else p
      let (region, steps, after) ← rotation (p.toSparse c) n
      let x ← mark ctx.layout ctx.asserts (m.slice.put c none) region .rotation
      followup { m with slice := x.1 } i { op := .busy x.2 (steps - 1) after }
  | _, _ => fail m i

/-- L1 distance (dense_patch_computation.cpp:1295, 1345). -/
def l1 (a b : Cell) : Nat := (a.col - b.col).natAbs + (a.row - b.row).natAbs

/-- The first cell at the least distance (dense_patch_computation.cpp:1290-1301). -/
def nearest (near : Cell) : List Cell → Option Cell → Option Cell
  | [], acc => acc
  | c :: cs, none => nearest near cs (some c)
  | c :: cs, some b => nearest near cs (if l1 c near < l1 b near then some c else some b)

/-- dense_patch_computation.cpp:1283-1316. -/
def applyMagic (ctx : Ctx ρ) (m : Mach ρ) (i : Instr) (target near : Nat) : Outcome (Res (Mach ρ)) :=
  if ctx.layout.times.length = 0 then .throws
  else if m.slice.magic = [] then fail m i
  else
    match m.slice.cellById near with
    | none => .throws
    | some nc =>
      match nearest nc m.slice.magic none with
      | none => .ub
      | some c => do
        match ← m.slice.patchAt c with
        | none => .throws
        | some _ =>
          let s := m.slice.modPatch c fun p => { p with id := some target, type := .qubit, activity := .none }
          success { m with slice := { s with magic := s.magic.filter (· ≠ c) } } i

/-- dense_patch_computation.cpp:1341-1352: the predistilled cells that are available; dereferencing an empty cell is
undefined. -/
def yCandidates (s : DSlice) : List Cell → Outcome (List Cell)
  | [] => .ok []
  | c :: cs => do
    match ← s.patchAt c with
    | none => .ub
    | some p => do
      let rest ← yCandidates s cs
      .ok (if p.id = none ∧ p.isActive = false then c :: rest else rest)

/-- dense_patch_computation.cpp:1335-1364, 1400. -/
def yPredistilled (ctx : Ctx ρ) (m : Mach ρ) (i : Instr) (target near : Nat) : Outcome (Res (Mach ρ)) := do
  match ← yCandidates m.slice ctx.layout.predistilled with
  | [] => fail m i
  | cands =>
    match m.slice.cellById near with
    | none => .throws
    | some nc =>
      match nearest nc cands none with
      | none => fail m i
      | some c =>
        let s := m.slice.modPatch c fun p => { p with id := some target }
        success { m with slice := { s with yAvail := s.yAvail - 1 } } i

/-- dense_patch_computation.cpp:1376-1384: the last free neighbour at a smooth side. -/
def zNeighbour (s : DSlice) (t : Cell) : List Cell → Option Cell → Outcome (Option Cell)
  | [], acc => .ok acc
  | c :: cs, acc => do
    let f ← s.isFree c
    if f then do
      match ← s.boundaryBetween t c with
      | none => .ub
      | some b => zNeighbour s t cs (if b.ty = .smooth then some c else acc)
    else zNeighbour s t cs acc

/-- dense_patch_computation.cpp:1371-1396. -/
def yTwist (ctx : Ctx ρ) (m : Mach ρ) (i : Instr) (target near : Nat) : Outcome (Res (Mach ρ)) :=
  match m.slice.cellById near with
  | none => .throws
  | some t => do
    match ← zNeighbour m.slice t (t.neighboursIn ⟨0, 0⟩ ctx.layout.furthest) none with
    | none => fail m i
    | some c => do
      let loc := LocalInstr.prepareY (some target) c
      let r ← applyLocal ctx.router.edpc m.slice loc
      success { m with slice := r.1 } { i with op := .ystate target near (some loc) }

/-- dense_patch_computation.cpp:1317-1404. -/
def applyY (ctx : Ctx ρ) (m : Mach ρ) (i : Instr) (target near : Nat) : Outcome (Res (Mach ρ)) :=
  match m.slice.cellById target with
  | some c =>
    let s := m.slice.modPatch c fun p => { p with id := none }
    success { m with slice := { s with yAvail := s.yAvail + 1 } } i
  | none =>
    if (ctx.localInstrs && ctx.twists) = false ∧ m.slice.yAvail ≠ 0 then yPredistilled ctx m i target near
    else if ctx.twists then yTwist ctx m i target near
    else fail m i

/-- All cells of a patch are free (dense_patch_computation.cpp:1412-1417). -/
def allFree (s : DSlice) : List OccCell → Outcome Bool
  | [] => .ok true
  | o :: os => do
    let f ← s.isFree o.cell
    let rest ← allFree s os
    .ok (f && rest)

/-- dense_patch_computation.cpp:1411-1423: the slice and whether there was no room. -/
def restore : List SparsePatch → DSlice → Outcome (DSlice × Bool)
  | [], s => .ok (s, false)
  | p :: ps, s => do
    let f ← allFree s p.occ
    if !f then .ok (s, true)
    else do
      let s ← s.place p false
      restore ps s

/-- The assertion of dense_patch_computation.cpp:1429-1433. -/
def regionPresent (asserts : Bool) (s : DSlice) : List OccCell → Outcome Unit
  | [] => .ok ()
  | o :: os => do
    let p ← s.patchAt o.cell
    if asserts ∧ p = none then .throws else regionPresent asserts s os

/-- dense_patch_computation.cpp:1405-1441. -/
def applyBusy (ctx : Ctx ρ) (m : Mach ρ) (i : Instr) (region : RoutingRegion) (steps : Nat) (after : List SparsePatch) : Outcome (Res (Mach ρ)) :=
  if steps = 0 then do
    let s ← clear ctx.asserts region.cells m.slice
    let x ← restore after s
    if x.2 then fail { m with slice := x.1 } i else success { m with slice := x.1 } i
  else do
    regionPresent ctx.asserts m.slice region.cells
    followup m i { op := .busy region (steps - 1) after }

/-- dense_patch_computation.cpp:748-1446 `try_apply_instruction_direct_followup`; the result carries the instruction as
it is left behind. A declaration reaches `LSTK_UNREACHABLE`, which throws (lstk.hpp:28). -/
def apply (ctx : Ctx ρ) (m : Mach ρ) (i : Instr) : Outcome (Res (Mach ρ)) :=
  match i.op with
  | .measure t _ _ => applyMeasure m i t
  | .sq t op _ => applySq ctx m i t op
  | .multi obs neg _ => applyMulti ctx m i obs neg
  | .init t _ next => applyInit ctx m i t next
  | .bell b => applyBell ctx m i b
  | .bellCnot c => applyCnot ctx m i c
  | .rotate t => applyRotate ctx m i t
  | .magic t near => applyMagic ctx m i t near
  | .ystate t near _ => applyY ctx m i t near
  | .busy region steps after => applyBusy ctx m i region steps after
  | .reset _ => success m i
  | .declare _ => .throws

/-- `advance_slice` on the machine. -/
def step (ctx : Ctx ρ) (m : Mach ρ) : Outcome (Mach ρ) := do
  let s ← m.slice.advance ctx.layout
  .ok { m with slice := s }

end Apply

end Verif
