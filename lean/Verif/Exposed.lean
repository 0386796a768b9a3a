import Verif.Stream
import Verif.Slice

/-!
# Which operators the patches of a layout expose (model)

Models `/repo/src/layout/dynamic_layouts/determine_exposed_operators.cpp:20-60`, which gives the boundary rotation stage its
starting point (boundary_rotation_injection_stream.cpp:14-18).
-/

namespace Verif.Stream

/-- determine_exposed_operators.cpp:43-55: the loop over the neighbours. -/
def exposedAt (s : DSlice) (o : OccCell) : List Cell → Exposed → Outcome Exposed
  | [], e => .ok e
  | n :: ns, e => do
    let free ← s.isFree n
    if !free then exposedAt s o ns e
    else
      match o.boundaryWith n with
      | none => exposedAt s o ns e
      | some _ => do
        let x ← o.haveBoundaryOfTypeWith .X n
        let z ← o.haveBoundaryOfTypeWith .Z n
        exposedAt s o ns ⟨e.x || x, e.z || z⟩

/-- determine_exposed_operators.cpp:29 and 37-59 with dense_slice.cpp:56-69 (the patch found is always a single cell) and
103-106. -/
def exposedOf (L : Layout) (s : DSlice) (id : Nat) : Outcome Exposed :=
  match s.cellById id with
  | none => .throws
  | some c =>
    match s.cells c with
    | none => .throws
    | some p => exposedAt s ⟨p.bounds, c⟩ (c.neighboursIn ⟨0, 0⟩ L.furthest) ⟨false, false⟩

/-- determine_exposed_operators.cpp:27-30. -/
def exposedEach (L : Layout) (s : DSlice) : List Nat → ExposedMap → Outcome ExposedMap
  | [], m => .ok m
  | id :: ids, m => do
    let e ← exposedOf L s id
    exposedEach L s ids (upd m id (some e))

/-- determine_exposed_operators.cpp:20-32 `determine_exposed_core_operators`. -/
def determineExposed (L : Layout) (ids : List Nat) : Outcome ExposedMap := do
  let s ← DSlice.init L ids
  exposedEach L s ids fun _ => none

end Verif.Stream
