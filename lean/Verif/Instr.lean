import Verif.Patch

/-!
# Lattice surgery instructions (model)

Models `/repo/include/lsqecc/ls_instructions/ls_instructions.hpp` and
`/repo/include/lsqecc/ls_instructions/local_instructions.hpp`.
-/

namespace Verif

/-- local_instructions.hpp:22-88. -/
inductive LocalInstr where
  | prepareY (targetId : Option Nat) (target : Cell)
  | bellPrepare (side1 side2 : Option Nat) (cell1 cell2 : Cell)
  | bellMeasure (cell1 cell2 : Cell)
  | twoPatchMeasure (cell1 cell2 : Cell)
  | extendSplit (extensionId : Option Nat) (target extension : Cell)
  | mergeContract (preserved measured : Cell)
  | move (source target : Cell) (newId : Option Nat)
  deriving DecidableEq, Repr

/-- ls_instructions.hpp:43-48 `PlaceNexTo`. -/
structure NextTo where
  target : Nat
  op : Pauli
  deriving DecidableEq, Repr

/-- ls_instructions.hpp:53-56. -/
inductive InitState where
  | zero | plus
  deriving DecidableEq, Repr

/-- ls_instructions.hpp:105-111. `I` is not an enumerator but the value `static_cast` produces from
`PauliOperator::I` (ls_instructions_parse.cpp:93). -/
inductive SqOp where
  | I | X | Y | Z | H | S
  deriving DecidableEq, Repr

/-- ls_instructions.hpp:64-74. -/
structure BellInit where
  side1 : Nat
  side2 : Nat
  loc1 : NextTo
  loc2 : NextTo
  localInstrs : Option (List LocalInstr) := none
  counter : Option (Nat × Nat) := none
  deriving DecidableEq, Repr

/-- ls_instructions.hpp:127-139. -/
structure BellCNOT where
  control : Nat
  target : Nat
  side1 : Nat
  side2 : Nat
  route : Option RoutingRegion := none
  counterPairs : Option (List (Nat × Nat)) := none
  localSets : Option (List (List LocalInstr)) := none
  phase : Option Nat := none
  deriving DecidableEq, Repr

/-- The variant `LSInstruction::operation` (ls_instructions.hpp:151-164). -/
inductive Operation where
  | declare (ids : List Nat)
  | measure (target : Nat) (obs : Pauli) (neg : Bool)
  | multi (obs : List (Nat × Pauli)) (neg : Bool) (loc : Option LocalInstr)
  | init (target : Nat) (state : InitState) (next : Option NextTo)
  | bell (b : BellInit)
  | magic (target near : Nat)
  | ystate (target near : Nat) (loc : Option LocalInstr)
  | sq (target : Nat) (op : SqOp) (dagger : Bool)
  | rotate (target : Nat)
  | busy (region : RoutingRegion) (steps : Nat) (after : List SparsePatch)
  | bellCnot (c : BellCNOT)
  | reset (target : Nat)
  deriving DecidableEq, Repr

/-- `std::numeric_limits<size_t>::max()` (ls_instructions.hpp:149). -/
def maxWait : Nat := 2 ^ 64 - 1

/-- ls_instructions.hpp:147-172. `clients` is an ordered set. -/
structure Instr where
  op : Operation
  wait : Nat := maxWait
  clients : List Nat := []
  deriving DecidableEq, Repr

/-- Insertion of several ids into an ordered set. -/
def osetAll (s : List Nat) (xs : List Nat) : List Nat := xs.foldl oset s

/-- The ids inserted by each case of ls_instructions.cpp:13-62. -/
def Operation.ids : Operation → List Nat
  | .measure t _ _ => [t]
  | .multi obs _ _ => obs.map (·.1)
  | .init t _ _ => [t]
  | .bell b => [b.side1, b.side2, b.loc1.target, b.loc2.target]
  | .magic t _ => [t]
  | .ystate t _ _ => [t]
  | .sq t _ _ => [t]
  | .rotate t => [t]
  | .busy _ _ after => after.filterMap (·.id)
  | .bellCnot c => [c.control, c.target, c.side1, c.side2]
  | .declare _ => []
  | .reset t => [t]

/-- ls_instructions.cpp:10-64 `get_operating_patches`: starts from `clients`. -/
def Instr.operating (i : Instr) : List Nat := osetAll i.clients i.op.ids

/-- ls_instructions.hpp:170 `get_patch_dependencies`. -/
def Instr.deps (i : Instr) : List Nat := osetAll i.operating i.clients

/-- ls_instructions.hpp:298-305 `CommutationTrait<LSInstruction>::can_commute`. -/
def Instr.canCommute (a b : Instr) : Bool := (a.operating.filter (fun x => decide (x ∈ b.operating))).isEmpty

theorem mem_osetAll {s xs : List Nat} {x : Nat} : x ∈ osetAll s xs ↔ x ∈ s ∨ x ∈ xs := by
  unfold osetAll
  induction xs generalizing s with
  | nil => simp
  | cons a xs ih =>
    simp only [List.foldl_cons, ih, mem_oset, List.mem_cons]
    constructor
    · rintro ((h | h) | h) <;> simp [h]
    · rintro (h | h | h) <;> simp [h]

theorem mem_operating {i : Instr} {x : Nat} : x ∈ i.operating ↔ x ∈ i.clients ∨ x ∈ i.op.ids := mem_osetAll

theorem mem_deps {i : Instr} {x : Nat} : x ∈ i.deps ↔ x ∈ i.clients ∨ x ∈ i.op.ids := by
  unfold Instr.deps; rw [mem_osetAll, mem_operating]
  constructor
  · rintro ((h | h) | h) <;> simp [h]
  · rintro (h | h) <;> simp [h]

theorem canCommute_iff {a b : Instr} : a.canCommute b = true ↔ ∀ x ∈ a.operating, x ∉ b.operating := by
  unfold Instr.canCommute
  rw [List.isEmpty_iff, List.filter_eq_nil_iff]
  simp

end Verif
