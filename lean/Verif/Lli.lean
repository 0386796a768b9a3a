import Verif.Lstk
import Verif.Instr

/-!
# LLI text: printing and reading instructions (model)

Models `operator<<` of `/repo/src/ls_instructions/ls_instructions.cpp` and
`/repo/src/ls_instructions/local_instructions.cpp`, the readers of
`/repo/src/ls_instructions/ls_instructions_parse.cpp` and `parse_utils.cpp`, and
`LSInstructionStreamFromFile` of `/repo/src/ls_instructions/ls_instruction_stream.cpp`.
-/

namespace Verif.Lli

/-! ## Printing -/

/-- pauli_operator.hpp:27-35 `PauliOperator_to_string`. -/
def pauliStr : Pauli → Str
  | .I => ['I']
  | .X => ['X']
  | .Y => ['Y']
  | .Z => ['Z']

/-- patches.cpp:111-114. -/
def cellStr (c : Cell) : Str := '(' :: showInt c.row ++ ',' :: showInt c.col ++ [')']

/-- local_instructions.cpp:12-67. -/
def localStr : LocalInstr → Str
  | .prepareY _ c => "PrepareY ".toList ++ cellStr c
  | .bellPrepare _ _ a b => "BellPrepare ".toList ++ cellStr a ++ ',' :: cellStr b
  | .bellMeasure a b => "BellMeasure ".toList ++ cellStr a ++ ',' :: cellStr b
  | .twoPatchMeasure a b => "TwoPatchMeasure ".toList ++ cellStr a ++ ',' :: cellStr b
  | .extendSplit _ a b => "ExtendSplit ".toList ++ cellStr a ++ ',' :: cellStr b
  | .mergeContract a b => "MergeContract ".toList ++ cellStr a ++ ',' :: cellStr b
  | .move a b _ => "Move ".toList ++ cellStr a ++ ',' :: cellStr b

/-- The loop `for (i = first; i < second; i++)` of ls_instructions.cpp:132-137 and 197-202 over `v`;
indexing past the end is undefined. -/
def localRange (v : List LocalInstr) (second : Nat) : Nat → Nat → Outcome Str
  | 0, _ => .ok []
  | n + 1, i =>
    if i < second then
      match v[i]? with
      | none => .ub
      | some x => do
          let rest ← localRange v second n (i + 1)
          .ok (localStr x ++ (if i ≠ second - 1 then [';'] else []) ++ rest)
    else .ok []

/-- Ranges of `localRange` have at most `second - first` iterations. -/
def localsStr (v : List LocalInstr) (c : Nat × Nat) : Outcome Str := localRange v c.2 (c.2 - c.1) c.1

/-- ls_instructions.cpp:195-203: all phases. -/
def phasesStr (pairs : List (Nat × Nat)) : List (List LocalInstr) → Nat → Outcome Str
  | [], _ => .ok []
  | v :: vs, phase =>
    match pairs[phase]? with
    | none => .ub
    | some c => do
        let a ← localsStr v c
        let b ← phasesStr pairs vs (phase + 1)
        .ok (a ++ b)

/-- ls_instructions.hpp:283-294 `SingleQuibitOperatorName_to_string`; a value outside the enumeration throws. -/
def sqName : SqOp → Outcome Str
  | .X => .ok ['X']
  | .Y => .ok ['Y']
  | .Z => .ok ['Z']
  | .H => .ok ['H']
  | .S => .ok ['S']
  | .I => .throws

/-- ls_instructions.hpp:268-279. -/
def stateStr : InitState → Str
  | .zero => "|0>".toList
  | .plus => "|+>".toList

/-- ls_instructions.cpp:106-111. -/
def nextStr (n : NextTo) : Str := showNat n.target ++ ':' :: pauliStr n.op

/-- ls_instructions.cpp:90-92: one entry of the printed observable. -/
def obsEntry (e : Nat × Pauli) : Str := showNat e.1 ++ ':' :: pauliStr e.2

/-- ls_instructions.cpp:66-213 `operator<<`. Optional fields are printed as in the code. -/
def printOp : Operation → Outcome Str
  | .declare ids => .ok ("DeclareLogicalQubitPatches ".toList ++ joinNat ids [','])
  | .measure t o neg => .ok ("MeasureSinglePatch ".toList ++ showNat t ++ ' ' :: ((if neg then ['-'] else []) ++ pauliStr o))
  | .multi obs neg loc =>
    .ok ("MultiBodyMeasure ".toList ++ (if neg then ['-'] else []) ++ joinStr (obs.map obsEntry) [','] ++
      (match loc with | none => [] | some l => " [".toList ++ localStr l ++ [']']))
  | .init t s nx =>
    .ok ("Init ".toList ++ showNat t ++ ' ' :: stateStr s ++ (match nx with | none => [] | some n => ' ' :: nextStr n))
  | .bell b => do
      let tail ← (match b.counter, b.localInstrs with
        | some c, some v => do
            let s ← localsStr v c
            .ok (" [".toList ++ s ++ [']'])
        | _, _ => .ok [] : Outcome Str)
      .ok ("BellPairInit ".toList ++ showNat b.side1 ++ ' ' :: showNat b.side2 ++ ' ' :: nextStr b.loc1 ++ ',' :: nextStr b.loc2 ++ tail)
  | .magic t n => .ok ("RequestMagicState ".toList ++ showNat t ++ ' ' :: showNat n)
  | .ystate t n loc =>
    .ok ("RequestYState ".toList ++ showNat t ++ ' ' :: showNat n ++
      (match loc with | none => [] | some l => " [".toList ++ localStr l ++ [']']))
  | .sq t o _ => do
      let nm ← sqName o
      .ok (nm ++ "Gate ".toList ++ showNat t)
  | .rotate t => .ok ("RotateSingleCellPatch ".toList ++ showNat t)
  | .busy r steps _ =>
    .ok ("BusyRegion ".toList ++ r.cells.flatMap (fun c => '(' :: showInt c.cell.row ++ ',' :: showInt c.cell.col ++ "),".toList) ++
      "StepsToClear(".toList ++ showNat steps ++ [')'])
  | .bellCnot c => do
      let tail ← (match c.counterPairs, c.localSets with
        | some ps, some vs => do
            let s ← phasesStr ps vs 0
            .ok (" [".toList ++ s ++ [']'])
        | _, _ => .ok [] : Outcome Str)
      .ok ("BellBasedCNOT ".toList ++ showNat c.control ++ ' ' :: showNat c.target ++ ' ' :: showNat c.side1 ++ ' ' :: showNat c.side2 ++ tail)
  | .reset t => .ok ("Reset ".toList ++ showNat t)

/-! ## Reading -/

/-- parse_utils.cpp:11-20 `parse_patch_id`: the `int` result is converted to `uint32_t`. -/
def parsePatchId (s : Str) : Outcome Nat := do
  let v ← fromCharsInt s
  .ok (v % (2 ^ 32 : Int)).toNat

/-- pauli_operator.hpp:18-25 `PauliOperator_from_string`. -/
def pauliOf (s : Str) : Outcome Pauli :=
  if s = ['I'] then .ok .I
  else if s = ['X'] then .ok .X
  else if s = ['Y'] then .ok .Y
  else if s = ['Z'] then .ok .Z
  else .throws

/-- parse_utils.cpp:21-28 `parse_init_state`. -/
def parseState (s : Str) : Outcome InitState :=
  if s = "|0>".toList then .ok .zero
  else if s = "0".toList then .ok .zero
  else if s = "|+>".toList then .ok .plus
  else if s = "+".toList then .ok .plus
  else .throws

/-- `tsl::ordered_map::insert_or_assign`. -/
def insertOrAssign (m : List (Nat × Pauli)) (k : Nat) (v : Pauli) : List (Nat × Pauli) :=
  if m.any (fun e => e.1 == k) then m.map (fun e => if e.1 = k then (k, v) else e) else m ++ [(k, v)]

/-- ls_instructions_parse.cpp:19-26: the loop of `parse_multi_body_measurement_dict`. -/
def parseDictLoop : List Str → List (Nat × Pauli) → Outcome (List (Nat × Pauli))
  | [], m => .ok m
  | p :: ps, m =>
    match splitOn p ':' with
    | [a, b] => do
        let k ← parsePatchId a
        let v ← pauliOf b
        parseDictLoop ps (insertOrAssign m k v)
    | _ => .throws

/-- ls_instructions_parse.cpp:14-28 `parse_multi_body_measurement_dict`. -/
def parseDict (s : Str) : Outcome (List (Nat × Pauli)) := parseDictLoop (splitOn s ',') []

/-- ls_instructions_parse.cpp:34-37. -/
def parseIdLoop : List Str → List Nat → Outcome (List Nat)
  | [], acc => .ok acc
  | e :: es, acc => do
      let k ← parsePatchId e
      parseIdLoop es (oset acc k)

/-- ls_instructions_parse.cpp:30-39 `parse_patch_id_list`. -/
def parseIdList (s : Str) : Outcome (List Nat) := parseIdLoop (splitOn s ',') []

/-- ls_instructions_parse.cpp:47-51 `get_next_arg`. -/
def nextArg : List Str → Outcome (Str × List Str)
  | [] => .throws
  | a :: as => .ok (a, as)

/-- ls_instructions_parse.cpp:67: `placement_info.at(0)`, `.at(1)` throw when missing. -/
def parsePlacement (s : Str) : Outcome NextTo :=
  match splitOn s ':' with
  | a :: b :: _ => do
      let k ← parsePatchId a
      let v ← pauliOf b
      .ok ⟨k, v⟩
  | [a] => do
      let _ ← parsePatchId a
      .throws
  | [] => .throws

/-- ls_instructions_parse.cpp:116-129: the loop collecting the two locations. -/
def parseLocsLoop : List Str → List NextTo → Outcome (List NextTo)
  | [], acc => .ok acc
  | p :: ps, acc =>
    match splitOn p ':' with
    | [a, b] =>
      if acc.length > 1 then .throws
      else do
        let k ← parsePatchId a
        let v ← pauliOf b
        parseLocsLoop ps (acc ++ [⟨k, v⟩])
    | _ => .throws

/-- ls_instructions_parse.cpp:93: `static_cast` of a Pauli operator. -/
def sqOfPauli : Pauli → SqOp
  | .I => .I
  | .X => .X
  | .Y => .Y
  | .Z => .Z

/-- The branches of `parse_ls_instruction`. -/
inductive Kind where
  | declare | init | measure | multi | magic | pauli | h | s | rotate | bell | ystate | cnot
  deriving DecidableEq, Repr

/-- The keyword comparisons of ls_instructions_parse.cpp:55-148, in the order of the code. -/
def kindOf (w : Str) : Option Kind :=
  if w = "DeclareLogicalQubitPatches".toList then some .declare
  else if w = "Init".toList ∨ w = "0".toList then some .init
  else if w = "MeasureSinglePatch".toList ∨ w = "1".toList then some .measure
  else if w = "MultiBodyMeasure".toList ∨ w = "2".toList then some .multi
  else if w = "RequestMagicState".toList ∨ w = "3".toList then some .magic
  else if w = "LogicalPauli".toList ∨ w = "4".toList then some .pauli
  else if w = "HGate".toList ∨ w = "5".toList then some .h
  else if w = "SGate".toList ∨ w = "6".toList then some .s
  else if w = "RotateSingleCellPatch".toList ∨ w = "7".toList then some .rotate
  else if w = "BellPairInit".toList ∨ w = "8".toList then some .bell
  else if w = "RequestYState".toList ∨ w = "9".toList then some .ystate
  else if w = "BellBasedCNOT".toList ∨ w = "10".toList then some .cnot
  else none

/-- `parse_patch_id(get_next_arg())`. -/
def argId (as : List Str) : Outcome (Nat × List Str) := do
  let (a, as) ← nextArg as
  let id ← parsePatchId a
  .ok (id, as)

/-- The bodies of the branches, ls_instructions_parse.cpp:55-148. -/
def parseArgs (as : List Str) : Kind → Outcome Instr
  | .declare => do
      let (a, _) ← nextArg as
      let ids ← parseIdList a
      .ok { op := .declare ids }
  | .init => do
      let (id, as) ← argId as
      let (b, as) ← nextArg as
      let st ← parseState b
      match as with
      | [] => .ok { op := .init id st none, clients := [id] }
      | c :: _ => do
          let nx ← parsePlacement c
          .ok { op := .init id st (some nx), clients := [id] }
  | .measure => do
      let (id, as) ← argId as
      let (b, _) ← nextArg as
      let o ← pauliOf b
      .ok { op := .measure id o false }
  | .multi => do
      let (a, _) ← nextArg as
      let m ← parseDict a
      .ok { op := .multi m false none }
  | .magic => do
      let (t, as) ← argId as
      let (n, _) ← argId as
      .ok { op := .magic t n }
  | .pauli => do
      let (id, as) ← argId as
      let (b, _) ← nextArg as
      let o ← pauliOf b
      .ok { op := .sq id (sqOfPauli o) false }
  | .h => do
      let (id, _) ← argId as
      .ok { op := .sq id .H false }
  | .s => do
      let (id, _) ← argId as
      .ok { op := .sq id .S false }
  | .rotate => do
      let (id, _) ← argId as
      .ok { op := .rotate id }
  | .bell => do
      let (s1, as) ← argId as
      let (s2, as) ← argId as
      let (c, _) ← nextArg as
      let locs ← parseLocsLoop (splitOn c ',') []
      match locs with
      | l1 :: l2 :: _ => .ok { op := .bell { side1 := s1, side2 := s2, loc1 := l1, loc2 := l2 } }
      | _ => .ub
  | .ystate => do
      let (t, as) ← argId as
      let (n, _) ← argId as
      .ok { op := .ystate t n none }
  | .cnot => do
      let (c, as) ← argId as
      let (t, as) ← argId as
      let (i1, as) ← argId as
      let (i2, _) ← argId as
      .ok { op := .bellCnot { control := c, target := t, side1 := i1, side2 := i2 } }

/-- ls_instructions_parse.cpp:41-150 `parse_ls_instruction`. -/
def parseInstr (line : Str) : Outcome Instr := do
  let (w, as) ← nextArg (splitOn line ' ')
  match kindOf w with
  | none => .throws
  | some k => parseArgs as k

/-- ls_instructions.hpp:174-178. -/
structure Computation where
  core : List Nat
  instrs : List Instr
  deriving DecidableEq, Repr

/-- ls_instructions_parse.cpp:158-177: the loop over lines. -/
def parseLines : List Str → (got : Bool) → Computation → Outcome Computation
  | [], _, c => .ok c
  | l :: ls, got, c =>
    if l = [] then parseLines ls got c
    else do
      let i ← parseInstr l
      match i.op with
      | .declare ids => if got then .throws else parseLines ls true { c with core := ids }
      | _ => parseLines ls got { c with instrs := c.instrs ++ [i] }

/-- ls_instructions_parse.cpp:153-180 `parse_ls_instructions`. -/
def parseProgram (src : Str) : Outcome Computation := parseLines (splitOn src '\n') false ⟨[], []⟩

/-! ## `LSInstructionStreamFromFile` -/

/-- Successive results of `std::getline` on a file: the last one, which sets `eof`, is the text after
the last newline (possibly empty). -/
def getlines : Str → List Str
  | [] => [[]]
  | c :: cs =>
    if c = '\n' then [] :: getlines cs
    else match getlines cs with
      | [] => [[c]]
      | l :: ls => (c :: l) :: ls

/-- ls_instruction_stream.hpp: the lines not yet read (none left means `eof`), the prefetched
instruction and the declared qubits. -/
structure FileStream where
  lines : List Str
  next : Option Instr
  core : List Nat

/-- ls_instruction_stream.cpp:12-35 `advance_instruction`: skips empty lines, returns the new lines
and the instruction. -/
def advance : List Str → Outcome (List Str × Option Instr)
  | [] => .ok ([], none)
  | l :: ls =>
    if l = [] then advance ls
    else do
      let i ← parseInstr l
      .ok (ls, some i)

/-- ls_instruction_stream.cpp:38-52 constructor. -/
def openFile (src : Str) : Outcome FileStream := do
  let (ls, n1) ← advance (getlines src)
  match n1 with
  | none => .throws
  | some first =>
    let (ls, n2) ← advance ls
    match first.op with
    | .declare ids => .ok { lines := ls, next := n2, core := ids }
    | _ => .throws

/-- ls_instruction_stream.cpp:54-59 `get_next_instruction`; `next_instruction_.value()` throws when empty. -/
def FileStream.getNext (s : FileStream) : Outcome (Instr × FileStream) :=
  match s.next with
  | none => .throws
  | some i => do
      let (ls, n) ← advance s.lines
      .ok (i, { s with lines := ls, next := n })

/-- Draining the stream while it has a next instruction (fuel bounds the number of lines). -/
def FileStream.drain : Nat → FileStream → Outcome (List Instr)
  | 0, _ => .ok []
  | n + 1, s =>
    match s.next with
    | none => .ok []
    | some _ => do
        let (i, s) ← s.getNext
        let is ← FileStream.drain n s
        .ok (i :: is)

/-- Reading a whole file: declared qubits and all instructions delivered. -/
def readFile (src : Str) : Outcome Computation := do
  let s ← openFile src
  let is ← s.drain (s.lines.length + 1)
  .ok ⟨s.core, is⟩

/-- ls_instruction_stream.cpp:201-206 `print_all_ls_instructions_to_string`. -/
def printAll : List Instr → Outcome Str
  | [] => .ok []
  | i :: is => do
      let a ← printOp i.op
      let b ← printAll is
      .ok (a ++ '\n' :: b)

end Verif.Lli
