import Verif.Gates

/-!
# Reading QASM lines (model)

Models `/repo/src/gates/parse_gates.cpp`.
-/

namespace Verif.Qasm
open Verif.Gates

/-- parse_gates.cpp:11-21 `Line`. -/
structure Line where
  instr : Str
  args : List Str
  ann : List Str
  deriving DecidableEq, Repr

/-- The digits of `strtol` after the sign. -/
def longDigits (neg : Bool) (ds : Str) : Outcome Int :=
  match ds with
  | [] => .throws
  | c :: _ =>
    if isDigit c then
      let z : Int := if neg then -(readDigits 0 ds : Int) else readDigits 0 ds
      if z < -(2 ^ 63) ∨ z ≥ 2 ^ 63 then .throws
      else if ds.dropWhile isDigit ≠ [] then .throws
      else .ok z
    else .throws

/-- `std::strtol(s.c_str(), &endptr, 10)` with the three checks of parse_gates.cpp:34-40: leading blanks,
an optional sign, at least one digit, value within `long`, nothing left before the terminating NUL. -/
def parseLong (s : Str) : Outcome Int :=
  match (s.takeWhile (· ≠ '\x00')).dropWhile isSpace with
  | [] => .throws
  | c :: t =>
    if c = '-' then longDigits true t
    else if c = '+' then longDigits false t
    else longDigits false (c :: t)

/-- parse_gates.cpp:25-45 `try_parse_int<QubitNum>`: the `long` is converted to `uint32_t`. -/
def parseQubit (s : Str) : Outcome Nat := do
  let v ← parseLong s
  .ok (v % (2 ^ 32 : Int)).toNat

/-- `vector::at`. -/
def at_ {α : Type} (xs : List α) (i : Nat) : Outcome α :=
  match xs[i]? with
  | some x => .ok x
  | none => .throws

/-- `vector::operator[]`: undefined past the end. -/
def idx {α : Type} (xs : List α) (i : Nat) : Outcome α :=
  match xs[i]? with
  | some x => .ok x
  | none => .ub

/-- parse_gates.cpp:64-65. -/
def dropSpaces (s : Str) : Str := s.dropWhile (· = ' ')

/-- parse_gates.cpp:68-70, for the text after the first semicolon. -/
def annotations (annLine : Str) : List Str :=
  if " // %".toList.isPrefixOf annLine then splitOn (annLine.drop 5) ',' else []

/-- parse_gates.cpp:53-72, for the pieces between semicolons. -/
def splitPieces (semi : List Str) : Outcome Line := do
  let head ← at_ semi 0
  let (instr, details) ← splitOnFirst head ' '
  .ok ⟨instr, (splitOn details ',').map dropSpaces, annotations ((semi[1]?).getD [])⟩

/-- parse_gates.cpp:47-73 `split_instruction_and_args`. -/
def splitLine (s : Str) : Outcome Line :=
  if strContains s ' ' then splitPieces (splitOn s ';') else .ok ⟨s, [], []⟩

/-- parse_gates.cpp:75-82 `get_index_arg`. -/
def indexArg (s : Str) : Outcome Nat := do
  let a ← at_ (splitOn s '[') 1
  let b ← at_ (splitOn a ']') 0
  parseQubit b

/-- parse_gates.cpp:85-91 `get_arg_in_brackets`. -/
def bracketArg (s : Str) : Outcome Str := do
  let a ← at_ (splitOn s '(') 1
  at_ (splitOn a ')') 0

/-- parse_gates.cpp:93-101. -/
def cnotTypeOf (ann : List Str) : CnotType :=
  match ann.findSome? CnotType.ofStr with
  | some t => t
  | none => .controlFirst

/-- parse_gates.cpp:103-111; `dflt` is the mutable static `ControlledGate::default_ancilla_placement`. -/
def placementOf (dflt : Placement) (ann : List Str) : Placement :=
  match ann.findSome? Placement.ofStr with
  | some t => t
  | none => dflt

/-- parse_gates.cpp:126-140, after the sign has been removed. When the first split does not give two
parts, the second one splits the block-local string `ns`; its parts are read after `ns` is gone, which is
undefined (if that split does not give two parts either, the code throws). -/
def parseQuotient (s : Str) (neg : Bool) : Outcome Frac :=
  match splitOnStr s "*pi/".toList with
  | none => .ub
  | some r => do
    let parts ← r
    match parts with
    | [a, b] => do
        let n ← parseLong a
        let d ← parseLong b
        .ok ⟨n, d, neg⟩
    | _ =>
      match splitOnStr (s ++ "/1".toList) "*pi/".toList with
      | none => .ub
      | some r => do
        let parts ← r
        match parts with
        | [_, _] => .ub
        | _ => .throws

/-- parse_gates.cpp:123-124, after the sign has been removed. -/
def parseUnsigned (s : Str) (neg : Bool) : Outcome Frac :=
  if "pi/".toList.isPrefixOf s then do
    let d ← parseLong (s.drop 3)
    .ok ⟨1, d, neg⟩
  else parseQuotient s neg

/-- parse_gates.cpp:114-141 `parse_angle`. -/
def parseAngle (s : Str) : Outcome Frac :=
  match s with
  | '-' :: t => parseUnsigned t true
  | _ => parseUnsigned s false

/-- parse_gates.cpp:143-154 `parse_reset`. -/
def parseReset (args : List Str) : Outcome Gate :=
  match args with
  | [a] =>
    if ¬ strContains a '[' then .throws
    else do
      let i ← indexArg a
      let nm ← idx (splitOn a '[') 0
      .ok (.reset nm i)
  | _ => .throws

/-- parse_gates.cpp:158-165: single-qubit names. -/
def basicOf (s : Str) : Option BasicType :=
  if s = "x".toList then some .X
  else if s = "y".toList then some .Y
  else if s = "z".toList then some .Z
  else if s = "s".toList then some .S
  else if s = "t".toList then some .T
  else if s = "h".toList then some .H
  else if s = "sdg".toList then some .SDg
  else if s = "tdg".toList then some .TDg
  else none

/-- parse_gates.cpp:167-175 and 177-185 (`b` is X or Z). The order of evaluation of the two index
arguments does not matter: both can only throw. -/
def parseControlled (dflt : Placement) (b : BasicType) (l : Line) : Outcome Gate :=
  match l.args with
  | [a0, a1] => do
      let t ← indexArg a1
      let c ← indexArg a0
      .ok (.ctrl c (.basic t b) (cnotTypeOf l.ann) (placementOf dflt l.ann))
  | _ => .throws

/-- parse_gates.cpp:187-204. -/
def parseRz (l : Line) : Outcome Gate := do
  let a ← bracketArg l.instr
  if a = "pi*-1".toList then do
    let s ← at_ l.args 0
    let q ← indexArg s
    .ok (.basic q .Z)
  else do
    let f ← parseAngle a
    if f.den = 1 then do
      let s ← at_ l.args 0
      let q ← indexArg s
      .ok (.basic q .Z)
    else do
      let s ← idx l.args 0
      let q ← indexArg s
      .ok (.rz q f)

/-- parse_gates.cpp:205-220. -/
def parseCrz (dflt : Placement) (l : Line) : Outcome Gate :=
  if (l.instr.drop 3).take 4 = "(pi/".toList then do
    let s1 ← idx l.args 1
    let t ← indexArg s1
    let s0 ← idx l.args 0
    let c ← indexArg s0
    let a ← bracketArg l.instr
    let f ← parseAngle a
    .ok (crz t c f (cnotTypeOf l.ann) (placementOf dflt l.ann))
  else .throws

/-- parse_gates.cpp:156-226 `parse_qasm_gate`. -/
def parseQasmGate (dflt : Placement) (l : Line) : Outcome Gate :=
  match basicOf l.instr with
  | some b => do
      let s ← at_ l.args 0
      let q ← indexArg s
      .ok (.basic q b)
  | none =>
    if l.instr = "cx".toList then parseControlled dflt .X l
    else if l.instr = "cz".toList then parseControlled dflt .Z l
    else if l.instr.take 2 = "rz".toList then parseRz l
    else if l.instr.take 3 = "crz".toList then parseCrz dflt l
    else if l.instr = "reset".toList then parseReset l.args
    else .throws

/-- parse_gates.cpp:228-237. -/
def isIgnored (s : Str) : Bool :=
  s = "OPENQASM".toList ∨ s = "include".toList ∨ s = "creg".toList ∨ s = "barrier".toList ∨ s = "//".toList

/-- parse_gates.hpp:25-32. -/
inductive ParseResult where
  | gate (g : Gate)
  | ignored
  | qreg (name : Str) (size : Nat)
  deriving DecidableEq, Repr

/-- parse_gates.cpp:241-252 `parse_qreg`; `parts[0]` is undefined when the argument is empty, but then
`get_index_arg` has thrown before the aggregate is built. -/
def parseQreg (args : List Str) : Outcome ParseResult :=
  match args with
  | [a] => do
      let n ← indexArg a
      let nm ← idx (splitOn a '[') 0
      .ok (.qreg nm n)
  | _ => .throws

/-- parse_gates.cpp:255-278 `parse_gate`. `str_line[0]` and `str_line[1]` past the end of the view
point at or before the terminating NUL of `sline`; they are modelled as reading NUL there. -/
def parseGate (dflt : Placement) (s : Str) : Outcome ParseResult :=
  let s := ltrim s
  if "//".toList.isPrefixOf s then .ok .ignored
  else do
    let l ← splitLine s
    if isIgnored l.instr then .ok .ignored
    else if l.instr = "qreg".toList then parseQreg l.args
    else do
      let g ← parseQasmGate dflt l
      .ok (.gate g)

/-! ## The gate file -/

/-- parse_gates.hpp:58-61: remaining lines, prefetched gate, register. -/
structure GateFile where
  lines : List Str
  next : Option Gate
  qreg : Option (Str × Nat)
  deriving DecidableEq, Repr

/-- parse_gates.cpp:282-321 `advance_gate`. -/
def advanceGate (dflt : Placement) : List Str → Option (Str × Nat) → Outcome GateFile
  | [], q => .ok ⟨[], none, q⟩
  | l :: ls, q =>
    if l = [] then advanceGate dflt ls q
    else do
      let r ← parseGate dflt l
      match r with
      | .gate g => .ok ⟨ls, some g, q⟩
      | .ignored => advanceGate dflt ls q
      | .qreg n k =>
        match q with
        | none => advanceGate dflt ls (some (n, k))
        | some _ => .throws

/-- parse_gates.cpp:324-331 constructor over the lines `getline` delivers. -/
def openGates (dflt : Placement) (lines : List Str) : Outcome GateFile := do
  let f ← advanceGate dflt lines none
  match f.qreg with
  | none => .throws
  | some _ => .ok f

/-- parse_gates.cpp:333-338 `get_next_gate`. -/
def GateFile.getNext (dflt : Placement) (f : GateFile) : Outcome (Gate × GateFile) :=
  match f.next with
  | none => .throws
  | some g => do
      let f' ← advanceGate dflt f.lines f.qreg
      .ok (g, f')

/-- Delivering every gate. -/
def GateFile.drain (dflt : Placement) : Nat → GateFile → Outcome (List Gate)
  | 0, _ => .ok []
  | n + 1, f =>
    match f.next with
    | none => .ok []
    | some _ => do
        let (g, f) ← f.getNext dflt
        let gs ← GateFile.drain dflt n f
        .ok (g :: gs)

end Verif.Qasm
