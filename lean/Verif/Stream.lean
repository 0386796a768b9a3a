import Verif.Instr
import Verif.Gates

/-!
# Instruction streams (model)

Models `/repo/include/lsqecc/ls_instructions/id_generator.hpp`,
`/repo/src/ls_instructions/ls_instructions_from_gates.cpp`, the gate-stream part of
`/repo/src/ls_instructions/ls_instruction_stream.cpp`, and the three injection streams
`boundary_rotation_injection_stream.cpp`, `teleported_s_gate_injection_stream.cpp`,
`catalytic_s_gate_injection_stream.cpp`.

The id generator is shared by reference between the streams of a pipeline; it is threaded through
every call as the value of its counter.
-/

namespace Verif.Stream
open Verif.Gates

/-- id_generator.hpp:18-21 `new_id`: `counter_++` on a `uint32_t`. Returns the id and the new counter. -/
def newId (c : Nat) : Nat × Nat := (c, (c + 1) % 2 ^ 32)

/-- An instruction with the default waiting time and no clients (`{.operation={op}}`). -/
def plain (op : Operation) : Instr := { op := op }

/-- ls_instructions_from_gates.cpp:68-72: where the CNOT ancilla is asked for. -/
def ancillaNextTo (control target : Nat) : Placement → Option NextTo
  | .dedicated => none
  | .nextToControl => some ⟨control, .Z⟩
  | .nextToTarget => some ⟨target, .X⟩

/-- ls_instructions_from_gates.cpp:82-122: the instructions between the initialisation of the ancilla and its
measurement. `always` is `CNOTCorrectionMode::ALWAYS`. -/
def cnotMiddle (control target ancilla : Nat) (always : Bool) : CnotType → List Instr
  | .controlFirst =>
    [plain (.multi [(control, .Z), (ancilla, .Z)] false none)] ++
    (if always then [plain (.sq ancilla .X false)] else []) ++
    [plain (.multi [(ancilla, .X), (target, .X)] false none)] ++
    (if always then [plain (.sq control .Z false)] else [])
  | .targetFirst =>
    [plain (.multi [(ancilla, .X), (target, .X)] false none)] ++
    (if always then [plain (.sq ancilla .Z false)] else []) ++
    [plain (.multi [(control, .Z), (ancilla, .Z)] false none)] ++
    (if always then [plain (.sq target .X false)] else [])
  | .bellBased => []

/-- ls_instructions_from_gates.cpp:45-130 `make_cnot_instructions`. -/
def makeCnot (loc : Bool) (cnt : Nat) (control target : Nat) (ty : CnotType) (pl : Placement) (always : Bool) :
    Outcome (List Instr × Nat) :=
  if ty = .bellBased ∨ loc = true then
    let (id1, cnt) := newId cnt
    let (id2, cnt) := newId cnt
    if always then .throws
    else .ok ([{ op := .bellCnot { control := control, target := target, side1 := id1, side2 := id2 },
                 clients := osetAll [] [control, target] }], cnt)
  else
    let (a, cnt) := newId cnt
    .ok ([{ op := .init a .plus (ancillaNextTo control target pl), clients := osetAll [] [control, target] }] ++
      cnotMiddle control target a always ty ++ [plain (.measure a .X false)], cnt)

/-- ls_instructions_from_gates.cpp:10-43 `make_t_gate_instructions`; the dagger argument is ignored there. -/
def makeT (loc : Bool) (cnt : Nat) (target : Nat) : Outcome (List Instr × Nat) :=
  let (m, cnt) := newId cnt
  let request : Instr := { op := .magic m target, clients := [target] }
  if loc then do
    let (is, cnt) ← makeCnot loc cnt target m .bellBased .dedicated false
    .ok ([request] ++ is ++ [plain (.measure m .Z false), plain (.sq target .S false)], cnt)
  else
    .ok ([request, plain (.multi [(target, .Z), (m, .Z)] false none), plain (.measure m .X false), plain (.sq target .S false)], cnt)

/-- How a gate program is compiled: register name, CNOT correction mode, local instructions. -/
structure Mode where
  reg : Str
  always : Bool
  loc : Bool
  deriving DecidableEq, Repr

/-- ls_instruction_stream.cpp:70-164: the instructions pushed for one gate. -/
def compileGate (m : Mode) (cnt : Nat) : Gate → Outcome (List Instr × Nat)
  | .basic q .Z => .ok ([plain (.sq q .Z false)], cnt)
  | .basic q .X => .ok ([plain (.sq q .X false)], cnt)
  | .basic q .Y => .ok ([plain (.sq q .Y false)], cnt)
  | .basic q .H => .ok ([plain (.sq q .H false)], cnt)
  | .basic q .S => .ok ([plain (.sq q .S false)], cnt)
  | .basic q .SDg => .ok ([plain (.sq q .S true)], cnt)
  | .basic q .TDg => makeT m.loc cnt q
  | .basic q .T => makeT m.loc cnt q
  | .rz q f =>
    if f.num = 1 ∧ f.den = 1 then .ok ([plain (.sq q .Z false)], cnt)
    else if f.num = 1 ∧ f.den = 2 then .ok ([plain (.sq q .S false)], cnt)
    else if f.num = 1 ∧ f.den = 4 then makeT m.loc cnt q
    else .throws
  | .ctrl c (.basic t .X) ty pl => makeCnot m.loc cnt c t ty pl m.always
  | .ctrl c (.basic t .Z) ty pl => do
    let (is, cnt) ← makeCnot m.loc cnt c t ty pl m.always
    .ok ([plain (.sq t .H false)] ++ is ++ [plain (.sq t .H false)], cnt)
  | .ctrl _ _ _ _ => .throws
  | .reset r q => if r ≠ m.reg then .throws else .ok ([plain (.reset q)], cnt)

/-- The virtual interface `LSInstructionStream` (ls_instruction_stream.hpp:22-30); the second argument of
`next` is the shared id counter. -/
structure Machine (σ : Type) where
  hasNext : σ → Bool
  next : σ → Nat → Outcome (Instr × σ × Nat)

/-- A stream over instructions already read from a file (ls_instruction_stream.cpp:54-59): the value of an
empty optional throws. -/
def listMachine : Machine (List Instr) where
  hasNext s := !s.isEmpty
  next s c := match s with
    | [] => .throws
    | i :: rest => .ok (i, rest, c)

/-- ls_instruction_stream.hpp:62, ls_instruction_stream.cpp:63-169 `LSInstructionStreamFromGateStream`. The gate
stream is represented by the list of gates it delivers. -/
def gateMachine (m : Mode) : Machine (List Gate × List Instr) where
  hasNext s := !s.2.isEmpty || !s.1.isEmpty
  next s c := match s with
    | (gs, i :: q) => .ok (i, (gs, q), c)
    | ([], []) => .throws
    | (g :: gs, []) => do
      let (is, c) ← compileGate m c g
      let (i, q) ← queuePop is
      .ok (i, (gs, q), c)

/-- The common shape of the injection streams (boundary_rotation_injection_stream.cpp:21-86,
teleported_s_gate_injection_stream.cpp:18-68, catalytic_s_gate_injection_stream.cpp:15-88): serve the queue,
otherwise take one instruction from the source, push its expansion and serve that. -/
def stage {σ τ : Type} (expand : τ → Nat → Instr → Outcome (List Instr × τ × Nat)) (M : Machine σ) : Machine (σ × τ × List Instr) where
  hasNext s := !s.2.2.isEmpty || M.hasNext s.1
  next s c := match s with
    | (s, t, i :: q) => .ok (i, (s, t, q), c)
    | (s, t, []) =>
      if !M.hasNext s then .throws
      else do
        let (i, s, c) ← M.next s c
        let (is, t, c) ← expand t c i
        let (i, q) ← queuePop is
        .ok (i, (s, t, q), c)

/-- determine_exposed_operators.hpp:14-21. -/
structure Exposed where
  x : Bool
  z : Bool
  deriving DecidableEq, Repr

/-- determine_exposed_operators.cpp:7-12. -/
def Exposed.isExposed (e : Exposed) : Pauli → Bool
  | .X => e.x
  | .Z => e.z
  | _ => false

/-- determine_exposed_operators.cpp:14-18. -/
def Exposed.rotate (e : Exposed) : Exposed := ⟨!e.x, !e.z⟩

/-- The map `exposed_operators_`. -/
abbrev ExposedMap := Nat → Option Exposed

/-- `tsl::ordered_map::at` on an observable. -/
def obsAt (obs : List (Nat × Pauli)) (p : Nat) : Outcome Pauli :=
  match obs.find? (fun e => e.1 == p) with
  | some e => .ok e.2
  | none => .throws

/-- boundary_rotation_injection_stream.cpp:43-47 (and 52-56, 58-62, 73-78): one rotation if the operator is not
exposed. -/
def exposeOne (m : ExposedMap) (p : Nat) (op : Pauli) : List Instr × ExposedMap :=
  match m p with
  | some e => if e.isExposed op then ([], m) else ([plain (.rotate p)], upd m p (some e.rotate))
  | none => ([], m)

/-- boundary_rotation_injection_stream.cpp:41-48: the loop over the operating patches. `observable.at` is only
evaluated for patches in the map. -/
def exposeAll (obs : List (Nat × Pauli)) : ExposedMap → List Nat → Outcome (List Instr × ExposedMap)
  | m, [] => .ok ([], m)
  | m, p :: ps => do
    let (r, m) ← match m p with
      | some _ => do
        let op ← obsAt obs p
        .ok (exposeOne m p op)
      | none => .ok ([], m)
    let (rs, m) ← exposeAll obs m ps
    .ok (r ++ rs, m)

/-- boundary_rotation_injection_stream.cpp:38-83: what is pushed for one source instruction. -/
def boundaryExpand (m : ExposedMap) (c : Nat) (i : Instr) : Outcome (List Instr × ExposedMap × Nat) :=
  match i.op with
  | .multi obs _ _ => do
    let (r, m) ← exposeAll obs m i.operating
    .ok (r ++ [i], m, c)
  | .bellCnot b =>
    let (r1, m) := exposeOne m b.control .Z
    let (r2, m) := exposeOne m b.target .X
    .ok (r1 ++ r2 ++ [i], m, c)
  | .sq t .H _ =>
    match m t with
    | some e => .ok ([i], upd m t (some e.rotate), c)
    | none => .ok ([i], m, c)
  | .sq t .S _ =>
    let (r, m) := exposeOne m t .Z
    .ok (r ++ [i], m, c)
  | _ => .ok ([i], m, c)

/-- teleported_s_gate_injection_stream.cpp:36-65. -/
def teleportedExpand (core : List Nat) (alwaysRotate : Bool) (_ : Unit) (c : Nat) (i : Instr) : Outcome (List Instr × Unit × Nat) :=
  match i.op with
  | .sq t .S _ =>
    if t ∈ core then
      let (y, c) := newId c
      .ok ([{ op := .ystate y t none, clients := [t] },
        plain (.multi [(y, .Z), (t, .Z)] false none),
        plain (.measure y .X false),
        plain (.sq t .Z false)], (), c)
    else .ok ([i], (), c)
  | .sq t .H _ => if alwaysRotate && decide (t ∈ core) then .ok ([i, plain (.rotate t)], (), c) else .ok ([i], (), c)
  | _ => .ok ([i], (), c)

/-- catalytic_s_gate_injection_stream.cpp:33-85. -/
def catalyticExpand (core : List Nat) (loc alwaysRotate : Bool) (_ : Unit) (c : Nat) (i : Instr) : Outcome (List Instr × Unit × Nat) :=
  match i.op with
  | .sq t .S _ =>
    if t ∈ core then do
      let (y, c) := newId c
      let (is1, c) ← makeCnot loc c t y .controlFirst .nextToControl false
      let (is2, c) ← makeCnot loc c t y .controlFirst .nextToControl false
      .ok ([{ op := .ystate y t none, clients := [t] }] ++ is1 ++ [plain (.sq y .H false), plain (.rotate y)] ++ is2 ++
        [plain (.sq y .H false), plain (.rotate y), plain (.ystate y t none)], (), c)
    else .ok ([i], (), c)
  | .sq t .H _ => if alwaysRotate && decide (t ∈ core) then .ok ([i, plain (.rotate t)], (), c) else .ok ([i], (), c)
  | _ => .ok ([i], (), c)

/-- ls_instruction_stream.cpp:173-180 `core_qubits_from_gate_stream` (the assertion that there is at least one
qubit is not modelled). -/
def coreQubits (size : Nat) : List Nat := List.range size

/-- A consumer of a stream (ls_instruction_stream.cpp:201-206 `print_all_ls_instructions_to_string`, and the
slicing pipelines): while there is a next instruction, take it. At most `n` are taken; reports whether the
stream was exhausted, and the final counter. -/
def Machine.run {σ : Type} (M : Machine σ) : Nat → σ → Nat → Outcome (List Instr × Bool × Nat)
  | 0, s, c => .ok ([], !M.hasNext s, c)
  | n + 1, s, c =>
    if M.hasNext s then do
      let (i, s, c) ← M.next s c
      let (is, b, c) ← M.run n s c
      .ok (i :: is, b, c)
    else .ok ([], true, c)

/-- `*std::max(begin, end)` on an ordered set of `ids` (slicer.cpp:389-390): the iterators, positions 0 and the
number of ids, are compared, and the larger one is dereferenced. -/
def lliStart (ids : List Nat) : Outcome Nat :=
  let p := if 0 < ids.length then ids.length else 0
  match ids[p]? with
  | some v => .ok v
  | none => .ub

end Verif.Stream
