import Verif.Lstk

/-!
# Gates (model)

Models `/repo/include/lsqecc/gates/gates.hpp`, `/repo/src/gates/gates.cpp`,
`/repo/src/gates/gate_approximator.cpp` and `/repo/src/gates/decompose_rotation_stream.cpp`.
-/

namespace Verif.Gates

/-- gates.hpp:16-22 `Fraction` (`int64_t` components). -/
structure Frac where
  num : Int
  den : Int
  neg : Bool := false
  deriving DecidableEq, Repr

/-- gates.hpp:32-43. -/
inductive BasicType where
  | X | Y | Z | S | T | H | SDg | TDg
  deriving DecidableEq, Repr

/-- gates.hpp:57 `SingleQubitGate`. -/
inductive SingleGate where
  | basic (q : Nat) (t : BasicType)
  | rz (q : Nat) (f : Frac)
  deriving DecidableEq, Repr

/-- gates.hpp:59-64. -/
inductive CnotType where
  | controlFirst | targetFirst | bellBased
  deriving DecidableEq, Repr

/-- gates.hpp:70-75. -/
inductive Placement where
  | dedicated | nextToControl | nextToTarget
  deriving DecidableEq, Repr

/-- gates.hpp:144 `Gate`, with the members of gates.hpp:31-100. -/
inductive Gate where
  | basic (q : Nat) (t : BasicType)
  | rz (q : Nat) (f : Frac)
  | ctrl (control : Nat) (target : SingleGate) (ty : CnotType) (pl : Placement)
  | reset (reg : Str) (q : Nat)
  deriving DecidableEq, Repr

/-- gates.hpp:121-128 `CNOT(target, control, …)`. -/
def cnot (target control : Nat) (ty : CnotType) (pl : Placement) : Gate := .ctrl control (.basic target .X) ty pl

/-- gates.hpp:130-137 `CZ`. -/
def cz (target control : Nat) (ty : CnotType) (pl : Placement) : Gate := .ctrl control (.basic target .Z) ty pl

/-- gates.hpp:139-142 `CRZ`. -/
def crz (target control : Nat) (f : Frac) (ty : CnotType) (pl : Placement) : Gate := .ctrl control (.rz target f) ty pl

/-- gates.cpp:91-104. -/
def CnotType.str : CnotType → Str
  | .controlFirst => "ZXWithMBMControlFirst".toList
  | .targetFirst => "ZXWithMBMTargetFirst".toList
  | .bellBased => "BellBased".toList

/-- gates.cpp:106-113. -/
def CnotType.ofStr (s : Str) : Option CnotType :=
  if s = CnotType.controlFirst.str then some .controlFirst
  else if s = CnotType.targetFirst.str then some .targetFirst
  else if s = CnotType.bellBased.str then some .bellBased
  else none

/-- gates.cpp:116-129. -/
def Placement.str : Placement → Str
  | .dedicated => "AncillaFreePlacement".toList
  | .nextToControl => "AncillaNextToControl".toList
  | .nextToTarget => "AncillaNextToTarget".toList

/-- gates.cpp:131-140. -/
def Placement.ofStr (s : Str) : Option Placement :=
  if s = Placement.dedicated.str then some .dedicated
  else if s = Placement.nextToControl.str then some .nextToControl
  else if s = Placement.nextToTarget.str then some .nextToTarget
  else none

/-- Signed 64-bit arithmetic: overflow is undefined. -/
def int64 (z : Int) : Outcome Int := if -(2 ^ 63) ≤ z ∧ z < 2 ^ 63 then .ok z else .ub

/-- gate_approximator.cpp:6-11 (`n & (n-1)` on a positive number; the value for non-positive `n` other than
`INT64_MIN` is `false` or `n = 0`). -/
def isPow2 (n : Int) : Bool :=
  if n = 1 then true
  else if n ≤ 0 then decide (n = -(2 ^ 63))
  else n.toNat &&& (n.toNat - 1) == 0

/-- gate_approximator.cpp:120-132 `approximate_RZ_gate_cached`: throws in every case. -/
def approxCached (_q : Nat) (f : Frac) : Outcome (List Gate) :=
  if (f.num = 1 ∨ f.num = -1) ∧ isPow2 f.den then .throws else .throws

/-- gate_approximator.cpp:70-81 `gate_from_name`. -/
def gateFromName (c : Char) (q : Nat) : Outcome Gate :=
  if c = 'X' then .ok (.basic q .X)
  else if c = 'Z' then .ok (.basic q .Z)
  else if c = 'S' then .ok (.basic q .S)
  else if c = 'T' then .ok (.basic q .T)
  else if c = 'H' then .ok (.basic q .H)
  else .throws

/-- gate_approximator.cpp:93-100: the loop over the returned names. -/
def synthLoop (q : Nat) : Str → Outcome (List Gate)
  | [] => .ok []
  | c :: cs =>
    if c = '\x00' then .ok []
    else if c = 'W' then synthLoop q cs
    else do
      let g ← gateFromName c q
      let gs ← synthLoop q cs
      .ok (g :: gs)

/-- gate_approximator.cpp:83-105 `approximate_RZ_gate_gridsynth`; `synth` stands for the external
Gridsynth call on the angle text. -/
def approxGridsynth (synth : Frac → Outcome Str) (q : Nat) (f : Frac) : Outcome (List Gate) := do
  let names ← synth f
  let gs ← synthLoop q names
  .ok gs.reverse

/-- gates.cpp:10-47 `decompose_CRZ_gate`; `approx` is `approximate_RZ_gate`. -/
def decomposeCRZ (approx : Nat → Frac → Outcome (List Gate)) (c t : Nat) (f : Frac) (ty : CnotType) (pl : Placement) :
    Outcome (List Gate) := do
  let d ← int64 (f.den * 2)
  let a ← approx c ⟨f.num, d, false⟩
  let b ← approx t ⟨f.num, d, false⟩
  let m ← int64 (-f.num)
  let e ← approx t ⟨m, d, false⟩
  .ok (a ++ b ++ [cnot t c ty pl] ++ e ++ [cnot t c ty pl])

/-- gates.cpp:50-68 `decompose`. -/
def decompose (approx : Nat → Frac → Outcome (List Gate)) : Gate → Outcome (List Gate)
  | .basic q t => .ok [.basic q t]
  | .reset r q => .ok [.reset r q]
  | .rz q f => approx q f
  | .ctrl c (.rz t f) ty pl => decomposeCRZ approx c t f ty pl
  | .ctrl c (.basic t b) ty pl => .ok [.ctrl c (.basic t b) ty pl]

/-- gates.cpp:71-89 `is_decomposed`. -/
def isDecomposed : Gate → Bool
  | .basic _ _ => true
  | .reset _ _ => true
  | .rz _ _ => false
  | .ctrl _ (.rz _ _) _ _ => false
  | .ctrl _ (.basic _ _) _ _ => true

/-- decompose_rotation_stream.hpp:21-23: the gates still in the input stream and the queue. -/
structure DecStream where
  input : List Gate
  queue : List Gate
  deriving Repr

/-- decompose_rotation_stream.cpp:7-10. -/
def DecStream.hasNext (s : DecStream) : Bool := !s.queue.isEmpty || !s.input.isEmpty

/-- decompose_rotation_stream.cpp:12-26 `get_next_gate`. -/
def DecStream.getNext (approx : Nat → Frac → Outcome (List Gate)) (s : DecStream) : Outcome (Gate × DecStream) :=
  match s.queue with
  | g :: q => .ok (g, { s with queue := q })
  | [] =>
    match s.input with
    | [] => .throws
    | g :: rest =>
      if isDecomposed g then .ok (g, { s with input := rest })
      else do
        let gs ← decompose approx g
        let (h, q) ← queuePop gs
        .ok (h, { input := rest, queue := q })

/-- A consumer calling `get_next_gate` while `has_next_gate`, collecting at most `n` gates; reports whether
the stream was exhausted. -/
def DecStream.run (approx : Nat → Frac → Outcome (List Gate)) : Nat → DecStream → Outcome (List Gate × Bool)
  | 0, s => .ok ([], !s.hasNext)
  | n + 1, s =>
    if s.hasNext then do
      let (g, s) ← s.getNext approx
      let (gs, b) ← DecStream.run approx n s
      .ok (g :: gs, b)
    else .ok ([], true)

end Verif.Gates
