import Verif.Gates

/-!
# Gates from a database (model)

Models `/repo/src/gates/postgres_gate_stream.cpp`. The database is the function giving the rows of each layer in the order the
query returns them; it does not change while it is read. Columns are never `NULL`. The `double` column `param` is a rational
number, which is enough as it is only compared with ±1, ±1/2 and ±1/4 (a value that is not finite behaves like any other
unsupported one). The layer counter (`size_t`) is unbounded.
-/

namespace Verif.Pandora
open Verif.Gates

/-- A row of `layered_lscom`: columns `type`, `control_q`, `target_q`, `param`. -/
structure Row where
  type : Int
  control : Int
  target : Int := 0
  param : Rat := 0
  deriving DecidableEq, Repr

/-- The rows of each layer. -/
abbrev Db := Nat → List Row

/-- `int64_t` to `uint32_t`. -/
def qubit (z : Int) : Nat := (z % 2 ^ 32).toNat

/-- postgres_gate_stream.cpp:74-87. -/
def power (q : Nat) (angle : Rat) : Outcome Gate :=
  if angle = 1 ∨ angle = -1 then .ok (.basic q .Z)
  else if angle = 1 / 2 then .ok (.basic q .S)
  else if angle = -1 / 2 then .ok (.basic q .SDg)
  else if angle = 1 / 4 then .ok (.basic q .T)
  else if angle = -1 / 4 then .ok (.basic q .TDg)
  else .throws

/-- postgres_gate_stream.cpp:64-112, with the numbers of lines 6-39: `XPowGate` 5, `YPowGate` 6 and `ZPowGate` 7 are treated
alike, `HPowGate` 8, `_PauliX` 9, `_PauliZ` 10, `In` 0, `Out` 1, `ResetChannel` 13 and `M` 14 are skipped, `CZPowGate` 17 and
`CXPowGate` 18 are treated alike, `S` 27, `S_dag` 28, `T` 29, `T_dag` 30. -/
def translate (r : Row) : Outcome (Option Gate) :=
  let q := qubit r.control
  if r.type = 5 ∨ r.type = 6 ∨ r.type = 7 then do
    let g ← power q r.param
    .ok (some g)
  else if r.type = 8 then .ok (some (.basic q .H))
  else if r.type = 9 then .ok (some (.basic q .X))
  else if r.type = 10 then .ok (some (.basic q .Z))
  else if r.type = 0 ∨ r.type = 1 ∨ r.type = 13 ∨ r.type = 14 then .ok none
  else if r.type = 17 ∨ r.type = 18 then .ok (some (cnot (qubit r.target) q .controlFirst .nextToControl))
  else if r.type = 27 then .ok (some (.basic q .S))
  else if r.type = 28 then .ok (some (.basic q .SDg))
  else if r.type = 29 then .ok (some (.basic q .T))
  else if r.type = 30 then .ok (some (.basic q .TDg))
  else .throws

/-- postgres_gate_stream.cpp:61-114: the loop over the rows. -/
def translateAll : List Row → Outcome (List Gate)
  | [] => .ok []
  | r :: rs => do
    let g ← translate r
    let gs ← translateAll rs
    .ok (g.toList ++ gs)

/-- postgres_gate_stream.hpp:32-35: the gates read and not yet delivered, and the next layer. -/
structure Reader where
  queue : List Gate
  layer : Nat
  deriving DecidableEq, Repr

/-- postgres_gate_stream.cpp:45-56: the register has as many qubits as layer rows of type 0 (`In`), given as `count`; reading
starts with layer 1. -/
def openDb (count : Nat) : Outcome (Nat × Reader) :=
  if count > 2 ^ 32 - 1 then .throws else .ok (count, ⟨[], 1⟩)

/-- postgres_gate_stream.cpp:60-117 `advance_layer`. -/
def advanceLayer (db : Db) (s : Reader) : Outcome Reader := do
  let gs ← translateAll (db s.layer)
  .ok ⟨s.queue ++ gs, s.layer + 1⟩

/-- postgres_gate_stream.cpp:128-135 `has_next_gate`; the members it changes are `mutable`. -/
def hasNext (db : Db) (s : Reader) : Outcome (Bool × Reader) := do
  let s ← if s.queue.isEmpty then advanceLayer db s else .ok s
  .ok (!s.queue.isEmpty, s)

/-- postgres_gate_stream.cpp:119-126 `get_next_gate`: `front()` of an empty queue is undefined. -/
def getNext (db : Db) (s : Reader) : Outcome (Gate × Reader) := do
  let s ← if s.queue.isEmpty then advanceLayer db s else .ok s
  match s.queue with
  | [] => .ub
  | g :: q => .ok (g, { s with queue := q })

/-- A consumer (domain_dags.cpp:24-25): while there is a next gate, take it; at most `n` of them. Reports whether the stream
said that it ended. -/
def read (db : Db) : Nat → Reader → Outcome (List Gate × Bool)
  | 0, _ => .ok ([], false)
  | n + 1, s => do
    let (b, s) ← hasNext db s
    if !b then .ok ([], true)
    else do
      let (g, s) ← getNext db s
      let (gs, e) ← read db n s
      .ok (g :: gs, e)

end Verif.Pandora
