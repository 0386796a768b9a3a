import Verif.Instr

/-!
# The wave scheduler (model)

Models `/repo/src/scheduler/wave_scheduler.cpp` and the loop `run_through_dense_slices_wave`
(dense_patch_computation.cpp:1595-1621).

The function that tries an instruction on a slice (`try_apply_instruction_direct_followup`) is a parameter,
so everything proved holds for any such function within the stated assumptions. The statistics returned by
`schedule_wave` are not modelled.
-/

namespace Verif.Wave

/-- `InstructionApplicationResult` together with the slice and the instruction after the call (both are
passed by reference): dense_patch_computation.hpp. -/
structure Res (σ : Type) where
  slice : σ
  instr : Instr
  err : Bool
  followups : List Instr

/-- wave_scheduler.hpp:43-62. -/
structure Wave where
  heads : List Nat := []
  prox : List Nat := []
  deferred : List Nat := []
  deriving Repr, DecidableEq

/-- A call of the instruction visitor: the record, the instruction shown, and (not visible to the visitor) the
follow-ups its application produced. -/
structure Entry where
  id : Nat
  instr : Instr
  followups : List Instr
  deriving Repr, DecidableEq

/-- The scheduler (wave_scheduler.hpp:71-80). `records_` and `dependency_counts_` always have the same length
`size`. `origin` is not in the code: for each record the source instruction it stems from. `log` lists the
visitor calls so far. -/
structure St (σ : Type) where
  slice : σ
  size : Nat
  instr : Nat → Instr
  deps : Nat → List Nat
  count : Nat → Nat
  origin : Nat → Nat
  cur : Wave := {}
  nxt : Wave := {}
  log : List Entry := []

/-- What the scheduler is run with. `realloc n` tells whether growing `records_` from `n` to `n+1` elements moves
its storage (libstdc++: when `n` is 0 or a power of two). `advance` is `advance_slice`, `reset` the resetting of the
EDPC boundary marks (wave_scheduler.cpp:81-92). -/
structure Env (σ : Type) where
  apply : σ → Instr → Outcome (Res σ)
  advance : σ → Outcome σ
  reset : σ → Outcome σ
  edpc : Bool
  realloc : Nat → Bool

/-! ### Constructor -/

/-- wave_scheduler.cpp:39-51: the loop over the patches of one instruction. `last` is
`patch_id_to_last_instruction`. Result: the dependents, the new map, and the number of increments. -/
def linkPatches (id : Nat) : List Nat → (Nat → List Nat) → (Nat → Option Nat) → Nat → (Nat → List Nat) × (Nat → Option Nat) × Nat
  | [], deps, last, n => (deps, last, n)
  | p :: ps, deps, last, n =>
    match last p with
    | some k => linkPatches id ps (upd deps k (deps k ++ [id])) (upd last p (some id)) (n + 1)
    | none => linkPatches id ps deps (upd last p (some id)) n

/-- wave_scheduler.cpp:25-59: one instruction of the stream. The count is a `uint8_t`. -/
def addInstr {σ : Type} (st : St σ) (last : Nat → Option Nat) (i : Instr) : St σ × (Nat → Option Nat) :=
  let id := st.size
  let (deps, last, n) := linkPatches id i.deps st.deps last 0
  ({ st with
      size := id + 1
      instr := upd st.instr id i
      deps := deps
      count := upd st.count id (n % 256)
      origin := upd st.origin id id
      cur := if n = 0 then { st.cur with heads := st.cur.heads ++ [id] } else st.cur }, last)

def addAll {σ : Type} : St σ → (Nat → Option Nat) → List Instr → St σ
  | st, _, [] => st
  | st, last, i :: is => let (st, last) := addInstr st last i; addAll st last is

/-- wave_scheduler.cpp:11-60. -/
def start {σ : Type} (slice : σ) (prog : List Instr) : St σ :=
  addAll { slice := slice, size := 0, instr := fun _ => { op := .declare [] }, deps := fun _ => [], count := fun _ => 0, origin := fun _ => 0 }
    (fun _ => none) prog

/-! ### One wave -/

/-- wave_scheduler.cpp:228-264 `is_immediate`; throws for a declaration of logical qubits (and for the value `I`
of a single-qubit operator). -/
def isImmediate (i : Instr) : Outcome Bool :=
  match i.op with
  | .measure .. => .ok true
  | .multi .. => .ok true
  | .init .. => .ok true
  | .bell _ => .ok true
  | .magic .. => .ok true
  | .ystate .. => .ok true
  | .sq _ .X _ => .ok true
  | .sq _ .Y _ => .ok true
  | .sq _ .Z _ => .ok true
  | .sq _ .H _ => .ok false
  | .sq _ .S _ => .ok false
  | .sq _ .I _ => .throws
  | .rotate _ => .ok true
  | .busy .. => .ok false
  | .reset _ => .ok true
  | .bellCnot _ => .ok true
  | .declare _ => .throws

/-- Has the storage of `records_` moved while growing from `n` to `m` elements? -/
def moved (realloc : Nat → Bool) (n m : Nat) : Bool := (List.range' n (m - n)).any realloc

/-- `instruction has rescheduled itself` (wave_scheduler.cpp:127, 138, 280, 295). -/
def selfResult {σ : Type} (r : Res σ) : Bool := decide (r.followups = [r.instr])

/-- The call of `try_apply_instruction_direct_followup` on a record. -/
def applyTo {σ : Type} (env : Env σ) (st : St σ) (id : Nat) : Outcome (Res σ × St σ) :=
  if id < st.size then do
    let r ← env.apply st.slice (st.instr id)
    .ok (r, { st with slice := r.slice, instr := upd st.instr id r.instr })
  else .ub

/-- wave_scheduler.cpp:124-125, 292-293. -/
def visit {σ : Type} (st : St σ) (id : Nat) (r : Res σ) : St σ := { st with log := st.log ++ [⟨id, r.instr, r.followups⟩] }

def pushNextHead {σ : Type} (st : St σ) (id : Nat) : St σ := { st with nxt := { st.nxt with heads := st.nxt.heads ++ [id] } }
def pushNextProx {σ : Type} (st : St σ) (id : Nat) : St σ := { st with nxt := { st.nxt with prox := st.nxt.prox ++ [id] } }
def pushHead {σ : Type} (st : St σ) (id : Nat) : St σ := { st with cur := { st.cur with heads := st.cur.heads ++ [id] } }
def pushDeferred {σ : Type} (st : St σ) (id : Nat) : St σ := { st with cur := { st.cur with deferred := st.cur.deferred ++ [id] } }

/-- `try_schedule_immediately` as seen by its callers. -/
abbrev Rec (σ : Type) := St σ → Nat → Bool → Outcome (Bool × St σ)

/-- wave_scheduler.cpp:184-200: a dependent whose last dependency is gone. -/
def release {σ : Type} (rec : Rec σ) (st : St σ) (j : Nat) (prox : Bool) : Outcome (St σ) :=
  if prox then do
    let imm ← isImmediate (st.instr j)
    .ok (if imm then pushHead st j else pushNextHead st j)
  else do
    let (b, st) ← rec st j prox
    .ok (if b then st else pushNextHead st j)

/-- wave_scheduler.cpp:183-200: one dependent. -/
def oneDep {σ : Type} (rec : Rec σ) (st : St σ) (j : Nat) (prox : Bool) : Outcome (St σ) :=
  let st := { st with count := upd st.count j ((st.count j + 255) % 256) }
  if st.count j = 0 then release rec st j prox else .ok st

/-- wave_scheduler.cpp:180-201: the loop over the dependents, which live inside `records_`; `n0` is the size of
`records_` when the loop began. The decrement wraps. -/
def depLoop {σ : Type} (env : Env σ) (rec : Rec σ) (prox : Bool) (n0 : Nat) : St σ → List Nat → Outcome (St σ)
  | st, [] => .ok st
  | st, j :: js =>
    if moved env.realloc n0 st.size then .ub
    else if st.size ≤ j then .ub
    else do
      let st ← oneDep rec st j prox
      depLoop env rec prox n0 st js

/-- wave_scheduler.cpp:208-212. -/
def addDelta {σ : Type} (st : St σ) (delta : Nat) : List Nat → St σ
  | [] => st
  | j :: js => addDelta { st with count := upd st.count j ((st.count j + delta) % 256) } delta js

/-- wave_scheduler.cpp:215-224: the loop over the follow-ups; the reference `dependents` is read for each. -/
def followLoop {σ : Type} (env : Env σ) (rec : Rec σ) (prox : Bool) (n0 : Nat) (deps : List Nat) (origin : Nat) : St σ → List Instr → Outcome (St σ)
  | st, [] => .ok st
  | st, f :: fs =>
    if moved env.realloc n0 st.size then .ub
    else do
      let id := st.size
      let st := { st with size := id + 1, instr := upd st.instr id f, deps := upd st.deps id deps, count := upd st.count id 0, origin := upd st.origin id origin }
      let (b, st) ← rec st id prox
      followLoop env rec prox n0 deps origin (if b then st else pushNextProx st id) fs

/-- wave_scheduler.cpp:174-226 `schedule_dependent_instructions`. -/
def notify {σ : Type} (env : Env σ) (rec : Rec σ) (st : St σ) (id : Nat) (followups : List Instr) (prox : Bool) : Outcome (St σ) :=
  let deps := st.deps id
  match followups with
  | [] => depLoop env rec prox st.size st deps
  | f :: fs =>
    let st := if fs.length ≠ 0 then addDelta st fs.length deps else st
    followLoop env rec prox st.size deps (st.origin id) st (f :: fs)

/-- wave_scheduler.cpp:266-302 `try_schedule_immediately`. The first argument bounds the depth of the recursion
with `schedule_dependent_instructions`; beyond it the call stack overflows. -/
def tryImm {σ : Type} (env : Env σ) : Nat → Rec σ
  | 0, _, _, _ => .ub
  | d + 1, st, id, prox =>
    if st.size ≤ id then .ub
    else do
      let imm ← isImmediate (st.instr id)
      if !imm then .ok (false, st)
      else do
        let (r, st) ← applyTo env st id
        if r.err then
          if selfResult r then .ok (true, pushDeferred st id) else .ok (false, st)
        else
          let st := visit st id r
          if selfResult r then .ok (true, pushNextProx st id)
          else do
            let st ← notify env (tryImm env d) st id r.followups prox
            .ok (true, st)

/-- wave_scheduler.cpp:113-168: one round of the loop in `schedule_instructions`. -/
def schedOne {σ : Type} (env : Env σ) (rec : Rec σ) (prox deferred : Bool) (st : St σ) (id : Nat) : Outcome (St σ) := do
  let (r, st) ← applyTo env st id
  if !r.err then
    let st := visit st id r
    if selfResult r then .ok (pushNextProx st id) else notify env rec st id r.followups prox
  else if selfResult r then .ok (pushDeferred st id)
  else if deferred then .ok st
  else if prox then .throws
  else if r.instr.wait = 0 then .throws
  else .ok (pushNextHead { st with instr := upd st.instr id { r.instr with wait := r.instr.wait - 1 } } id)

/-- wave_scheduler.cpp:107-172 `schedule_instructions`. The vector iterated over is not changed by the loop
body (only `current_wave_.heads` can grow, and only during the loop over the proximate heads). -/
def schedList {σ : Type} (env : Env σ) (rec : Rec σ) (prox deferred : Bool) : St σ → List Nat → Outcome (St σ)
  | st, [] => .ok st
  | st, id :: ids => do
    let st ← schedOne env rec prox deferred st id
    schedList env rec prox deferred st ids

/-- wave_scheduler.cpp:71-96. -/
def rounds {σ : Type} (env : Env σ) (go : Rec σ) (st : St σ) : Outcome (St σ) :=
  if env.edpc then do
    let st ← schedList env go false true st st.cur.deferred
    let s ← env.reset st.slice
    schedList env go false true { st with slice := s } st.cur.deferred
  else .ok st

/-- wave_scheduler.cpp:62-105 `schedule_wave`, with recursion depth at most `depth`. -/
def scheduleWave {σ : Type} (env : Env σ) (depth : Nat) (st : St σ) : Outcome (St σ) := do
  let go := tryImm env depth
  let st ← schedList env go true false st st.cur.prox
  let st ← schedList env go false false st st.cur.heads
  let st ← rounds env go st
  .ok { st with cur := st.nxt, nxt := {} }

/-- wave_scheduler.hpp:30. -/
def done {σ : Type} (st : St σ) : Bool := st.cur.prox.isEmpty && st.cur.heads.isEmpty

/-- dense_patch_computation.cpp:1612-1620: at most `n` rounds of the loop; the number of slices handed to the
slice visitor is counted. -/
def runWaves {σ : Type} (env : Env σ) (depth : Nat) : Nat → St σ → Outcome (St σ × Nat)
  | 0, st => .ok (st, 0)
  | n + 1, st =>
    if done st then .ok (st, 0)
    else do
      let st ← scheduleWave env depth st
      let s ← env.advance st.slice
      let (st, k) ← runWaves env depth n { st with slice := s }
      .ok (st, k + 1)

end Verif.Wave
