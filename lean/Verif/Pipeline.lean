import Verif.Wave
import Verif.Dag

/-!
# The streamed and the DAG pipeline (model)

Models `run_through_dense_slices_streamed` and `run_through_dense_slices_dag`
(`/repo/src/patches/dense_patch_computation.cpp:1448-1593`). As for the wave scheduler, the function that tries an
instruction on a slice, and `advance_slice`, are parameters (`Wave.Env`; its last two fields are not used here).
-/

namespace Verif.Pipe

open Verif.Wave (Res Env)

/-! ### Streamed -/

/-- An element of `future_instructions`, or the instruction just taken from the stream. Only `instr` is in the code;
`tag` is the index of the source instruction it stems from, `tries` the number of failed attempts so far, `budget` the
waiting budget it came with. -/
structure Item where
  instr : Instr
  tag : Nat
  tries : Nat
  budget : Nat
  deriving Repr, DecidableEq

/-- What can be observed, in order: attempts (with the item as it was, and the result), calls of the instruction visitor
and calls of the slice visitor. -/
inductive Ev (σ : Type) where
  | attempt (it : Item) (err : Bool) (followups : List Instr)
  | instr (tag : Nat) (i : Instr)
  | slice (s : σ)

/-- A call of the instruction visitor or of the slice visitor. -/
inductive Obs (σ : Type) where
  | instr (i : Instr)
  | slice (s : σ)

/-- What the visitors see of the events. -/
def Ev.obs {σ : Type} : Ev σ → Option (Obs σ)
  | .attempt .. => none
  | .instr _ i => some (.instr i)
  | .slice s => some (.slice s)

/-- Local variables of dense_patch_computation.cpp:1461-1498. `read` is the number of instructions taken from the
stream, `count` is `res.slice_count_`. -/
structure SSt (σ : Type) where
  slice : σ
  stream : List Instr
  read : Nat := 0
  future : List Item := []
  count : Nat := 1
  events : List (Ev σ) := []

/-- How a round of the loop ends. -/
inductive Ctl where
  | go | finished | failed
  deriving Repr, DecidableEq

/-- dense_patch_computation.cpp:1466-1472. -/
def takeNext {σ : Type} (st : SSt σ) : Option (Item × SSt σ) :=
  match st.future with
  | it :: future => some (it, { st with future := future })
  | [] => match st.stream with
    | i :: is => some (⟨i, st.read, 0, i.wait⟩, { st with stream := is, read := st.read + 1 })
    | [] => none

/-- dense_patch_computation.cpp:1475-1495, after the attempt on `it` gave `r`. -/
def react {σ : Type} (env : Env σ) (st : SSt σ) (it : Item) (r : Res σ) : Outcome (Ctl × SSt σ) :=
  let ev := [Ev.attempt it r.err r.followups] ++ (if r.err then [] else [Ev.instr it.tag r.instr])
  if r.followups ≠ [] then do
    let s ← env.advance r.slice
    .ok (.go, { st with
      slice := s
      count := st.count + 1
      future := st.future ++ r.followups.map (fun f => ⟨f, it.tag, 0, f.wait⟩)
      events := st.events ++ ev ++ [.slice r.slice] })
  else if r.err then
    if r.instr.wait = 0 then .ok (.failed, { st with slice := r.slice, events := st.events ++ ev ++ [.slice r.slice] })
    else do
      let s ← env.advance r.slice
      .ok (.go, { st with
        slice := s
        future := ⟨{ r.instr with wait := r.instr.wait - 1 }, it.tag, it.tries + 1, it.budget⟩ :: st.future
        events := st.events ++ ev ++ [.slice r.slice] })
  else .ok (.go, { st with slice := r.slice, events := st.events ++ ev })

/-- One evaluation of the loop condition and, if it holds, one round (dense_patch_computation.cpp:1464-1497). -/
def sstep {σ : Type} (env : Env σ) (st : SSt σ) : Outcome (Ctl × SSt σ) :=
  match takeNext st with
  | none => .ok (.finished, { st with events := st.events ++ [.slice st.slice] })
  | some (it, st) => do
    let r ← env.apply st.slice it.instr
    react env st it r

/-- At most `n` rounds. -/
def srun {σ : Type} (env : Env σ) : Nat → SSt σ → Outcome (Ctl × SSt σ)
  | 0, st => .ok (.go, st)
  | n + 1, st => do
    let (c, st) ← sstep env st
    if c = .go then srun env n st else .ok (c, st)

def sstart {σ : Type} (slice : σ) (prog : List Instr) : SSt σ := { slice := slice, stream := prog }

/-! ### DAG -/

open Verif.Dag (DDag DRun)

/-- Local variables of dense_patch_computation.cpp:1515-1593. `run` holds the dependency graph (with the ghost history of
`DRun`), `fails` is `attempts_per_instruction`. `shown` lists the labels passed to the instruction visitor with the
number of slices shown before; `slices` counts the calls of the slice visitor, `seen` lists what it was given, `obs` lists
the calls of both visitors in order. -/
structure DSt (σ : Type) where
  slice : σ
  run : DRun Instr
  fails : Nat → Nat := fun _ => 0
  count : Nat := 1
  slices : Nat := 0
  shown : List (Nat × Instr × Nat) := []
  seen : List σ := []
  obs : List (Obs σ) := []

/-- dense_patch_computation.cpp:1525-1534 `handle_followup_instructions`. -/
def handle (run : DRun Instr) (l : Nat) (followups : List Instr) : Outcome (DRun Instr) :=
  match followups with
  | [] => do
    let d ← run.dag.popHead l
    .ok { run with dag := d, popped := run.popped ++ [l] }
  | f :: fs => do
    let (d, new) ← run.dag.expand l (f :: fs) true
    .ok { run with
      dag := d.makeProximate new
      origin := fun x => if run.dag.next ≤ x ∧ x < run.dag.next + (f :: fs).length then run.origin l else run.origin x }

/-- dense_patch_computation.cpp:55 (header). -/
def maxRetries : Nat := 100

/-- The attempt on the instruction with label `l`, which modifies the instruction in the graph. -/
def dapply {σ : Type} (env : Env σ) (st : DSt σ) (l : Nat) : Outcome (Res σ × DSt σ) :=
  match st.run.dag.instr l with
  | none => .throws
  | some i => do
    let r ← env.apply st.slice i
    .ok (r, { st with slice := r.slice, run := { st.run with dag := { st.run.dag with instr := upd st.run.dag.instr l (some r.instr) } } })

/-- dense_patch_computation.cpp:1541-1558. -/
def proxLoop {σ : Type} (env : Env σ) : DSt σ → List Nat → Outcome (DSt σ)
  | st, [] => .ok st
  | st, l :: ls => do
    let (r, st) ← dapply env st l
    if r.err then .throws
    else do
      let run ← handle st.run l r.followups
      proxLoop env { st with run := run, shown := st.shown ++ [(l, r.instr, st.slices)], obs := st.obs ++ [.instr r.instr] } ls

/-- dense_patch_computation.cpp:1566-1578. -/
def noteFailure {σ : Type} (st : DSt σ) (l : Nat) : Outcome (DSt σ) :=
  if st.fails l + 1 > maxRetries then .throws else .ok { st with fails := upd st.fails l (st.fails l + 1) }

/-- dense_patch_computation.cpp:1562-1585. -/
def headLoop {σ : Type} (env : Env σ) : DSt σ → List Nat → Outcome (DSt σ)
  | st, [] => .ok st
  | st, l :: ls => do
    let (r, st) ← dapply env st l
    if r.err then do
      let st ← noteFailure st l
      headLoop env st ls
    else do
      let run ← handle st.run l r.followups
      headLoop env { st with run := run, shown := st.shown ++ [(l, r.instr, st.slices)], obs := st.obs ++ [.instr r.instr] } ls

/-- dense_patch_computation.cpp:1537-1592: one round. -/
def dround {σ : Type} (env : Env σ) (st : DSt σ) : Outcome (DSt σ) := do
  let st ← proxLoop env st st.run.dag.proxHeads
  let st ← headLoop env st st.run.dag.applicable
  let s ← env.advance st.slice
  .ok { st with slice := s, slices := st.slices + 1, count := st.count + 1, seen := st.seen ++ [st.slice], obs := st.obs ++ [.slice st.slice] }

/-- At most `n` rounds; tells whether the loop has ended. -/
def drun {σ : Type} (env : Env σ) : Nat → DSt σ → Outcome (Bool × DSt σ)
  | 0, st => .ok (st.run.dag.graph.nodes.isEmpty, st)
  | n + 1, st =>
    if st.run.dag.graph.nodes.isEmpty then .ok (true, st)
    else do
      let st ← dround env st
      drun env n st

/-- dense_patch_computation.cpp:1680-1682 and 1515. -/
def dstart {σ : Type} (slice : σ) (prog : List Instr) : Outcome (DSt σ) := do
  let d ← DDag.pushAll Instr.canCommute DDag.empty prog
  .ok { slice := slice, run := DRun.start d }

/-! ### Waves -/

/-- State of `run_through_dense_slices_wave` (dense_patch_computation.cpp:1609-1620): the scheduler with the slice, the
reported count `res.slice_count_` (dense_patch_computation.hpp:34), the slices shown, and the calls of both visitors in
order. -/
structure WSt (σ : Type) where
  st : Wave.St σ
  count : Nat := 1
  shown : List σ := []
  obs : List (Obs σ) := []

/-- dense_patch_computation.cpp:1612-1620, at most `n` rounds; tells whether the loop has ended. -/
def wrun {σ : Type} (env : Env σ) (depth : Nat) : Nat → WSt σ → Outcome (Bool × WSt σ)
  | 0, w => .ok (Wave.done w.st, w)
  | n + 1, w =>
    if Wave.done w.st then .ok (true, w)
    else do
      let st ← Wave.scheduleWave env depth w.st
      let s ← env.advance st.slice
      wrun env depth n ⟨{ st with slice := s }, w.count + 1, w.shown ++ [st.slice],
        w.obs ++ (st.log.drop w.st.log.length).map (fun e => .instr e.instr) ++ [.slice st.slice]⟩

end Verif.Pipe
