import Verif.Pipeline

/-!
# The pipelines up to an exception (model)

With `--graceful`, exceptions that leave a pipeline are caught (`/repo/src/patches/dense_patch_computation.cpp:1716-1731`), and what the visitors
were shown and what was counted before remains. `Pipeline.lean` and `Wave.lean` say only that there is an exception. Here are the same functions once more,
each with the variables as they are when the exception leaves it; and slices may come too late, which is an exception in the slice visitor before anything is shown
(dense_patch_computation.cpp:1641-1658). `SalvageLemmas.lean` shows that they are the same functions otherwise.

Simplification: what an attempt or `advance_slice` has changed before it throws is left out, as nobody sees it afterwards.
-/

namespace Verif

/-- What becomes of the variables, and the value, if there was no exception. -/
abbrev Tried (σ α : Type) := Outcome (Option α × σ)

namespace Tried

/-- The second is done if there was no exception in the first. -/
def andThen {σ α β : Type} (x : Tried σ α) (f : α → σ → Tried σ β) : Tried σ β :=
  match x with
  | .ok (some a, s) => f a s
  | .ok (none, s) => .ok (none, s)
  | .throws => .throws
  | .ub => .ub

/-- Something that leaves the variables as they are. -/
def attempt {σ α : Type} (s : σ) : Outcome α → Tried σ α
  | .ok a => .ok (some a, s)
  | .throws => .ok (none, s)
  | .ub => .ub

/-- A slice is shown, which leads from `s` to `s'`, unless it is late; then comes something that leaves the variables as they are. -/
def look {σ α : Type} (late : Bool) (s s' : σ) (x : Outcome α) : Tried σ α := if late then .ok (none, s) else attempt s' x

end Tried

open Tried

namespace Pipe

open Verif.Wave (Res Env)

/-- The number of slices shown. -/
def sliceCount {σ : Type} (l : List (Obs σ)) : Nat := l.countP fun o => match o with
  | .slice _ => true
  | .instr _ => false

/-! ### Streamed -/

/-- The number of slices shown. -/
def SSt.sliceCount {σ : Type} (st : SSt σ) : Nat := Pipe.sliceCount (st.events.filterMap Ev.obs)

/-- dense_patch_computation.cpp:1475-1495; see `react`. -/
def reactT {σ : Type} (env : Env σ) (late : Nat → Bool) (st : SSt σ) (it : Item) (r : Res σ) : Tried (SSt σ) Ctl :=
  let ev := [Ev.attempt it r.err r.followups] ++ (if r.err then [] else [Ev.instr it.tag r.instr])
  let before := { st with slice := r.slice, events := st.events ++ ev }
  let after := { st with slice := r.slice, events := st.events ++ ev ++ [.slice r.slice] }
  if r.followups ≠ [] then
    andThen (look (late before.sliceCount) before after (env.advance r.slice)) fun s st =>
      .ok (some .go, { st with slice := s, count := st.count + 1, future := st.future ++ r.followups.map (fun f => ⟨f, it.tag, 0, f.wait⟩) })
  else if r.err then
    if r.instr.wait = 0 then andThen (look (late before.sliceCount) before after (.ok ())) fun _ st => .ok (some .failed, st)
    else
      andThen (look (late before.sliceCount) before after (env.advance r.slice)) fun s st =>
        .ok (some .go, { st with slice := s, future := ⟨{ r.instr with wait := r.instr.wait - 1 }, it.tag, it.tries + 1, it.budget⟩ :: st.future })
  else .ok (some .go, before)

/-- dense_patch_computation.cpp:1464-1498; see `sstep`. -/
def sstepT {σ : Type} (env : Env σ) (late : Nat → Bool) (st : SSt σ) : Tried (SSt σ) Ctl :=
  match takeNext st with
  | none => andThen (look (late st.sliceCount) st { st with events := st.events ++ [.slice st.slice] } (.ok ())) fun _ st => .ok (some .finished, st)
  | some (it, st) => andThen (attempt st (env.apply st.slice it.instr)) fun r st => reactT env late st it r

/-- At most `n` rounds. -/
def srunT {σ : Type} (env : Env σ) (late : Nat → Bool) : Nat → SSt σ → Tried (SSt σ) Ctl
  | 0, st => .ok (some .go, st)
  | n + 1, st => andThen (sstepT env late st) fun c st => if c = .go then srunT env late n st else .ok (some c, st)

/-! ### DAG -/

/-- See `dapply`. -/
def dapplyT {σ : Type} (env : Env σ) (st : DSt σ) (l : Nat) : Tried (DSt σ) (Res σ) :=
  match st.run.dag.instr l with
  | none => .ok (none, st)
  | some i => andThen (attempt st (env.apply st.slice i)) fun r st =>
    .ok (some r, { st with slice := r.slice, run := { st.run with dag := { st.run.dag with instr := upd st.run.dag.instr l (some r.instr) } } })

/-- dense_patch_computation.cpp:1553-1556 and 1580-1584: the instruction is shown before the graph is changed. -/
def settleT {σ : Type} (st : DSt σ) (l : Nat) (r : Res σ) : Tried (DSt σ) Unit :=
  andThen (attempt { st with shown := st.shown ++ [(l, r.instr, st.slices)], obs := st.obs ++ [.instr r.instr] } (handle st.run l r.followups)) fun run st =>
    .ok (some (), { st with run := run })

/-- dense_patch_computation.cpp:1541-1558; see `proxLoop`. -/
def proxLoopT {σ : Type} (env : Env σ) : DSt σ → List Nat → Tried (DSt σ) Unit
  | st, [] => .ok (some (), st)
  | st, l :: ls => andThen (dapplyT env st l) fun r st =>
    if r.err then .ok (none, st) else andThen (settleT st l r) fun _ st => proxLoopT env st ls

/-- dense_patch_computation.cpp:1562-1585; see `headLoop`. -/
def headLoopT {σ : Type} (env : Env σ) : DSt σ → List Nat → Tried (DSt σ) Unit
  | st, [] => .ok (some (), st)
  | st, l :: ls => andThen (dapplyT env st l) fun r st =>
    if r.err then andThen (attempt st (noteFailure st l)) fun st _ => headLoopT env st ls
    else andThen (settleT st l r) fun _ st => headLoopT env st ls

/-- dense_patch_computation.cpp:1537-1592; see `dround`. -/
def droundT {σ : Type} (env : Env σ) (late : Nat → Bool) (st : DSt σ) : Tried (DSt σ) Unit :=
  andThen (proxLoopT env st st.run.dag.proxHeads) fun _ st =>
    andThen (headLoopT env st st.run.dag.applicable) fun _ st =>
      andThen (look (late (sliceCount st.obs)) st { st with slices := st.slices + 1, seen := st.seen ++ [st.slice], obs := st.obs ++ [.slice st.slice] } (env.advance st.slice)) fun s st =>
        .ok (some (), { st with slice := s, count := st.count + 1 })

/-- At most `n` rounds; tells whether the loop has ended. -/
def drunT {σ : Type} (env : Env σ) (late : Nat → Bool) : Nat → DSt σ → Tried (DSt σ) Bool
  | 0, st => .ok (some st.run.dag.graph.nodes.isEmpty, st)
  | n + 1, st =>
    if st.run.dag.graph.nodes.isEmpty then .ok (some true, st)
    else andThen (droundT env late st) fun _ st => drunT env late n st

end Pipe

namespace Wave

/-! ### Waves -/

/-- `try_schedule_immediately` as seen by its callers. -/
abbrev RecT (σ : Type) := St σ → Nat → Bool → Tried (St σ) Bool

/-- See `applyTo`. -/
def applyToT {σ : Type} (env : Env σ) (st : St σ) (id : Nat) : Tried (St σ) (Res σ) :=
  if id < st.size then
    andThen (attempt st (env.apply st.slice (st.instr id))) fun r st => .ok (some r, { st with slice := r.slice, instr := upd st.instr id r.instr })
  else .ub

/-- wave_scheduler.cpp:184-200; see `release`. -/
def releaseT {σ : Type} (rec : RecT σ) (st : St σ) (j : Nat) (prox : Bool) : Tried (St σ) Unit :=
  if prox then andThen (attempt st (isImmediate (st.instr j))) fun imm st => .ok (some (), if imm then pushHead st j else pushNextHead st j)
  else andThen (rec st j prox) fun b st => .ok (some (), if b then st else pushNextHead st j)

/-- wave_scheduler.cpp:183-200; see `oneDep`. -/
def oneDepT {σ : Type} (rec : RecT σ) (st : St σ) (j : Nat) (prox : Bool) : Tried (St σ) Unit :=
  let st := { st with count := upd st.count j ((st.count j + 255) % 256) }
  if st.count j = 0 then releaseT rec st j prox else .ok (some (), st)

/-- wave_scheduler.cpp:180-201; see `depLoop`. -/
def depLoopT {σ : Type} (env : Env σ) (rec : RecT σ) (prox : Bool) (n0 : Nat) : St σ → List Nat → Tried (St σ) Unit
  | st, [] => .ok (some (), st)
  | st, j :: js =>
    if moved env.realloc n0 st.size then .ub
    else if st.size ≤ j then .ub
    else andThen (oneDepT rec st j prox) fun _ st => depLoopT env rec prox n0 st js

/-- wave_scheduler.cpp:215-224; see `followLoop`. -/
def followLoopT {σ : Type} (env : Env σ) (rec : RecT σ) (prox : Bool) (n0 : Nat) (deps : List Nat) (origin : Nat) : St σ → List Instr → Tried (St σ) Unit
  | st, [] => .ok (some (), st)
  | st, f :: fs =>
    if moved env.realloc n0 st.size then .ub
    else
      andThen (rec { st with size := st.size + 1, instr := upd st.instr st.size f, deps := upd st.deps st.size deps, count := upd st.count st.size 0, origin := upd st.origin st.size origin } st.size prox)
        fun b st' => followLoopT env rec prox n0 deps origin (if b then st' else pushNextProx st' st.size) fs

/-- wave_scheduler.cpp:174-226; see `notify`. -/
def notifyT {σ : Type} (env : Env σ) (rec : RecT σ) (st : St σ) (id : Nat) (followups : List Instr) (prox : Bool) : Tried (St σ) Unit :=
  let deps := st.deps id
  match followups with
  | [] => depLoopT env rec prox st.size st deps
  | f :: fs =>
    let st := if fs.length ≠ 0 then addDelta st fs.length deps else st
    followLoopT env rec prox st.size deps (st.origin id) st (f :: fs)

/-- wave_scheduler.cpp:266-302; see `tryImm`. -/
def tryImmT {σ : Type} (env : Env σ) : Nat → RecT σ
  | 0, _, _, _ => .ub
  | d + 1, st, id, prox =>
    if st.size ≤ id then .ub
    else andThen (attempt st (isImmediate (st.instr id))) fun imm st =>
      if !imm then .ok (some false, st)
      else andThen (applyToT env st id) fun r st =>
        if r.err then
          if selfResult r then .ok (some true, pushDeferred st id) else .ok (some false, st)
        else if selfResult r then .ok (some true, pushNextProx (visit st id r) id)
        else andThen (notifyT env (tryImmT env d) (visit st id r) id r.followups prox) fun _ st => .ok (some true, st)

/-- wave_scheduler.cpp:113-168; see `schedOne`. -/
def schedOneT {σ : Type} (env : Env σ) (rec : RecT σ) (prox deferred : Bool) (st : St σ) (id : Nat) : Tried (St σ) Unit :=
  andThen (applyToT env st id) fun r st =>
    if !r.err then
      if selfResult r then .ok (some (), pushNextProx (visit st id r) id) else notifyT env rec (visit st id r) id r.followups prox
    else if selfResult r then .ok (some (), pushDeferred st id)
    else if deferred then .ok (some (), st)
    else if prox then .ok (none, st)
    else if r.instr.wait = 0 then .ok (none, st)
    else .ok (some (), pushNextHead { st with instr := upd st.instr id { r.instr with wait := r.instr.wait - 1 } } id)

/-- wave_scheduler.cpp:107-172; see `schedList`. -/
def schedListT {σ : Type} (env : Env σ) (rec : RecT σ) (prox deferred : Bool) : St σ → List Nat → Tried (St σ) Unit
  | st, [] => .ok (some (), st)
  | st, id :: ids => andThen (schedOneT env rec prox deferred st id) fun _ st => schedListT env rec prox deferred st ids

/-- wave_scheduler.cpp:71-96; see `rounds`. -/
def roundsT {σ : Type} (env : Env σ) (go : RecT σ) (st : St σ) : Tried (St σ) Unit :=
  if env.edpc then
    andThen (schedListT env go false true st st.cur.deferred) fun _ st =>
      andThen (attempt st (env.reset st.slice)) fun s st => schedListT env go false true { st with slice := s } st.cur.deferred
  else .ok (some (), st)

/-- wave_scheduler.cpp:62-105; see `scheduleWave`. -/
def scheduleWaveT {σ : Type} (env : Env σ) (depth : Nat) (st : St σ) : Tried (St σ) Unit :=
  andThen (schedListT env (tryImmT env depth) true false st st.cur.prox) fun _ st =>
    andThen (schedListT env (tryImmT env depth) false false st st.cur.heads) fun _ st =>
      andThen (roundsT env (tryImmT env depth) st) fun _ st => .ok (some (), { st with cur := st.nxt, nxt := {} })

end Wave

namespace Pipe

open Verif.Wave (Env)

/-- What the instruction visitor has been shown since `n` calls of it. -/
def since {σ : Type} (n : Nat) (st : Wave.St σ) : List (Obs σ) := (st.log.drop n).map fun e => .instr e.instr

/-- The wave, as part of the loop. -/
def waveT {σ : Type} (env : Env σ) (depth : Nat) (w : WSt σ) : Tried (WSt σ) Unit :=
  match Wave.scheduleWaveT env depth w.st with
  | .ok (o, st) => .ok (o, { w with st := st, obs := w.obs ++ since w.st.log.length st })
  | .throws => .throws
  | .ub => .ub

/-- dense_patch_computation.cpp:1612-1620; see `wrun`. -/
def wrunT {σ : Type} (env : Env σ) (late : Nat → Bool) (depth : Nat) : Nat → WSt σ → Tried (WSt σ) Bool
  | 0, w => .ok (some (Wave.done w.st), w)
  | n + 1, w =>
    if Wave.done w.st then .ok (some true, w)
    else
      andThen (waveT env depth w) fun _ w =>
        andThen (look (late (sliceCount w.obs)) w { w with shown := w.shown ++ [w.st.slice], obs := w.obs ++ [.slice w.st.slice] } (env.advance w.st.slice)) fun s w =>
          wrunT env late depth n { w with st := { w.st with slice := s }, count := w.count + 1 }

end Pipe

end Verif
