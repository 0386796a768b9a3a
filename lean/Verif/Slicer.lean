import Verif.Exposed
import Verif.Qasm
import Verif.Pandora
import Verif.Layouts
import Verif.Router
import Verif.Boost
import Verif.RealProps
import Verif.Json
import Verif.Stats
import Verif.Sliced
import Verif.Dot
import Verif.Salvage

/-!
# The slicer program (model)

Models `run_slicer_program` (`/repo/src/pipelines/slicer.cpp:95-104, 238-692`) and `run_through_dense_slices`
(`/repo/src/patches/dense_patch_computation.cpp:1624-1732`), from the options as the parser hands them over to what is written. The
parser of the command line is a library that is not in the repository.

Simplifications. The gates of the input are read, decomposed and compiled before the slicing starts; the streamed pipeline reads
them one by one, so that what it has written by the time the input turns out to be wrong is not modelled (`unknown` with
`--graceful`); likewise with `--printdag input`, where the gates are read before the graph is built. The text of exceptions and of the messages on the error stream is not modelled. A file
given with `-o` can always be written. The clock is a parameter.
-/

namespace Verif.Slicer

open Verif Verif.Gates Verif.Stream Verif.Layouts Verif.Pipe Verif.Wave Verif.Apply

/-! ## The options -/

/-- slicer.cpp:114-223. An option with a value is there or not; the others are on or off. -/
structure Args where
  input : Option Str := none
  format : Option Str := none
  layout : Option Str := none
  output : Option Str := none
  report : Option Str := none
  timeout : Option Nat := none
  router : Option Str := none
  pipeline : Option Str := none
  search : Option Str := none
  graceful : Bool := false
  printLli : Option Str := none
  printDag : Option Str := none
  noSlices : Bool := false
  corrections : Option Str := none
  opIds : Bool := false
  generator : Option Str := none
  lanes : Option Nat := none
  condensed : Option Bool := none
  explicit : Bool := false
  noStagger : Bool := false
  distTime : Option Nat := none
  loc : Bool := false
  noTwists : Bool := false
  deriving DecidableEq, Repr

/-- What the program finds around it: the standard input, the files, a database with its number of qubits, the placement of
ancillas in the static member `default_ancilla_placement`, the approximation of rotations, how priority queues break ties, whether Boost was
compiled in, whether assertions are checked, when vectors of the wave scheduler are moved, the clock,
how the percentages of the statistics and the text of an exception come out. `steps` and `depth` bound how
far the run is followed. -/
structure World where
  stdin : Str
  files : Str → Option Str
  qubits : Nat
  db : Pandora.Db
  dflt : Placement
  approx : Nat → Frac → Outcome (List Gate)
  pick : Verif.Search.Pick
  boost : Option Boost.Pick
  asserts : Bool
  realloc : Nat → Bool
  steps : Nat
  depth : Nat
  late : Nat → Bool
  tick : Nat → Bool
  elapsed : Str
  percent : Nat → Nat → Str
  message : Str

/-! ## Steps that may end the program -/

/-- The ends of the program other than slicing: exit code -1 (slicer.cpp:256-257 and alike), a graph was printed (slicer.cpp:393-395,
415-417, 547-549), the instructions were listed (slicer.cpp:541-544). `unfollowed`: the program went on longer than it was followed
while it read what it was to print. -/
inductive Stop where
  | refused
  | graph (t : Str)
  | listing (t : Str)
  | unfollowed
  deriving DecidableEq, Repr

inductive Step (α : Type) where
  | ends (s : Stop)
  | goes (a : α)

def Act (α : Type) : Type := Outcome (Step α)

namespace Act

def bind {α β : Type} (x : Act α) (f : α → Act β) : Act β :=
  match x with
  | .ok (.goes a) => f a
  | .ok (.ends s) => .ok (.ends s)
  | .throws => .throws
  | .ub => .ub

instance : Monad Act where
  pure a := .ok (.goes a)
  bind := bind

def lift {α : Type} : Outcome α → Act α
  | .ok a => .ok (.goes a)
  | .throws => .throws
  | .ub => .ub

def stop {α : Type} (s : Stop) : Act α := .ok (.ends s)

end Act

open Act

/-- The value of an option is looked up among the known ones. -/
def oneOf {α : Type} (table : List (String × α)) (dflt : α) : Option Str → Act α
  | none => pure dflt
  | some s => match table.find? (fun e => e.1.toList = s) with
    | some e => pure e.2
    | none => stop .refused

/-- slicer.cpp:83-86. -/
inductive Generator where
  | compact | compactNoClogging | edpc
  deriving DecidableEq, Repr

/-- slicer.cpp:59-62. -/
inductive Format where
  | lli | qasm | pandora
  deriving DecidableEq, Repr

/-- slicer.cpp:64-67. -/
inductive Report where
  | progress | noProgress | machine | stats
  deriving DecidableEq, Repr

/-- slicer.cpp:69-71. -/
inductive DagPrint where
  | none | input | processed
  deriving DecidableEq, Repr

/-- slicer.cpp:73-76. -/
inductive LliPrint where
  | none | before | sliced
  deriving DecidableEq, Repr

/-- pipelines: `PipelineMode`, dense_patch_computation.hpp. -/
inductive Pipeline where
  | stream | dag | wave | edpc
  deriving DecidableEq, Repr

/-- router.hpp `GraphSearchProvider`. -/
inductive Provider where
  | djikstra | astar | boost
  deriving DecidableEq, Repr

/-- slicer.cpp:243-258. -/
def generators : List (String × Generator) := [("compact", .compact), ("compact_no_clogging", .compactNoClogging), ("edpc", .edpc)]

/-- slicer.cpp:270-286. -/
def formats : List (String × Format) := [("lli", .lli), ("l", .lli), ("qasm", .qasm), ("q", .qasm), ("pandora", .pandora), ("p", .pandora)]

/-- slicer.cpp:301-313; the name of the second one is misspelled there. -/
def reports : List (String × Report) := [("progress", .progress), ("noprogres", .noProgress), ("machine", .machine), ("stats", .stats)]

/-- slicer.cpp:326-334. -/
def dagPrints : List (String × DagPrint) := [("input", .input), ("", .input), ("processedlli", .processed)]

/-- slicer.cpp:343-358. -/
def pipelines : List (String × Pipeline) := [("stream", .stream), ("", .stream), ("dag", .dag), ("wave", .wave), ("edpc", .edpc)]

/-- slicer.cpp:428-436. -/
def correctionModes : List (String × Bool) := [("always", true), ("never", false)]

/-- slicer.cpp:530-538. -/
def lliPrints : List (String × LliPrint) := [("before", .before), ("", .before), ("sliced", .sliced)]

/-- slicer.cpp:561-569: whether routes are stored. -/
def routers : List (String × Bool) := [("graph_search", false), ("graph_search_cached", true)]

/-- slicer.cpp:576-586. -/
def providers : List (String × Provider) := [("astar", .astar), ("djikstra", .djikstra), ("boost", .boost)]

/-! ## Before the input is read -/

/-- slicer.cpp:88. -/
inductive LayoutChoice where
  | generated (g : Generator)
  | given (L : Layout)

/-- slicer.cpp:95-104. -/
def Args.options (a : Args) : Options := { staggered := !a.noStagger, time := a.distTime.getD 10 }

/-- slicer.cpp:297, 315, 667. -/
def Args.reports (a : Args) : Bool := a.output.isSome || a.noSlices

structure Settings where
  layout : LayoutChoice
  format : Format
  report : Report
  dag : DagPrint
  pipeline : Pipeline
  text : Str

/-- slicer.cpp:240-264, 47-57. -/
def chooseLayout (a : Args) (w : World) : Act LayoutChoice :=
  match a.generator with
  | some s => do
    let g ← oneOf generators .compact (some s)
    pure (.generated g)
  | none => match a.layout with
    | none => pure (.generated .compact)
    | some f => match w.files f with
      | none => lift .throws
      | some t => do
        let L ← lift (fromText t a.options)
        pure (.given L)

/-- slicer.cpp:238-380. -/
def settings (a : Args) (w : World) : Act Settings := do
  let layout ← chooseLayout a w
  let format ← oneOf formats .lli a.format
  let report ← oneOf reports (if a.reports then .progress else .noProgress) a.report
  if a.report.isSome && !a.reports then stop .refused
  else do
    let dag ← oneOf dagPrints .none a.printDag
    let pipeline ← oneOf pipelines .stream a.pipeline
    match a.input with
    | none => pure ⟨layout, format, report, dag, pipeline, w.stdin⟩
    | some f => match w.files f with
      | none => stop .refused
      | some t => pure ⟨layout, format, report, dag, pipeline, t⟩

/-! ## The input -/

/-- An opened stream of gates: a file of which the first gate has been read, or a database. -/
inductive Source where
  | file (f : Qasm.GateFile) (reg : Str) (size : Nat)
  | db (r : Pandora.Reader) (size : Nat)

def Source.size : Source → Nat
  | .file _ _ n => n
  | .db _ n => n

/-- parse_gates.hpp:55, postgres_gate_stream.cpp:47. -/
def Source.reg : Source → Str
  | .file _ r _ => r
  | .db _ _ => "pandora_reg".toList

/-- slicer.cpp:386-410. For instructions as input, taking the first id to generate from the declared ones is undefined
(`lliStart`), so that nothing is said about what comes after. -/
def openSource (w : World) (s : Settings) : Outcome Source :=
  match s.format with
  | .lli => do
    let f ← Lli.openFile s.text
    let _ ← lliStart f.core
    .ub
  | .qasm => do
    let f ← Qasm.openGates w.dflt (Lli.getlines s.text)
    match f.qreg with
    | none => .throws
    | some (reg, n) => .ok (.file f reg n)
  | .pandora => do
    let (n, r) ← Pandora.openDb w.qubits
    .ok (.db r n)

/-- The gates the stream still delivers, when that is the default placement; and whether the end was reached. -/
def Source.gates (w : World) (dflt : Placement) : Source → Outcome (List Gate × Bool)
  | .file f _ _ => do
    let gs ← f.drain dflt (f.lines.length + 1)
    .ok (gs, true)
  | .db r _ => Pandora.read w.db w.steps r

/-! ## Layout and instruction stream -/

/-- The stages put after the compilation of gates (slicer.cpp:455-456, 465-466, 493, 499; none at 507-515). -/
inductive Injection where
  | none
  | boundary (m : ExposedMap)
  | catalytic
  | teleported

/-- slicer.cpp:444-515 and 480-485: the layout, the stages, and whether the layout is one on which edge-disjoint routing may be
used. -/
def chooseStages (a : Args) (p : Pipeline) (n : Nat) : LayoutChoice → Act (Layout × Injection × Bool)
  | .generated .edpc => do
    let ok := p == .edpc && a.loc && a.lanes.getD 1 == 1
    let L ← lift (makeEdpc n (a.lanes.getD 1) (a.condensed.getD false) a.explicit a.noTwists a.options)
    pure (L, if a.noTwists then .catalytic else .teleported, ok)
  | .generated g =>
    if a.noTwists then stop .refused
    else do
      let L ← lift (makeCompact n a.options (g == .compactNoClogging))
      let m ← lift (determineExposed L (coreQubits n))
      pure (L, .boundary m, false)
  | .given L => if a.noTwists && L.predistilled.isEmpty then stop .refused else pure (L, .none, false)

/-- slicer.cpp:439-441 and the stages: the instructions the stream delivers, whether its end was reached, and the next id. -/
def stream (w : World) (m : Mode) (n : Nat) (gs : List Gate) : Injection → Outcome (List Instr × Bool × Nat)
  | .none => (gateMachine m).run w.steps (gs, []) n
  | .teleported => (stage (teleportedExpand (coreQubits n) true) (gateMachine m)).run w.steps ((gs, []), (), []) n
  | .catalytic => (stage (catalyticExpand (coreQubits n) m.loc true) (gateMachine m)).run w.steps ((gs, []), (), []) n
  | .boundary e => (stage (teleportedExpand (coreQubits n) false) (stage boundaryExpand (gateMachine m))).run w.steps (((gs, []), e, []), (), []) n

/-- slicer.cpp:420-423, 440: from the gates to the instructions. -/
def instructions (w : World) (src : Source) (dflt : Placement) (m : Mode) (inj : Injection) : Outcome (List Instr × Bool) := do
  let (gs, b1) ← src.gates w dflt
  let (ds, b2) ← DecStream.run w.approx w.steps ⟨gs, []⟩
  let (out, b3, _) ← stream w m src.size ds inj
  .ok (out, b1 && b2 && b3)

/-- What `run_through_dense_slices` is called with (slicer.cpp:652-665), and how the output is to look. -/
structure Job where
  layout : Layout
  size : Nat
  program : Outcome (List Instr × Bool)
  pipeline : Pipeline
  loc : Bool
  twists : Bool
  opIds : Bool
  cached : Bool
  provider : Provider
  report : Report
  lli : LliPrint

/-- slicer.cpp:412-441: what is done with the stream of gates before the layout is made. -/
def correctionsOf (a : Args) (w : World) (s : Settings) (src : Source) : Act Bool :=
  if s.dag = .input then do
    let (gs, b) ← lift (src.gates w w.dflt)
    let t ← lift (Dag.gateGraph gs)
    stop (if b then .graph t else .unfollowed)
  else oneOf correctionModes false a.corrections

/-- slicer.cpp:518-550: listings and graphs. -/
def lliMode (a : Args) (s : Settings) (program : Outcome (List Instr × Bool)) : Act LliPrint := do
  let lli ← oneOf lliPrints .none a.printLli
  if lli = .before then do
    let (p, b) ← lift program
    let t ← lift (Lli.printAll p)
    stop (if b then .listing t else .unfollowed)
  else if s.dag = .processed then do
    let (p, b) ← lift program
    let t ← lift (Dag.lliGraph p)
    stop (if b then .graph t else .unfollowed)
  else pure lli

/-- slicer.cpp:238-590. -/
def prepare (a : Args) (w : World) : Act Job := do
  let s ← settings a w
  let src ← lift (openSource w s)
  let always ← correctionsOf a w s src
  let (L, inj, ok) ← chooseStages a s.pipeline src.size s.layout
  let dflt := if L.ancilla.isEmpty then .nextToTarget else w.dflt
  let program := instructions w src dflt ⟨src.reg, always, a.loc⟩ inj
  if s.pipeline == .edpc && !ok then lift .throws
  else do
    let lli ← lliMode a s program
    let cached ← oneOf routers false a.router
    let provider ← oneOf providers .djikstra a.search
    pure {
      layout := L
      size := src.size
      program := program
      pipeline := s.pipeline
      loc := a.loc
      twists := !a.noTwists
      opIds := a.opIds || s.format == .pandora
      cached := cached
      provider := provider
      report := s.report
      lli := lli }

/-! ## Slicing -/

/-- How far the run has come: not finished within the steps followed, finished, or stopped by an exception. -/
inductive Phase where
  | running | finished | failed
  deriving DecidableEq, Repr

/-- What the visitors were shown, and the counts of `DensePatchComputationResult`. -/
structure Ran where
  obs : List (Obs DSlice)
  read : Nat
  count : Nat
  phase : Phase

/-- The slices without the rest of the state. -/
def bare {ρ : Type} : List (Obs (Mach ρ)) → List (Obs DSlice)
  | [] => []
  | .instr i :: l => .instr i :: bare l
  | .slice m :: l => .slice m.slice :: bare l

def instrCount {σ : Type} (l : List (Obs σ)) : Nat := l.countP fun o => match o with
  | .instr _ => true
  | .slice _ => false

/-- The wave scheduler counts dependencies in a byte; `client_patches` is a set. -/
def fitsWave (P : List Instr) : Bool := P.all fun i => decide i.clients.Nodup && decide (i.deps.length ≤ 255)

/-- dense_patch_computation.cpp:1660-1714. The counts of instructions: 1470, 1553, 1581, wave_scheduler.cpp:124, 292. Nothing is said about
programs the wave scheduler cannot hold. -/
def pipeline {ρ : Type} (w : World) (ctx : Ctx ρ) (rs : ρ) (p : Pipeline) (ids : List Nat) (P : List Instr) : Outcome (Option Ran) := do
  let s ← DSlice.init ctx.layout ids
  match p with
  | .stream => do
    let (c, st) ← srun (Real.env ctx w.realloc) w.steps (sstart ⟨s, rs, 1⟩ P)
    .ok (some ⟨bare (st.events.filterMap Ev.obs), st.read, st.count, match c with
      | .go => .running
      | .finished => .finished
      | .failed => .failed⟩)
  | .dag => do
    let st ← dstart ⟨s, rs, 1⟩ P
    let (b, st) ← drun (Real.env ctx w.realloc) w.steps st
    .ok (some ⟨bare st.obs, instrCount st.obs, st.count, if b then .finished else .running⟩)
  | _ =>
    if fitsWave P then do
      let (b, x) ← wrun (Real.env ctx w.realloc) w.depth w.steps ⟨start ⟨s, rs, 1⟩ P, 1, [], []⟩
      .ok (some ⟨bare x.obs, instrCount x.obs, x.count, if b then .finished else .running⟩)
    else .ok none

/-- What a pipeline needs besides the router. -/
def Job.ctx {ρ : Type} (j : Job) (w : World) (r : RouterI ρ) : Ctx ρ :=
  { localInstrs := j.loc, twists := j.twists, genIds := j.opIds, asserts := w.asserts, layout := j.layout, router := r }

/-- slicer.cpp:557-587, router.hpp:46-55 and 85-89, wave_scheduler.cpp:18-21: the pipeline with the chosen router. Nothing is said about
Boost when it is not compiled in. -/
def slice (w : World) (j : Job) (P : List Instr) : Outcome (Option Ran) :=
  if j.pipeline = .edpc then
    if j.cached || j.provider == .boost then .throws
    else pipeline w (j.ctx w (Router.dpRouter j.layout w.pick (j.provider == .astar) true)) () .edpc (coreQubits j.size) P
  else match j.cached, j.provider with
    | false, .boost => match w.boost with
      | some pick => pipeline w (j.ctx w (Boost.boostRouter j.layout pick)) () j.pipeline (coreQubits j.size) P
      | none => .ok none
    | true, .boost => match w.boost with
      | some pick => pipeline w (j.ctx w (Boost.storedRouter j.layout pick)) (fun _ => none) j.pipeline (coreQubits j.size) P
      | none => .ok none
    | false, v => pipeline w (j.ctx w (Router.dpRouter j.layout w.pick (v == .astar) false)) () j.pipeline (coreQubits j.size) P
    | true, v => pipeline w (j.ctx w (Router.cachedRouter j.layout w.pick (v == .astar))) (fun _ => none) j.pipeline (coreQubits j.size) P

/-- The first slice has been made and nothing has been shown when the exception comes; the counts are the initial ones (dense_patch_computation.hpp:33-34). -/
def nothing : Ran := ⟨[], 0, 1, .failed⟩

/-- The pipeline up to an exception that leaves it, if there is one (dense_patch_computation.cpp:1641-1714); `late` says which slices come too late. -/
def pipelineT {ρ : Type} (w : World) (late : Nat → Bool) (ctx : Ctx ρ) (rs : ρ) (p : Pipeline) (ids : List Nat) (P : List Instr) : Option Ran :=
  match DSlice.init ctx.layout ids with
  | .ok s => match p with
    | .stream => match srunT (Real.env ctx w.realloc) late w.steps (sstart ⟨s, rs, 1⟩ P) with
      | .ok (none, st) => some ⟨bare (st.events.filterMap Ev.obs), st.read, st.count, .failed⟩
      | _ => none
    | .dag => match dstart ⟨s, rs, 1⟩ P with
      | .throws => some nothing
      | .ok st => match drunT (Real.env ctx w.realloc) late w.steps st with
        | .ok (none, st) => some ⟨bare st.obs, instrCount st.obs, st.count, .failed⟩
        | _ => none
      | .ub => none
    | _ => if fitsWave P then match wrunT (Real.env ctx w.realloc) late w.depth w.steps ⟨start ⟨s, rs, 1⟩ P, 1, [], []⟩ with
        | .ok (none, x) => some ⟨bare x.obs, instrCount x.obs, x.count, .failed⟩
        | _ => none
      else none
  | _ => none

/-- The pipeline with the chosen router, up to an exception; see `slice`. -/
def sliceT (w : World) (late : Nat → Bool) (j : Job) (P : List Instr) : Option Ran :=
  if j.pipeline = .edpc then
    if j.cached || j.provider == .boost then some nothing
    else pipelineT w late (j.ctx w (Router.dpRouter j.layout w.pick (j.provider == .astar) true)) () .edpc (coreQubits j.size) P
  else match j.cached, j.provider with
    | false, .boost => match w.boost with
      | some pick => pipelineT w late (j.ctx w (Boost.boostRouter j.layout pick)) () j.pipeline (coreQubits j.size) P
      | none => none
    | true, .boost => match w.boost with
      | some pick => pipelineT w late (j.ctx w (Boost.storedRouter j.layout pick)) (fun _ => none) j.pipeline (coreQubits j.size) P
      | none => none
    | false, v => pipelineT w late (j.ctx w (Router.dpRouter j.layout w.pick (v == .astar) false)) () j.pipeline (coreQubits j.size) P
    | true, v => pipelineT w late (j.ctx w (Router.cachedRouter j.layout w.pick (v == .astar))) (fun _ => none) j.pipeline (coreQubits j.size) P

/-! ## What is written -/

/-- Where it is written: with `-o` to a file, otherwise to the output stream the program was given; the output stream; the standard output. -/
inductive Chan where
  | bulk | out | cout
  deriving DecidableEq, Repr

/-- slicer.cpp:590. -/
def prints (a : Args) (j : Job) : Bool := !a.noSlices && j.lli == .none

/-- slicer.cpp:591-605. -/
def drawing (a : Args) (j : Job) (k : Nat) (s : DSlice) : Outcome (List (Chan × Str)) :=
  if prints a j then do
    let d ← Json.sliceJson j.layout s
    .ok [(.bulk, (if k = 0 then "[\n".toList else ",\n".toList) ++ Json.dump 0 d)]
  else .ok []

/-- slicer.cpp:608-622. -/
def progressLine (w : World) (j : Job) (k : Nat) : List (Chan × Str) :=
  if j.report = .progress ∧ w.tick k then [(.out, "Slice count: ".toList ++ showNat (k + 1) ++ ['\r'])] else []

/-- slicer.cpp:641-647, 688-689. -/
def lineEnd (j : Job) : List (Chan × Str) := if j.lli = .sliced then [(.bulk, ['\n'])] else []

/-- slicer.cpp:606-648: what is written for a call of one of the visitors; `k` slices have been shown before. -/
def visit (a : Args) (w : World) (j : Job) (k : Nat) : Obs DSlice → Outcome (List (Chan × Str))
  | .instr i => if j.lli = .sliced then do
      let t ← Lli.printOp i.op
      .ok [(.bulk, t ++ [';'])]
    else .ok []
  | .slice s => do
    let x ← drawing a j k s
    .ok (x ++ progressLine w j k ++ lineEnd j)

def visitAll (a : Args) (w : World) (j : Job) : Nat → List (Obs DSlice) → Outcome (List (Chan × Str))
  | _, [] => .ok []
  | k, o :: l => do
    let x ← visit a w j k o
    let y ← visitAll a w j (match o with | .instr _ => k | .slice _ => k + 1) l
    .ok (x ++ y)

/-- The slices shown. -/
def shown : List (Obs DSlice) → List DSlice
  | [] => []
  | .instr _ :: l => shown l
  | .slice s :: l => s :: shown l

/-- slice_stats.cpp:5-26 `operator<<`; how a percentage is written is a parameter. -/
def statsText (w : World) (v : Stats.Volume) : Str :=
  "Total volume: ".toList ++ showNat v.volume ++ "\nDistillation volume: ".toList ++ part v.distillation ++ "Unused routing volume: ".toList ++ part v.unused ++
    "Dead volume: ".toList ++ part v.dead ++ "Other active volume: ".toList ++ part v.other
where
  part (x : Nat) : Str := showNat x ++ " (".toList ++ w.percent x v.volume ++ "%)\n".toList

/-- slicer.cpp:667-684. -/
def reportText (a : Args) (w : World) (j : Job) (r : Ran) : Outcome (List (Chan × Str)) :=
  if !a.reports then .ok []
  else match j.report with
    | .machine => .ok [(.out, showNat r.read ++ ',' :: showNat r.count ++ ',' :: w.elapsed ++ ['\n'])]
    | .noProgress => .ok []
    | .progress => .ok [(.out, summary r)]
    | .stats => do
      let v ← Stats.totals j.layout (shown r.obs) {}
      .ok [(.out, summary r ++ statsText w v)]
where
  summary (r : Ran) : Str := "LS Instructions read  ".toList ++ showNat r.read ++ "\nSlices ".toList ++ showNat r.count ++ "\nMade patch computation. Took ".toList ++ w.elapsed ++ "s.\n".toList

/-- slicer.cpp:686-689. -/
def closing (a : Args) (j : Job) : List (Chan × Str) :=
  (if prints a j then [(.bulk, "]\n".toList)] else []) ++ lineEnd j

/-- dense_patch_computation.cpp:1721-1726; the text of the exception is a parameter. -/
def halted (w : World) : List (Chan × Str) := [(.cout, "Encountered exception: ".toList ++ w.message ++ "\nHalting slicing\n".toList)]

/-- Everything that is written in order, from the visitors, after an exception that was caught, in the report, and at the end. -/
def transcript (a : Args) (w : World) (j : Job) (r : Ran) : Outcome (List (Chan × Str)) := do
  let x ← visitAll a w j 0 r.obs
  match r.phase with
  | .running => .ok x
  | _ => do
    let y ← reportText a w j r
    .ok (x ++ (if r.phase = .failed then halted w else []) ++ y ++ closing a j)

/-! ## The program -/

/-- What becomes of a call of the program: it ended before slicing, or the slicing came so far, or an exception was caught when the slicing had come so far; or
the model says nothing. -/
inductive Result where
  | stopped (s : Stop)
  | sliced (j : Job) (P : List Instr) (r : Ran) (t : List (Chan × Str))
  | caught (j : Job) (P : List Instr) (r : Ran) (t : List (Chan × Str))
  | unknown

/-- dense_patch_computation.cpp:1641-1658: a slice is shown too late. -/
def outOfTime (a : Args) (w : World) (r : Ran) : Bool := a.timeout.isSome && (List.range (shown r.obs).length).any w.late

/-- dense_patch_computation.cpp:1716-1731: the slicing with its exceptions. With `--graceful`, if there is no first slice (all pipelines make it before anything is
shown), nothing is shown and the counts are the initial ones (dense_patch_computation.hpp:33-34); for other exceptions that are caught see `rescue`. -/
def ran (a : Args) (w : World) (j : Job) (P : List Instr) : Outcome (Option Ran) :=
  match slice w j P with
  | .throws =>
    if a.graceful then match DSlice.init j.layout (coreQubits j.size) with
      | .throws => .ok (some ⟨[], 0, 1, .failed⟩)
      | _ => .ok none
    else .throws
  | x => x

/-- A visitor throws. -/
def unseen (a : Args) (w : World) (j : Job) (r : Ran) : Bool := match visitAll a w j 0 r.obs with
  | .throws => true
  | _ => false

/-- Which slices come too late. -/
def clock (a : Args) (w : World) : Nat → Bool := fun k => a.timeout.isSome && w.late k

/-- dense_patch_computation.cpp:1716-1731: with `--graceful`, an exception that leaves the pipeline is caught, and the report and the end are written as ever. Nothing is said
about exceptions in the visitors of the program; there are none (`unseen_never`). -/
def rescue (a : Args) (w : World) (j : Job) (P : List Instr) : Outcome Result :=
  match a.graceful, sliceT w (clock a w) j P with
  | true, some r =>
    if unseen a w j r then .ok .unknown
    else do
      let t ← transcript a w j r
      .ok (.caught j P r t)
  | _, _ => .ok .unknown

/-- slicer.cpp:650-691 with dense_patch_computation.cpp:1639-1732. -/
def perform (a : Args) (w : World) (j : Job) : Outcome Result :=
  match j.program with
  | .ok (P, b) =>
    if !b then .ok .unknown
    else match ran a w j P with
      | .ok none => rescue a w j P
      | .ok (some r) =>
        if outOfTime a w r then (if a.graceful then rescue a w j P else .throws)
        else if r.phase = .failed ∧ a.graceful = false then .throws
        else if a.graceful && unseen a w j r then .ok .unknown
        else do
          let t ← transcript a w j r
          .ok (.sliced j P r t)
      | .throws => .throws
      | .ub => .ub
  | .throws => if a.graceful then .ok .unknown else .throws
  | .ub => .ub

/-- slicer.cpp:106-692. -/
def program (a : Args) (w : World) : Outcome Result :=
  match prepare a w with
  | .ok (.ends s) => .ok (.stopped s)
  | .ok (.goes j) => perform a w j
  | .throws => .throws
  | .ub => .ub

/-- What arrives in one place. -/
def arrives (c : Chan → Bool) (t : List (Chan × Str)) : Str := (t.filter fun x => c x.1).flatMap (·.2)

/-- What arrives at the standard output when the program is run from the command line (lsqecc_slicer_main.cpp:8), where the output stream is the
standard output. -/
def stdout (a : Args) (t : List (Chan × Str)) : Str := arrives (fun c => c != .bulk || a.output.isNone) t

/-- What arrives where the slices are written. -/
def bulk (t : List (Chan × Str)) : Str := arrives (· == .bulk) t

end Verif.Slicer
