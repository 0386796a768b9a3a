import Verif.Reach
import Verif.RealProps

/-! # What the pipelines show (C56)

The theorems on slices (C28, C30, C31) speak of histories: attempts, advances and resets in some order that respects the
new ids. Here it is proved that every slice handed to the slice visitor by one of the three pipelines has such a
history, so that those theorems speak of what is shown. The conditions `Proper` are on the program alone.
-/

namespace Verif.Real.Spec

open Verif Apply Verif.Wave Verif.Wave.Spec Verif.Pipe Verif.Slices.Spec

section
variable {ρ : Type}

/-- The state whose slice is handed to the slice visitor at some point of a run of one of the three pipelines on the program
`P`, starting with the first slice of the layout. -/
inductive ShownBy (ctx : Ctx ρ) (realloc : Nat → Bool) (ids : List Nat) (P : List Instr) (m : Mach ρ) : Prop
  | streamed {s : DSlice} (hs : DSlice.init ctx.layout ids = .ok s) (rs : ρ) (k n : Nat) {c : Ctl} {st : SSt (Mach ρ)}
      (h : srun (env ctx realloc) n (sstart ⟨s, rs, k⟩ P) = .ok (c, st)) (hm : Ev.slice m ∈ st.events)
  | dag {s : DSlice} (hs : DSlice.init ctx.layout ids = .ok s) (rs : ρ) (k n : Nat) {b : Bool} {st0 st : DSt (Mach ρ)}
      (h0 : dstart ⟨s, rs, k⟩ P = .ok st0) (h : drun (env ctx realloc) n st0 = .ok (b, st)) (hm : m ∈ st.seen)
  | wave {s : DSlice} (hs : DSlice.init ctx.layout ids = .ok s) (rs : ρ) (k n depth : Nat) (hd : ctx.router.edpc = false) (hf : Wave.Spec.Fits P)
      {b : Bool} {w : WSt (Mach ρ)} (h : wrun (env ctx realloc) depth n ⟨start ⟨s, rs, k⟩ P, 1, [], []⟩ = .ok (b, w)) (hm : m ∈ w.shown)

variable {A : Operation → Prop} {ctx : Ctx ρ} {realloc : Nat → Bool} {ids : List Nat} {P : List Instr} {m : Mach ρ}

theorem started_history {w : List (Nat × Instr)} (h : Started A ctx ids P m w) : ∃ w, History A ctx ids m w := by
  obtain ⟨U, S, h⟩ := h
  exact ⟨_, h.hist⟩

/-- C56: every slice shown by the streamed pipeline, the DAG pipeline, or the wave pipeline without EDPC has a history. -/
theorem c56_history (hids : ids.Nodup) (hP : Proper A ids P) (h : ShownBy ctx realloc ids P m) : ∃ w, History A ctx ids m w := by
  have hA := started_ambient (ctx := ctx) hids hP realloc
  cases h with
  | streamed hs rs k n h hm =>
    obtain ⟨w, hw⟩ := srun_amb hA (one_followup ctx realloc) (fails_alone ctx realloc) n h (sstart_amb (started_start hids hP hs rs k)) (by simp [sstart]) (by simp [sstart]) m hm
    exact started_history hw
  | dag hs rs k n h0 h hm =>
    obtain ⟨w, hw⟩ := (drun_amb hA (one_followup ctx realloc) n (dstart_amb (started_start hids hP hs rs k) hA.perm h0) h).seen m hm
    exact started_history hw
  | @wave s hs rs k n depth hd hf b w h hm =>
    obtain ⟨w, hw⟩ := wrun_amb hA (start_chained (⟨s, rs, k⟩ : Mach ρ) P hf) (start_static (⟨s, rs, k⟩ : Mach ρ) P hf) (protocol_plain ctx realloc hd) n
      (w := ⟨start ⟨s, rs, k⟩ P, 1, [], []⟩) (start_between (⟨s, rs, k⟩ : Mach ρ) P hf (fun _ _ => rfl) (started_start hids hP hs rs k)) (by simp) h m hm
    exact started_history hw

theorem careful_ambient {Φ : Mach ρ → List (Nat × Instr) → Prop} (h : Ambient (env ctx realloc) P Φ) : Ambient (careful ctx realloc) P Φ :=
  ⟨h.perm, fun h1 h2 h3 => h.apply h1 h2 (careful_apply h3).2, h.waits, h.advance, h.reset⟩

/-- C56 for the wave pipeline with EDPC. Missing: runs in which a CNOT that has its route meets a busy or missing end patch. -/
theorem c56_edpc_partial (hids : ids.Nodup) (hP : Proper A ids P) (hd : ctx.router.edpc = true) (hf : Wave.Spec.Fits P) {s : DSlice} (hs : DSlice.init ctx.layout ids = .ok s)
    (rs : ρ) (k n depth : Nat) {b : Bool} {w : WSt (Mach ρ)} (h : wrun (careful ctx realloc) depth n ⟨start ⟨s, rs, k⟩ P, 1, [], []⟩ = .ok (b, w)) (hm : m ∈ w.shown) :
    ∃ w, History A ctx ids m w := by
  have hA := careful_ambient (started_ambient (ctx := ctx) hids hP realloc)
  obtain ⟨w, hw⟩ := wrun_amb hA (start_chained (⟨s, rs, k⟩ : Mach ρ) P hf) (start_static (⟨s, rs, k⟩ : Mach ρ) P hf) (protocol_edpc ctx realloc hd) n
    (w := ⟨start ⟨s, rs, k⟩ P, 1, [], []⟩) (start_between (⟨s, rs, k⟩ : Mach ρ) P hf (fun i hi => plain_passed (hP.plain i hi).1) (started_start hids hP hs rs k)) (by simp) h m hm
  exact started_history hw

/-- C56 with C28: no id is shown twice on a slice, nothing is shown outside the grid, and looking an id up finds the cell. -/
theorem c56_ids (hids : ids.Nodup) (hP : Proper A ids P) (h : ShownBy ctx realloc ids P m) {c : Cell} {p : DensePatch} (hc : m.slice.cells c = some p) :
    (0 ≤ c.row ∧ c.row < m.slice.rows ∧ 0 ≤ c.col ∧ c.col < m.slice.cols) ∧
    ∀ n, p.id = some n → m.slice.cellById n = some c ∧ ∀ c' p', m.slice.cells c' = some p' → p'.id = some n → c' = c := by
  obtain ⟨w, hw⟩ := c56_history hids hP h
  exact ⟨c28_inside hids hw hc, fun n hn => ⟨c28_found hids hw hc hn, fun c' p' h' hn' => c28_unique hids hw h' hc hn' hn⟩⟩

/-- C56 with C30: on every slice shown, each cell in the queue of magic states holds a magic state that is idle and
belongs to nobody. Missing: programs with long-range CNOTs or Bell pairs. -/
theorem c56_magic_partial (hids : ids.Nodup) (hP : Proper Unrouted ids P) (hsafe : ctx.asserts = true ∨ ctx.layout.magicReserved = false)
    (hpre : ∀ c ∈ ctx.layout.predistilled, c ∉ ctx.layout.reserved ∧ c ∉ ctx.layout.distilled.flatten) (h : ShownBy ctx realloc ids P m) {c : Cell} (hc : c ∈ m.slice.magic) :
    ∃ p, m.slice.cells c = some p ∧ p.type = .preparedState ∧ p.id = none ∧ p.activity = .none := by
  obtain ⟨w, hw⟩ := c56_history hids hP h
  exact c30_queue_partial hsafe hpre hw hc

end

/-! ### Examples -/

/-- Two merges, a rotation, a magic state and a `Y` state that is requested, used and given back. -/
def shownProg : List Instr :=
  [{ op := .magic 20 7 }, { op := .multi [(7, .X), (8, .X)] false none }, { op := .ystate 30 7 none }, { op := .rotate 7 }, { op := .sq 20 .X false },
   { op := .sq 8 .X false }, { op := .ystate 30 7 none }]

def shownCtx : Ctx Unit := { exCtx with layout := { exLayout with predistilled := [⟨1, 0⟩] } }

theorem shown_proper : Proper Unrouted [7, 8] shownProg where
  plain := by
    intro i hi
    simp only [shownProg, List.mem_cons, List.not_mem_nil, or_false] at hi
    rcases hi with rfl | rfl | rfl | rfl | rfl | rfl | rfl <;> exact ⟨trivial, trivial⟩
  nodup := by unfold shownProg; decide
  fresh := by unfold shownProg; decide
  once := by unfold shownProg; decide

/-- What is seen of a slice in the examples: the queue of magic states and where the ids are. -/
def seenAs (m : Mach Unit) : List Cell × List (Option Cell) := (m.slice.magic, [7, 8, 20, 30].map m.slice.cellById)

def shownStreamed : Outcome (Ctl × SSt (Mach Unit)) := do
  let s ← DSlice.init shownCtx.layout [7, 8]
  srun (env shownCtx (fun _ => false)) 40 (sstart ⟨s, (), 1⟩ shownProg)

def shownDag : Outcome (Bool × DSt (Mach Unit)) := do
  let s ← DSlice.init shownCtx.layout [7, 8]
  let d ← dstart ⟨s, (), 1⟩ shownProg
  drun (env shownCtx (fun _ => false)) 40 d

def shownWave : Outcome (Bool × WSt (Mach Unit)) := do
  let s ← DSlice.init shownCtx.layout [7, 8]
  wrun (env shownCtx (fun _ => false)) 10 40 ⟨start ⟨s, (), 1⟩ shownProg, 1, [], []⟩

theorem view_some {α β : Type} {o : Outcome α} {f : α → β} {b : β} (h : view o f = some b) : ∃ a, o = .ok a ∧ f a = b := by
  cases o with
  | ok a => exact ⟨a, rfl, Option.some.inj h⟩
  | throws => cases h
  | ub => cases h

/-- The hypotheses of `c56_history`, `c56_ids` and `c56_magic_partial` are met by the streamed pipeline; on the fifth slice a
magic state is queued, one is bound to id 20, the patch 7 is being rotated and the `Y` state 30 is there. -/
example : [7, 8].Nodup ∧ Proper Unrouted [7, 8] shownProg ∧ (∀ c ∈ shownCtx.layout.predistilled, c ∉ shownCtx.layout.reserved ∧ c ∉ shownCtx.layout.distilled.flatten) ∧
    ∃ m, ShownBy shownCtx (fun _ => false) [7, 8] shownProg m ∧ seenAs m = ([⟨2, 3⟩], [none, some ⟨0, 3⟩, some ⟨2, 2⟩, some ⟨1, 0⟩]) := by
  refine ⟨by decide, shown_proper, by decide, ?_⟩
  have h : view shownStreamed (fun x => (x.2.events.filterMap (fun e => match e with | .slice m => some (seenAs m) | _ => none))[4]?) =
    some (some ([⟨2, 3⟩], [none, some ⟨0, 3⟩, some ⟨2, 2⟩, some ⟨1, 0⟩])) := by decide +kernel
  obtain ⟨⟨c, st⟩, h1, h2⟩ := view_some h
  obtain ⟨e, he, h3⟩ := List.mem_filterMap.1 (List.mem_of_getElem? h2)
  obtain ⟨s, hs, h1⟩ := Outcome.bind_eq_ok.1 h1
  cases e with
  | slice m => exact ⟨m, .streamed hs () 1 40 h1 he, Option.some.inj h3⟩
  | _ => cases h3

/-- The same for the DAG pipeline. -/
example : ∃ m, ShownBy shownCtx (fun _ => false) [7, 8] shownProg m ∧ seenAs m = ([⟨2, 3⟩], [none, some ⟨0, 3⟩, some ⟨2, 2⟩, none]) := by
  have h : view shownDag (fun x => (x.2.seen.map seenAs)[2]?) = some (some ([⟨2, 3⟩], [none, some ⟨0, 3⟩, some ⟨2, 2⟩, none])) := by decide +kernel
  obtain ⟨⟨b, st⟩, h1, h2⟩ := view_some h
  obtain ⟨m, hm, h3⟩ := List.mem_map.1 (List.mem_of_getElem? h2)
  obtain ⟨s, hs, h1⟩ := Outcome.bind_eq_ok.1 h1
  obtain ⟨d, hd, h1⟩ := Outcome.bind_eq_ok.1 h1
  exact ⟨m, .dag hs () 1 40 hd h1 hm, h3⟩

/-- The same for the wave pipeline. -/
example : ∃ m, ShownBy shownCtx (fun _ => false) [7, 8] shownProg m ∧ seenAs m = ([⟨2, 3⟩], [some ⟨0, 0⟩, some ⟨0, 3⟩, some ⟨2, 2⟩, none]) := by
  have h : view shownWave (fun x => (x.2.shown.map seenAs)[4]?) = some (some ([⟨2, 3⟩], [some ⟨0, 0⟩, some ⟨0, 3⟩, some ⟨2, 2⟩, none])) := by decide +kernel
  obtain ⟨⟨b, st⟩, h1, h2⟩ := view_some h
  obtain ⟨m, hm, h3⟩ := List.mem_map.1 (List.mem_of_getElem? h2)
  obtain ⟨s, hs, h1⟩ := Outcome.bind_eq_ok.1 h1
  exact ⟨m, .wave hs () 1 40 10 rfl (by unfold Wave.Spec.Fits; decide) h1 hm, h3⟩

/-- The hypotheses of `c56_edpc_partial` are met: a CNOT is routed, compiled and placed under EDPC. -/
example : Proper (fun _ => True) [7, 8] [laneCnot, { op := .sq 8 .X false }] ∧ Wave.Spec.Fits [laneCnot, { op := .sq 8 .X false }] ∧ (laneCtx true).router.edpc = true ∧
    view (do let s ← DSlice.init laneLayout [7, 8]; wrun (careful (laneCtx true) (fun _ => false)) 10 20 ⟨start ⟨s, (), 1⟩ [laneCnot, { op := .sq 8 .X false }], 1, [], []⟩)
      (fun x => (x.1, x.2.shown.length)) = some (true, 3) := by
  refine ⟨⟨?_, by unfold laneCnot; decide, by unfold laneCnot; decide, by unfold laneCnot; decide⟩, by unfold Wave.Spec.Fits; decide, rfl, by decide +kernel⟩
  intro i hi
  simp only [List.mem_cons, List.not_mem_nil, or_false] at hi
  rcases hi with rfl | rfl
  · exact ⟨⟨rfl, rfl, rfl, rfl⟩, trivial⟩
  · exact ⟨trivial, trivial⟩

end Verif.Real.Spec
