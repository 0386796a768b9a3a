import Verif.CourseRun
import Verif.SlicerWhole
import Verif.SlicerExamples

/-! # Each instruction is carried out in full, step by step (C68) -/

namespace Verif.Course.Spec

open Verif Apply Verif.Wave Verif.Wave.Spec Verif.Pipe Verif.Pipe.Spec Verif.Real Verif.Real.Spec Verif.Slices.Spec

section
variable {ρ : Type} {ctx : Ctx ρ} {realloc : Nat → Bool} {P : List Instr} {m : Mach ρ}

/-- C68 for the streamed pipeline: at any time each instruction shown is a step of one instruction of the program, and what is shown of an
instruction is a beginning of the steps in which it is carried out in full. When all is finished, it is all of them. -/
theorem c68_streamed (hP : ∀ i ∈ P, Plain i) {n : Nat} {c : Ctl} {st : SSt (Mach ρ)} (h : srun (env ctx realloc) n (sstart m P) = .ok (c, st)) :
    ∃ tags, Carried ctx.router.edpc P (instrs (st.events.filterMap Ev.obs)) (c = .finished) tags :=
  srun_carried (fun _ _ _ h _ _ hg => going_apply h hg) (one_followup ctx realloc) (fails_alone ctx realloc) hP h

/-- C68 for the DAG pipeline. -/
theorem c68_dag (hP : ∀ i ∈ P, Plain i) {n : Nat} {b : Bool} {st0 st : DSt (Mach ρ)} (h0 : dstart m P = .ok st0) (h : drun (env ctx realloc) n st0 = .ok (b, st)) :
    ∃ tags, Carried ctx.router.edpc P (instrs st.obs) (b = true) tags :=
  drun_carried (fun _ _ _ h _ _ hg => going_apply h hg) (one_followup ctx realloc) hP h0 h

/-- C68 for the wave pipeline without EDPC. -/
theorem c68_wave (hP : ∀ i ∈ P, Plain i) (hd : ctx.router.edpc = false) (hf : Fits P) {depth n : Nat} {b : Bool} {w : WSt (Mach ρ)}
    (h : wrun (env ctx realloc) depth n ⟨start m P, 1, [], []⟩ = .ok (b, w)) : ∃ tags, Carried false P (instrs w.obs) (b = true) tags := by
  have := wrun_carried (e := ctx.router.edpc) (fun _ _ _ h _ _ hg => going_apply h hg) (protocol_plain ctx realloc hd) hf (fun _ _ => rfl) hP h
  rwa [hd] at this

/-- C68 for the wave pipeline with EDPC. Missing: a CNOT whose third set of local instructions is empty is given up without the fourth one (`c68_dropped`); and
runs in which a CNOT that has its route meets a busy or missing end patch. -/
theorem c68_edpc_partial (hP : ∀ i ∈ P, Plain i) (hd : ctx.router.edpc = true) (hf : Fits P) {depth n : Nat} {b : Bool} {w : WSt (Mach ρ)}
    (h : wrun (careful ctx realloc) depth n ⟨start m P, 1, [], []⟩ = .ok (b, w)) : ∃ tags, Carried true P (instrs w.obs) (b = true) tags := by
  have := wrun_carried (e := ctx.router.edpc) (fun _ _ _ h _ _ hg => going_apply (careful_apply h).2 hg) (protocol_edpc ctx realloc hd) hf (fun i hi => plain_passed (hP i hi)) hP h
  rwa [hd] at this

end

/-! ### With EDPC a CNOT can be left unfinished -/

/-- Six qubits around free cells. -/
def ringLayout : Layout :=
  match Layouts.fromText "rQQr\nrrrr\nQrrQ\nrrrr\nrQQr".toList {} with
  | .ok L => L
  | _ => { furthest := ⟨0, 0⟩ }

def ringCtx : Ctx Unit :=
  { localInstrs := true, twists := true, genIds := true, asserts := true, layout := ringLayout, router := Router.dpRouter ringLayout Router.pickMin false true }

def ringCnot (c t k : Nat) : Instr := { op := .bellCnot { control := c, target := t, side1 := k, side2 := k + 1 } }

def ringProg : List Instr := [ringCnot 5 3 100, ringCnot 1 4 102, ringCnot 0 2 104]

def ringRun : Outcome (Bool × WSt (Mach Unit)) := do
  let s ← DSlice.init ringLayout (List.range 6)
  wrun (env ringCtx (fun _ => false)) 100 60 ⟨start ⟨s, (), 0⟩ ringProg, 1, [], []⟩

/-- The local instructions compiled for a CNOT, as they are shown. -/
def compiledFor (c t : Nat) (i : Instr) : List LocalInstr :=
  match i.op with
  | .bellCnot x => if x.control = c ∧ x.target = t then (x.localSets.getD []).flatten else []
  | _ => []

def ringView (x : Bool × WSt (Mach Unit)) : Bool × Bool × Bool :=
  let li : LocalInstr := .mergeContract ⟨0, 2⟩ ⟨1, 2⟩
  (x.1, (instrs x.2.obs).any (fun i => decide (li ∈ compiledFor 1 4 i)), (instrs x.2.obs).any fun i => decide (li ∈ performed i.op))

/-- C68 does not hold with EDPC: the run ends with nothing left to do, although a local instruction compiled for one of the CNOTs, the one that
is to bring the route to its target, is carried out by no step. -/
theorem c68_dropped : ∃ (s : DSlice) (w : WSt (Mach Unit)) (li : LocalInstr), DSlice.init ringCtx.layout (List.range 6) = .ok s ∧ Fits ringProg ∧ (∀ i ∈ ringProg, Plain i) ∧
    wrun (env ringCtx (fun _ => false)) 100 60 ⟨start ⟨s, (), 0⟩ ringProg, 1, [], []⟩ = .ok (true, w) ∧
    (∃ i ∈ instrs w.obs, li ∈ compiledFor 1 4 i) ∧ ∀ i ∈ instrs w.obs, li ∉ performed i.op := by
  obtain ⟨⟨b, w⟩, h1, h2⟩ := of_view ringRun ringView (true, true, false) (by decide +kernel)
  obtain ⟨s, h3, h4⟩ := Outcome.bind_eq_ok.1 h1
  simp only [ringView, Prod.mk.injEq] at h2
  obtain ⟨rfl, h5, h6⟩ := h2
  refine ⟨s, w, .mergeContract ⟨0, 2⟩ ⟨1, 2⟩, h3, ?_, ?_, h4, ?_, ?_⟩
  · intro i hi; revert i; decide
  · intro i hi
    simp only [ringProg, List.mem_cons, List.mem_nil_iff, or_false] at hi
    rcases hi with rfl | rfl | rfl <;> simp [Plain, ringCnot]
  · obtain ⟨i, hi, h⟩ := List.any_eq_true.1 h5
    exact ⟨i, hi, of_decide_eq_true h⟩
  · intro i hi h
    exact List.any_eq_false.1 h6 i hi (decide_eq_true h)

/-! ### The slicer program -/

section
open Verif.Slicer Verif.Slicer.Spec Verif.Compiled.Spec

theorem instrs_bare {ρ : Type} (A : List (Obs (Mach ρ))) : instrs (bare A) = instrs A := by
  induction A with
  | nil => rfl
  | cons o A ih => cases o <;> simp_all [bare, instrs]

theorem pipeline_carried {ρ : Type} {w : World} {ctx : Ctx ρ} {rs : ρ} {p : Pipeline} {ids : List Nat} {P : List Instr} {r : Ran} (hd : ctx.router.edpc = false)
    (hP : ∀ i ∈ P, Plain i) (h : pipeline w ctx rs p ids P = .ok (some r)) : ∃ tags, Carried false P (instrs r.obs) (r.phase = .finished) tags := by
  obtain ⟨s, hs, h⟩ := Outcome.bind_eq_ok.1 h
  have hb : ∀ b : Bool, ((if b then Phase.finished else Phase.running) = .finished) = (b = true) := by decide
  have wave : (if fitsWave P = true then do
        let (b, x) ← wrun (env ctx w.realloc) w.depth w.steps ⟨start ⟨s, rs, 1⟩ P, 1, [], []⟩
        .ok (some (⟨bare x.obs, instrCount x.obs, x.count, if b then .finished else .running⟩ : Ran))
      else .ok none) = .ok (some r) → ∃ tags, Carried false P (instrs r.obs) (r.phase = .finished) tags := by
    intro h
    split at h
    · rename_i hf
      obtain ⟨⟨b, x⟩, h1, h⟩ := Outcome.bind_eq_ok.1 h
      cases h
      dsimp only
      rw [instrs_bare, hb]
      refine c68_wave hP hd ?_ h1
      unfold fitsWave at hf
      rw [List.all_eq_true] at hf
      intro i hi
      have := hf i hi
      simpa using this
    · cases h
  cases p with
  | stream =>
    obtain ⟨⟨c, st⟩, h1, h⟩ := Outcome.bind_eq_ok.1 h
    cases h
    dsimp only
    have := c68_streamed hP h1
    rw [hd] at this
    rw [instrs_bare]
    cases c <;> simpa using this
  | dag =>
    obtain ⟨st0, h0, h⟩ := Outcome.bind_eq_ok.1 h
    obtain ⟨⟨b, st⟩, h1, h⟩ := Outcome.bind_eq_ok.1 h
    cases h
    dsimp only
    have := c68_dag hP h0 h1
    rw [hd] at this
    rw [instrs_bare, hb]
    exact this
  | wave => exact wave h
  | edpc => exact wave h

/-- C68 for the slicer program without EDPC, whatever its other options and its input: each step it shows is a step of one of the instructions it has
compiled, and if it finishes, it has carried out each of these in full. -/
theorem c68_slicer {a : Args} {w : World} {j : Job} {P : List Instr} {r : Ran} {t : List (Chan × Str)} (h : program a w = .ok (.sliced j P r t)) (he : a.pipeline ≠ some "edpc".toList) :
    ∃ tags, Carried false P (instrs r.obs) (r.phase = .finished) tags := by
  obtain ⟨h1, h2, h3, -⟩ := program_sliced h
  obtain ⟨-, -, -, v4, -⟩ := chosen_values h1
  obtain ⟨m, ex, gs, hc⟩ := (prepared h1).program P h2
  have hP : ∀ i ∈ P, Plain i := fun i hi => (Stream.sound_iff.1 ((Stream.compiled_block hc).sound i hi)).1
  have hn : j.pipeline ≠ .edpc := fun e => he (v4.1 e)
  unfold ran at h3
  split at h3
  · split at h3
    · split at h3
      · cases h3
        exact ⟨[], rfl, by simp, fun k x _ => .inl ⟨rfl, by simp⟩, .nil⟩
      · cases h3
    · cases h3
  unfold slice at h3
  rw [if_neg hn] at h3
  split at h3
  · split at h3
    · exact pipeline_carried rfl hP h3
    · cases h3
  · split at h3
    · exact pipeline_carried rfl hP h3
    · cases h3
  · exact pipeline_carried rfl hP h3
  · exact pipeline_carried rfl hP h3

end

end Verif.Course.Spec
