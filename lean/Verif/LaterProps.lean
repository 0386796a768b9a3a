import Verif.LaterReal
import Verif.PlayProps
import Verif.WaveProps

/-! # Follow-ups in the wave pipeline, and rotations in the DAG pipeline (C52) -/

namespace Verif.Pipe.Spec

open Verif.Wave Verif.Wave.Spec Verif.Pipe

section
variable {σ : Type} {env : Env σ} {stage : Operation → Stage}

theorem start_queued (slice : σ) (prog : List Instr) (hp : Fits prog) : Queued (start slice prog) := by
  obtain ⟨l, h⟩ := start_built slice prog hp
  refine ⟨?_, h.deferred, by rw [h.nxt], by rw [h.nxt], by rw [h.nxt]⟩
  intro x hx
  rw [h.prox, List.nil_append] at hx
  have := ((h.heads x).1 hx).1
  have := h.size
  omega

theorem runWaves_queued (hk : KeepsKind env) {depth : Nat} (n : Nat) : ∀ {st st' : St σ} {k : Nat}, Queued st → runWaves env depth n st = .ok (st', k) → Queued st' := by
  induction n with
  | zero => intro st st' k hq h; cases h; exact hq
  | succ n ih =>
    intro st st' k hq h
    rw [runWaves] at h
    split at h
    · cases h; exact hq
    · obtain ⟨s1, h1, h⟩ := Outcome.bind_eq_ok.1 h
      obtain ⟨s2, h2, h⟩ := Outcome.bind_eq_ok.1 h
      obtain ⟨⟨s3, k3⟩, h3, h⟩ := Outcome.bind_eq_ok.1 h
      cases h
      have hq1 := (scheduleWave_within hk hq h1).1
      exact ih (st := { s1 with slice := s2 }) hq1 h3

/-- C52, wave pipeline: what is shown in a wave and is not immediate (busy regions, H and S gates) has been there when the wave
began; if it is a follow-up, then the instruction it stems from was shown in an earlier wave. -/
theorem c52_wave (hP : Protocol env stage) (hk : KeepsKind env) {prog : List Instr} (hp : Fits prog) (hs : ∀ i ∈ prog, stage i.op = .plain) {slice : σ} {depth n k : Nat}
    {st st' : St σ} (h : runWaves env depth n (start slice prog) = .ok (st, k)) (hw : scheduleWave env depth st = .ok st') :
    ∃ es, st'.log = st.log ++ es ∧ ∀ e ∈ es, isImmediate e.instr ≠ .ok true → e.id < st.size ∧
      (prog.length ≤ e.id → ∃ e0 ∈ st.log, e0.followups ≠ [] ∧ e0.followups ≠ [e0.instr] ∧ e0.id < e.id ∧ st.origin e0.id = st.origin e.id) := by
  obtain ⟨-, -, es, h1, h2⟩ := scheduleWave_within hk (runWaves_queued hk n (start_queued slice prog hp) h) hw
  refine ⟨es, h1, fun e he hi => ?_⟩
  have hlt : e.id < st.size := by
    rcases h2 e he with h3 | h3
    · exact h3
    · exact absurd h3 hi
  refine ⟨hlt, fun hN => ?_⟩
  obtain ⟨-, e0, h3, h4, h5, h6, h7⟩ := (c22_origins hP hp hs h).2 e.id hN hlt
  exact ⟨e0, h3, h5, h4, h6, h7⟩

end

end Verif.Pipe.Spec

namespace Verif.Real.Spec

open Verif Apply Verif.Wave Verif.Wave.Spec Verif.Pipe Verif.Pipe.Spec Verif.Slices.Spec

section
variable {ρ : Type} {ctx : Ctx ρ} {realloc : Nat → Bool}

theorem keeps_kind (ctx : Ctx ρ) (realloc : Nat → Bool) : KeepsKind (env ctx realloc) := fun _ _ _ h => kind_apply h

/-- C52 for the code, wave pipeline without EDPC: the steps of a rotation are shown in different waves, each after the one it
follows. -/
theorem c52_code_wave (hd : ctx.router.edpc = false) {prog : List Instr} (hp : Wave.Spec.Fits prog) {m : Mach ρ} {depth n k : Nat} {st st' : St (Mach ρ)}
    (h : runWaves (env ctx realloc) depth n (start m prog) = .ok (st, k)) (hw : scheduleWave (env ctx realloc) depth st = .ok st') :
    ∃ es, st'.log = st.log ++ es ∧ ∀ e ∈ es, (∃ reg steps after, e.instr.op = .busy reg steps after) → e.id < st.size ∧
      (prog.length ≤ e.id → ∃ e0 ∈ st.log, e0.followups ≠ [] ∧ e0.followups ≠ [e0.instr] ∧ e0.id < e.id ∧ st.origin e0.id = st.origin e.id) := by
  obtain ⟨es, h1, h2⟩ := c52_wave (protocol_plain ctx realloc hd) (keeps_kind ctx realloc) hp (fun _ _ => rfl) h hw
  refine ⟨es, h1, fun e he hb => h2 e he ?_⟩
  obtain ⟨reg, steps, after, hb⟩ := hb
  unfold isImmediate
  rw [hb]
  simp

/-- C52 for the code with EDPC, for runs in which no CNOT that has its route meets a busy end patch. -/
theorem c52_edpc_wave_partial (hd : ctx.router.edpc = true) {prog : List Instr} (hp : Wave.Spec.Fits prog) (hs : ∀ i ∈ prog, Plain i) {m : Mach ρ} {depth n k : Nat} {st st' : St (Mach ρ)}
    (h : runWaves (careful ctx realloc) depth n (start m prog) = .ok (st, k)) (hw : scheduleWave (careful ctx realloc) depth st = .ok st') :
    scheduleWave (env ctx realloc) depth st = .ok st' ∧
    ∃ es, st'.log = st.log ++ es ∧ ∀ e ∈ es, (∃ reg steps after, e.instr.op = .busy reg steps after) → e.id < st.size ∧
      (prog.length ≤ e.id → ∃ e0 ∈ st.log, e0.followups ≠ [] ∧ e0.followups ≠ [e0.instr] ∧ e0.id < e.id ∧ st.origin e0.id = st.origin e.id) := by
  obtain ⟨es, h1, h2⟩ := c52_wave (protocol_edpc ctx realloc hd) (fun _ _ _ h => kind_apply (careful_apply h).2) hp (fun i hi => plain_passed (hs i hi)) h hw
  refine ⟨scheduleWave_below (careful_below ctx realloc) hw, es, h1, fun e he hb => h2 e he ?_⟩
  obtain ⟨reg, steps, after, hb⟩ := hb
  unfold isImmediate
  rw [hb]
  simp

/-! ### Examples -/

/-- The last wave but one of the example: the busy region of record 5 is shown, whose rotation was shown before. -/
example : Wave.Spec.Fits exProg ∧ exCtx.router.edpc = false ∧
    view (do let m ← exMach; let x ← runWaves (env exCtx (fun _ => false)) 10 2 (start m exProg); let y ← scheduleWave (env exCtx (fun _ => false)) 10 x.1; .ok (x.1, y))
      (fun x => (x.1.size, x.1.log.length, x.2.log.map (fun e => (e.id, (match e.instr.op with | .busy _ k _ => some k | _ => none))))) =
    some (6, 5, [(0, none), (1, none), (4, some 2), (2, none), (3, none), (5, some 1)]) := by
  refine ⟨?_, rfl, by decide +kernel⟩
  unfold Wave.Spec.Fits; decide

/-- C52 with C31, the code in the DAG pipeline: a rotation that takes three slices in the streamed pipeline is over after two,
as two of its steps are executed between two slices. -/
theorem c52_code_dag_wrong :
    view (do let m ← exMach; let s ← dstart m [{ op := .rotate 7 }]; drun (env exCtx (fun _ => false)) 30 s)
      (fun x => (x.1, x.2.seen.map (fun m => m.slice.cellById 7))) = some (true, [none, none, some ⟨0, 0⟩]) ∧
    view (do let m ← exMach; srun (env exCtx (fun _ => false)) 30 (sstart m [{ op := .rotate 7 }]))
      (fun x => (x.1, (slices (x.2.events.filterMap Ev.obs)).map (fun m => m.slice.cellById 7))) = some (.finished, [none, none, none, some ⟨0, 0⟩]) := by
  constructor <;> decide +kernel

end

end Verif.Real.Spec
