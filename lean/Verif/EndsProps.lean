import Verif.EndsLemmas

/-! # Slicing comes to an end (C69) -/

namespace Verif.Ends

open Verif Apply Verif.Wave Verif.Wave.Spec Verif.Pipe Verif.Pipe.Spec Verif.Real Verif.Slices.Spec Verif.Course.Spec

namespace Spec

section
variable {ρ : Type} {ctx : Ctx ρ} {realloc : Nat → Bool} {P : List Instr} {m : Mach ρ}

/-- C69 for the streamed pipeline: rounds in which nothing is shown are limited in number. -/
theorem c69_streamed_waits (hd : ctx.router.edpc = false) {n : Nat} {st : SSt (Mach ρ)} (h : srun (env ctx realloc) n (sstart m P) = .ok (.go, st)) :
    n ≤ P.length * patience P + (instrs (st.events.filterMap Ev.obs)).length * (patience P + 1) :=
  srun_bound (budgets ctx realloc hd patience_le.1) patience_le.2 h

/-- C69 for the DAG pipeline. -/
theorem c69_dag_waits {n : Nat} {st0 st : DSt (Mach ρ)} (h0 : dstart m P = .ok st0) (h : drun (env ctx realloc) n st0 = .ok (false, st)) :
    n ≤ 100 * P.length + 101 * (instrs st.obs).length :=
  drun_bound (one_followup ctx realloc) h0 h

/-- C69 for the wave pipeline without EDPC. -/
theorem c69_wave_waits (hd : ctx.router.edpc = false) {depth n : Nat} {w : WSt (Mach ρ)} (h : wrun (env ctx realloc) depth n ⟨start m P, 1, [], []⟩ = .ok (false, w)) :
    n ≤ P.length * patience P + (instrs w.obs).length * (patience P + 1) :=
  wrun_bound (budgets ctx realloc hd patience_le.1) hd patience_le.2 h

/-- C69 for the streamed pipeline: without Bell pairs it comes to an end, whatever the layout, the router and the first slice. -/
theorem c69_streamed_partial (hP : ∀ i ∈ P, Plain i ∧ Brief i) (hd : ctx.router.edpc = false) {n : Nat} {c : Ctl} {st : SSt (Mach ρ)} (h : srun (env ctx realloc) n (sstart m P) = .ok (c, st))
    (hn : 5 * P.length * (patience P + 1) < n) : c ≠ .go := by
  rintro rfl
  obtain ⟨tags, ht⟩ := c68_streamed (fun i hi => (hP i hi).1) h
  have h1 := carried_short (fun i hi => (hP i hi).2) ht
  have h2 := c69_streamed_waits hd h
  have h3 := Nat.mul_le_mul_right (patience P + 1) h1
  rw [Nat.mul_assoc] at hn h3
  have h4 : P.length * patience P ≤ P.length * (patience P + 1) := Nat.mul_le_mul_left _ (Nat.le_succ _)
  omega

/-- C69 for the DAG pipeline. -/
theorem c69_dag_partial (hP : ∀ i ∈ P, Plain i ∧ Brief i) {n : Nat} {b : Bool} {st0 st : DSt (Mach ρ)} (h0 : dstart m P = .ok st0) (h : drun (env ctx realloc) n st0 = .ok (b, st))
    (hn : 504 * P.length < n) : b = true := by
  cases b with
  | true => rfl
  | false =>
    obtain ⟨tags, ht⟩ := c68_dag (fun i hi => (hP i hi).1) h0 h
    have h1 := carried_short (fun i hi => (hP i hi).2) ht
    have h2 := c69_dag_waits h0 h
    omega

/-- C69 for the wave pipeline without EDPC. -/
theorem c69_wave_partial (hP : ∀ i ∈ P, Plain i ∧ Brief i) (hd : ctx.router.edpc = false) (hf : Fits P) {depth n : Nat} {b : Bool} {w : WSt (Mach ρ)}
    (h : wrun (env ctx realloc) depth n ⟨start m P, 1, [], []⟩ = .ok (b, w)) (hn : 5 * P.length * (patience P + 1) < n) : b = true := by
  cases b with
  | true => rfl
  | false =>
    obtain ⟨tags, ht⟩ := c68_wave (fun i hi => (hP i hi).1) hd hf h
    have h1 := carried_short (fun i hi => (hP i hi).2) ht
    have h2 := c69_wave_waits hd h
    have h3 := Nat.mul_le_mul_right (patience P + 1) h1
    rw [Nat.mul_assoc] at hn h3
    have h4 : P.length * patience P ≤ P.length * (patience P + 1) := Nat.mul_le_mul_left _ (Nat.le_succ _)
    omega

end

/-! ### The slicer program -/

section
open Verif.Slicer Verif.Slicer.Spec Verif.Compiled.Spec

theorem waits_enough {P : List Instr} (h : ∀ i ∈ P, i.wait = maxWait) : patience P + 1 = 2 ^ 64 := by
  have : patience P = maxWait := by
    unfold patience
    induction P with
    | nil => rfl
    | cons a P ih =>
      rw [List.foldr_cons, ih (fun i hi => h i (by simp [hi])), h a (by simp)]
      omega
  rw [this]
  rfl

theorem pipeline_waits {ρ : Type} {w : World} {ctx : Ctx ρ} {rs : ρ} {p : Pipeline} {ids : List Nat} {P : List Instr} {r : Ran} (hd : ctx.router.edpc = false)
    (hP : ∀ i ∈ P, i.wait = maxWait) (h : pipeline w ctx rs p ids P = .ok (some r)) (hr : r.phase = .running) : w.steps ≤ (P.length + (instrs r.obs).length) * 2 ^ 64 := by
  have hw := waits_enough hP
  have key : ∀ {n k : Nat}, n ≤ P.length * patience P + k * (patience P + 1) → n ≤ (P.length + k) * 2 ^ 64 := by
    intro n k h
    rw [Nat.add_mul, ← hw]
    have : P.length * patience P ≤ P.length * (patience P + 1) := Nat.mul_le_mul_left _ (Nat.le_succ _)
    omega
  obtain ⟨s, hs, h⟩ := Outcome.bind_eq_ok.1 h
  have hb : ∀ b : Bool, (if b then Phase.finished else Phase.running) = .running → b = false := by decide
  have wave : (if fitsWave P = true then do
        let (b, x) ← wrun (env ctx w.realloc) w.depth w.steps ⟨start ⟨s, rs, 1⟩ P, 1, [], []⟩
        .ok (some (⟨bare x.obs, instrCount x.obs, x.count, if b then .finished else .running⟩ : Ran))
      else .ok none) = .ok (some r) → w.steps ≤ (P.length + (instrs r.obs).length) * 2 ^ 64 := by
    intro h
    split at h
    · obtain ⟨⟨b, x⟩, h1, h⟩ := Outcome.bind_eq_ok.1 h
      cases h
      have := hb _ hr
      subst this
      dsimp only
      rw [instrs_bare]
      exact key (c69_wave_waits hd h1)
    · cases h
  cases p with
  | stream =>
    obtain ⟨⟨c, st⟩, h1, h⟩ := Outcome.bind_eq_ok.1 h
    cases h
    cases c with
    | go =>
      dsimp only
      rw [instrs_bare]
      exact key (c69_streamed_waits hd h1)
    | finished => cases hr
    | failed => cases hr
  | dag =>
    obtain ⟨st0, h0, h⟩ := Outcome.bind_eq_ok.1 h
    obtain ⟨⟨b, st⟩, h1, h⟩ := Outcome.bind_eq_ok.1 h
    cases h
    have := hb _ hr
    subst this
    dsimp only
    rw [instrs_bare]
    have := c69_dag_waits h0 h1
    rw [Nat.add_mul]
    omega
  | wave => exact wave h
  | edpc => exact wave h

variable {a : Args} {w : World} {j : Job} {P : List Instr} {r : Ran} {t : List (Chan × Str)}

/-- C69 for the slicer program without EDPC, whatever its other options and its input: if it is still running after `w.steps` rounds, then it has shown instructions all the time, one
at least in every `2^64` rounds from some round on. -/
theorem c69_slicer_waits (h : program a w = .ok (.sliced j P r t)) (he : a.pipeline ≠ some "edpc".toList) (hr : r.phase = .running) :
    w.steps ≤ (P.length + (instrs r.obs).length) * 2 ^ 64 := by
  obtain ⟨h1, h2, h3, -⟩ := program_sliced h
  obtain ⟨-, -, -, v4, -⟩ := chosen_values h1
  obtain ⟨m, ex, gs, hc⟩ := (prepared h1).program P h2
  have hP : ∀ i ∈ P, i.wait = maxWait := fun i hi => (easy_compiled (b := False) (fun h => h.elim) hc i hi).1
  have hn : j.pipeline ≠ .edpc := fun e => he (v4.1 e)
  unfold ran at h3
  split at h3
  · split at h3
    · split at h3
      · cases h3; cases hr
      · cases h3
    · cases h3
  unfold slice at h3
  rw [if_neg hn] at h3
  split at h3
  · split at h3
    · exact pipeline_waits rfl hP h3 hr
    · cases h3
  · split at h3
    · exact pipeline_waits rfl hP h3 hr
    · cases h3
  · exact pipeline_waits rfl hP h3 hr
  · exact pipeline_waits rfl hP h3 hr

/-- C69 for the slicer program: if what it has compiled has no CNOTs made of Bell pairs, it comes to an end. -/
theorem c69_slicer_partial (h : program a w = .ok (.sliced j P r t)) (hP : ∀ i ∈ P, Brief i) (hn : 5 * P.length * 2 ^ 64 < w.steps) (he : a.pipeline ≠ some "edpc".toList) : r.phase ≠ .running := by
  intro hr
  have h1 := c69_slicer_waits h he hr
  obtain ⟨tags, ht⟩ := c68_slicer h he
  have h2 := carried_short hP ht
  omega

/-- C69: without --local, and if no gate of the input asks for Bell pairs, the slicer program comes to an end, whatever its other options. -/
theorem c69_qasm (h : program a w = .ok (.sliced j P r t)) {gs : List Gates.Gate} (hg : Gives a w j.layout gs) (hk : KeepsQubit w.approx) (hb : ∀ g ∈ gs, ¬ OnBells g) (hl : a.loc = false)
    (hn : 5 * P.length * 2 ^ 64 < w.steps) : r.phase ≠ .running := by
  obtain ⟨hf, text', rs', t1, t2, t3⟩ := hg
  obtain ⟨text, rs, reg, ls, ex, h1, h2, -, h4, h5, h6⟩ := c66_qasm h hf
  rw [h1] at t1
  cases t1
  rw [← readAs_unique h2 t2] at t3
  rw [t3] at h4
  obtain ⟨h7, -⟩ := program_sliced h
  obtain ⟨-, -, -, v4, -⟩ := chosen_values h7
  refine c69_slicer_partial h (fun i hi => (easy_compiled (b := True) (fun _ => ⟨hl, ?_⟩) (compiledBy_compiles h6) i hi).2 trivial) hn ?_
  · exact decomposed_bells hk h4 hb
  · intro e
    have := (prepared h7).ancilla (v4.2 e)
    rw [(prepared h7).loc, hl] at this
    cases this

end

end Spec

end Verif.Ends
