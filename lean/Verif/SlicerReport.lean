import Verif.SlicerWhole

/-! # What is reported about a run (C67) -/

namespace Verif.Slicer

open Verif Verif.Gates Verif.Stream Verif.Layouts Verif.Pipe Verif.Pipe.Spec Verif.Wave Verif.Apply

/-- The reported count of the DAG pipeline. -/
theorem drun_count {σ : Type} {env : Env σ} (n : Nat) : ∀ {st st' : DSt σ} {b : Bool}, st.count = (slices st.obs).length + 1 → drun env n st = .ok (b, st') → st'.count = (slices st'.obs).length + 1 := by
  have prox : ∀ {ls : List Nat} {st st' : DSt σ}, proxLoop env st ls = .ok st' → st'.count = st.count ∧ slices st'.obs = slices st.obs := by
    intro ls
    induction ls with
    | nil => intro st st' h; cases h; exact ⟨rfl, rfl⟩
    | cons l ls ih =>
      intro st st' h
      rw [proxLoop] at h
      obtain ⟨⟨r, s1⟩, h1, h⟩ := Outcome.bind_eq_ok.1 h
      have e : s1.count = st.count ∧ s1.obs = st.obs := by
        unfold dapply at h1
        split at h1
        · cases h1
        · obtain ⟨x, -, h1⟩ := Outcome.bind_eq_ok.1 h1
          cases h1
          exact ⟨rfl, rfl⟩
      dsimp only at h
      split at h
      · cases h
      · obtain ⟨run, -, h⟩ := Outcome.bind_eq_ok.1 h
        obtain ⟨a, b⟩ := ih h
        rw [a, b, slices_append, e.1, e.2]
        exact ⟨rfl, List.append_nil _⟩
  have head : ∀ {ls : List Nat} {st st' : DSt σ}, headLoop env st ls = .ok st' → st'.count = st.count ∧ slices st'.obs = slices st.obs := by
    intro ls
    induction ls with
    | nil => intro st st' h; cases h; exact ⟨rfl, rfl⟩
    | cons l ls ih =>
      intro st st' h
      rw [headLoop] at h
      obtain ⟨⟨r, s1⟩, h1, h⟩ := Outcome.bind_eq_ok.1 h
      have e : s1.count = st.count ∧ s1.obs = st.obs := by
        unfold dapply at h1
        split at h1
        · cases h1
        · obtain ⟨x, -, h1⟩ := Outcome.bind_eq_ok.1 h1
          cases h1
          exact ⟨rfl, rfl⟩
      dsimp only at h
      split at h
      · obtain ⟨s2, h2, h⟩ := Outcome.bind_eq_ok.1 h
        unfold noteFailure at h2
        split at h2
        · cases h2
        · cases h2
          obtain ⟨a, b⟩ := ih h
          rw [a, b]
          exact ⟨e.1, by rw [e.2]⟩
      · obtain ⟨run, -, h⟩ := Outcome.bind_eq_ok.1 h
        obtain ⟨a, b⟩ := ih h
        rw [a, b, slices_append, e.1, e.2]
        exact ⟨rfl, List.append_nil _⟩
  induction n with
  | zero => intro st st' b hc h; cases h; exact hc
  | succ n ih =>
    intro st st' b hc h
    rw [drun] at h
    split at h
    · cases h; exact hc
    · obtain ⟨s1, h1, h⟩ := Outcome.bind_eq_ok.1 h
      refine ih ?_ h
      unfold dround at h1
      obtain ⟨s2, h2, h1⟩ := Outcome.bind_eq_ok.1 h1
      obtain ⟨s3, h3, h1⟩ := Outcome.bind_eq_ok.1 h1
      obtain ⟨s4, h4, h1⟩ := Outcome.bind_eq_ok.1 h1
      cases h1
      dsimp only
      rw [(head h3).1, (prox h2).1, slices_append, (head h3).2, (prox h2).2, hc]
      simp [slices]

theorem slicesShown_obs {σ : Type} (l : List (Ev σ)) : (slices (l.filterMap Ev.obs)).length = slicesShown l := by
  induction l with
  | nil => rfl
  | cons e l ih =>
    cases e with
    | attempt it err fs => exact ih
    | instr t i => exact ih
    | slice x => exact congrArg (· + 1) ih

theorem pipeline_count {ρ : Type} {w : World} {ctx : Ctx ρ} {rs : ρ} {p : Pipeline} {ids : List Nat} {P : List Instr} {r : Ran} (h : pipeline w ctx rs p ids P = .ok (some r)) (hr : r.phase = .finished) :
    if p = .stream then r.count ≤ (shown r.obs).length else r.count = (shown r.obs).length + 1 := by
  unfold pipeline at h
  obtain ⟨s, hs, h⟩ := Outcome.bind_eq_ok.1 h
  have wave : ∀ {x : Outcome (Option Ran)}, x = .ok (some r) → x = (if fitsWave P then do
      let (b, x) ← wrun (Real.env ctx w.realloc) w.depth w.steps ⟨start ⟨s, rs, 1⟩ P, 1, [], []⟩
      .ok (some ⟨bare x.obs, instrCount x.obs, x.count, if b then .finished else .running⟩)
    else .ok none) → r.count = (shown r.obs).length + 1 := by
    rintro x h rfl
    split at h
    · obtain ⟨⟨b, y⟩, h1, h⟩ := Outcome.bind_eq_ok.1 h
      cases h
      dsimp only
      rw [c25_wave_wrong _ _ _ _ _ rfl h1, shown_bare, (c57_wave _ _ _ _ _ _ h1).2.2, List.length_map]
    · cases h
  cases p with
  | stream =>
    rw [if_pos rfl]
    obtain ⟨⟨c, st⟩, h1, h⟩ := Outcome.bind_eq_ok.1 h
    cases h
    have hc : c = .finished := by
      cases c with
      | go => cases hr
      | finished => rfl
      | failed => cases hr
    subst hc
    have := c25_streamed_partial (Real.keeps_budget ctx w.realloc) _ _ _ _ h1
    dsimp only
    rw [shown_bare, List.length_map, slicesShown_obs]
    omega
  | dag =>
    rw [if_neg (by simp)]
    obtain ⟨st0, h0, h⟩ := Outcome.bind_eq_ok.1 h
    obtain ⟨⟨b, st⟩, h1, h⟩ := Outcome.bind_eq_ok.1 h
    cases h
    dsimp only
    rw [shown_bare, List.length_map]
    refine drun_count _ ?_ h1
    unfold dstart at h0
    obtain ⟨d, -, h0⟩ := Outcome.bind_eq_ok.1 h0
    cases h0
    rfl
  | wave => rw [if_neg (by simp)]; exact wave h rfl
  | edpc => rw [if_neg (by simp)]; exact wave h rfl

theorem ran_count {a : Args} {w : World} {j : Job} {P : List Instr} {r : Ran} (h : ran a w j P = .ok (some r)) (hr : r.phase = .finished) :
    if j.pipeline = .stream then r.count ≤ (shown r.obs).length else r.count = (shown r.obs).length + 1 := by
  unfold ran at h
  split at h
  · split at h
    · split at h
      · cases h; cases hr
      · cases h
    · cases h
  unfold slice at h
  split at h
  · rename_i he
    split at h
    · cases h
    · rw [he]; exact pipeline_count h hr
  · split at h
    · split at h
      · exact pipeline_count h hr
      · cases h
    · split at h
      · exact pipeline_count h hr
      · cases h
    · exact pipeline_count h hr
    · exact pipeline_count h hr

namespace Spec

/-- The line that is written over and over while slices are made; whether it is written for a slice depends on the clock. -/
def tickText (w : World) (k : Nat) : Str := if w.tick k then "Slice count: ".toList ++ showNat (k + 1) ++ "\r".toList else []

/-- The report for people. -/
def summaryText (read count : Nat) (seconds : Str) : Str :=
  "LS Instructions read  ".toList ++ showNat read ++ "\nSlices ".toList ++ showNat count ++ "\nMade patch computation. Took ".toList ++ seconds ++ "s.\n".toList

/-- A share of the volume. -/
def shareText (w : World) (name : String) (x total : Nat) : Str := name.toList ++ ": ".toList ++ showNat x ++ " (".toList ++ w.percent x total ++ "%)\n".toList

/-- The statistics. -/
def volumeText (w : World) (v : Stats.Volume) : Str :=
  "Total volume: ".toList ++ showNat v.volume ++ "\n".toList ++ shareText w "Distillation volume" v.distillation v.volume ++ shareText w "Unused routing volume" v.unused v.volume ++
    shareText w "Dead volume" v.dead v.volume ++ shareText w "Other active volume" v.other v.volume

end Spec

open Spec

theorem arrives_out (x : Str) : arrives (· != .bulk) [(.out, x)] = x := List.append_nil x

theorem visitAll_ticks {a : Args} {w : World} {j : Job} {l : List (Obs DSlice)} {k : Nat} {x : List (Chan × Str)} (h : visitAll a w j k l = .ok x) :
    arrives (· != .bulk) x = if j.report = .progress then (List.range' k (shown l).length).flatMap (tickText w) else [] := by
  induction l generalizing k x with
  | nil => cases h; simp [arrives, shown]
  | cons o l ih =>
    obtain ⟨y, h1, h⟩ := Outcome.bind_eq_ok.1 h
    obtain ⟨z, h2, h⟩ := Outcome.bind_eq_ok.1 h
    cases h
    rw [arrives_append, ih h2]
    cases o with
    | instr i =>
      have e : arrives (· != .bulk) y = [] := by
        simp only [visit] at h1
        split at h1
        · obtain ⟨u, -, h1⟩ := Outcome.bind_eq_ok.1 h1
          cases h1; rfl
        · cases h1; rfl
      rw [e]; rfl
    | slice s =>
      obtain ⟨u, h3, h1⟩ := Outcome.bind_eq_ok.1 h1
      cases h1
      have e1 : arrives (· != .bulk) u = [] := by
        rcases drawing_bulk h3 with ⟨-, rfl⟩ | ⟨d, -, -, rfl⟩ <;> rfl
      have e2 : arrives (· != .bulk) (lineEnd j) = [] := by unfold lineEnd; split <;> rfl
      rw [arrives_append, arrives_append, e1, e2]
      unfold progressLine tickText
      by_cases hp : j.report = .progress
      · rw [if_pos hp, if_pos hp]
        simp only [shown, List.length_cons, List.range'_succ, List.flatMap_cons]
        by_cases ht : w.tick k = true
        · rw [if_pos ⟨hp, ht⟩, if_pos ht, arrives_out, List.append_nil, List.nil_append]; rfl
        · rw [if_neg (fun e => ht e.2), if_neg ht]; rfl
      · rw [if_neg hp, if_neg hp, if_neg (fun e => hp e.1)]; rfl

theorem transcript_report {a : Args} {w : World} {j : Job} {r : Ran} {t : List (Chan × Str)} (h : transcript a w j r = .ok t) (hr : r.phase = .finished) :
    ∃ y, reportText a w j r = .ok y ∧ arrives (· != .bulk) t = (if j.report = .progress then (List.range (shown r.obs).length).flatMap (tickText w) else []) ++ arrives (· != .bulk) y := by
  obtain ⟨x, h1, h⟩ := Outcome.bind_eq_ok.1 h
  rw [hr] at h
  obtain ⟨y, h2, h⟩ := Outcome.bind_eq_ok.1 h
  cases h
  refine ⟨y, h2, ?_⟩
  have e : arrives (· != .bulk) (closing a j) = [] := by
    unfold closing lineEnd
    split <;> split <;> rfl
  rw [arrives_append, arrives_append, arrives_append, visitAll_ticks h1, e, List.append_nil, List.range_eq_range']
  simp [arrives]

namespace Spec

section
variable {a : Args} {w : World} {j : Job} {P : List Instr} {r : Ran} {t : List (Chan × Str)}

theorem report_asked (h0 : prepare a w = (Outcome.ok (Step.goes j) : Act _)) :
    oneOf reports (if a.reports then .progress else .noProgress) a.report = (Outcome.ok (Step.goes j.report) : Act _) := by
  obtain ⟨s, h1, h0⟩ := act_goes.1 h0
  obtain ⟨src, h2, h0⟩ := act_goes.1 h0
  obtain ⟨always, -, h0⟩ := act_goes.1 h0
  obtain ⟨⟨L, inj, ok⟩, h3, h0⟩ := act_goes.1 h0
  dsimp only at h0
  split at h0
  · rw [lift_goes] at h0; cases h0
  obtain ⟨lli, -, h0⟩ := act_goes.1 h0
  obtain ⟨cached, -, h0⟩ := act_goes.1 h0
  obtain ⟨provider, -, h0⟩ := act_goes.1 h0
  rw [act_pure] at h0
  subst h0
  dsimp only
  obtain ⟨lay, -, h1⟩ := act_goes.1 h1
  obtain ⟨f, -, h1⟩ := act_goes.1 h1
  obtain ⟨rep, h4, h1⟩ := act_goes.1 h1
  split at h1
  · exact absurd h1 act_stop
  obtain ⟨dag, -, h1⟩ := act_goes.1 h1
  obtain ⟨pp, -, h1⟩ := act_goes.1 h1
  split at h1
  · rw [act_pure] at h1; subst h1; exact h4
  · split at h1
    · exact absurd h1 act_stop
    · rw [act_pure] at h1; subst h1; exact h4

theorem reportOf (h : program a w = .ok (.sliced j P r t)) :
    oneOf reports (if a.reports then .progress else .noProgress) a.report = (Outcome.ok (Step.goes j.report) : Act _) := report_asked (program_sliced h).1

theorem reports_given (h : program a w = .ok (.sliced j P r t)) (hf : a.report ≠ none) : a.reports = true := by
  obtain ⟨h0, -⟩ := program_sliced h
  obtain ⟨s, h1, h0⟩ := act_goes.1 h0
  obtain ⟨lay, -, h1⟩ := act_goes.1 h1
  obtain ⟨f, -, h1⟩ := act_goes.1 h1
  obtain ⟨rep, h4, h1⟩ := act_goes.1 h1
  split at h1
  · exact absurd h1 act_stop
  · rename_i hx
    cases e : a.report with
    | none => exact absurd e hf
    | some _ => simpa [e] using hx

/-- C67: what is written besides the slices, when `-o` or `--noslices` is given: by default the progress and a summary. -/
theorem c67_progress (h : program a w = .ok (.sliced j P r t)) (hr : r.phase = .finished) (ho : a.output ≠ none ∨ a.noSlices = true) (hf : a.report = none ∨ a.report = some "progress".toList) :
    arrives (· != .bulk) t = (List.range (shown r.obs).length).flatMap (tickText w) ++ summaryText r.read r.count w.elapsed := by
  have hre : a.reports = true := by
    rcases ho with ho | ho
    · cases e : a.output with
      | none => exact absurd e ho
      | some _ => simp [Args.reports, e]
    · simp [Args.reports, ho]
  have hj : j.report = .progress := by
    have := reportOf h
    rw [hre] at this
    rcases hf with e | e <;> (rw [e] at this; exact (act_pure.1 this).symm)
  obtain ⟨-, -, -, -, -, h6⟩ := program_sliced h
  obtain ⟨y, h1, h2⟩ := transcript_report h6 hr
  rw [h2, if_pos hj]
  unfold reportText at h1
  rw [hre, hj] at h1
  cases h1
  rw [arrives_out]
  rfl

/-- C67: for machines, the number of instructions, of slices and of seconds on a line. -/
theorem c67_machine (h : program a w = .ok (.sliced j P r t)) (hr : r.phase = .finished) (hf : a.report = some "machine".toList) :
    arrives (· != .bulk) t = showNat r.read ++ ",".toList ++ showNat r.count ++ ",".toList ++ w.elapsed ++ "\n".toList := by
  have hre : a.reports = true := reports_given h (by rw [hf]; simp)
  have hj : j.report = .machine := by
    have := reportOf h
    rw [hf] at this
    exact (act_pure.1 this).symm
  obtain ⟨-, -, -, -, -, h6⟩ := program_sliced h
  obtain ⟨y, h1, h2⟩ := transcript_report h6 hr
  rw [h2, if_neg (by rw [hj]; simp)]
  unfold reportText at h1
  rw [hre, hj] at h1
  cases h1
  rw [arrives_out, List.nil_append]
  simp only [List.append_assoc]
  rfl

/-- C67: the summary and the volumes of the slices shown. -/
theorem c67_volumes (h : program a w = .ok (.sliced j P r t)) (hr : r.phase = .finished) (hf : a.report = some "stats".toList) :
    ∃ v, Stats.totals j.layout (shown r.obs) {} = .ok v ∧ arrives (· != .bulk) t = summaryText r.read r.count w.elapsed ++ volumeText w v := by
  have hre : a.reports = true := reports_given h (by rw [hf]; simp)
  have hj : j.report = .stats := by
    have := reportOf h
    rw [hf] at this
    exact (act_pure.1 this).symm
  obtain ⟨-, -, -, -, -, h6⟩ := program_sliced h
  obtain ⟨y, h1, h2⟩ := transcript_report h6 hr
  rw [h2, if_neg (by rw [hj]; simp)]
  unfold reportText at h1
  rw [hre, hj] at h1
  obtain ⟨v, h3, h1⟩ := Outcome.bind_eq_ok.1 h1
  cases h1
  refine ⟨v, h3, ?_⟩
  rw [arrives_out, List.nil_append]
  congr 1
  have e1 : "\nDistillation volume: ".toList = "\n".toList ++ ("Distillation volume".toList ++ ": ".toList) := by decide
  have e2 : "Unused routing volume: ".toList = "Unused routing volume".toList ++ ": ".toList := by decide
  have e3 : "Dead volume: ".toList = "Dead volume".toList ++ ": ".toList := by decide
  have e4 : "Other active volume: ".toList = "Other active volume".toList ++ ": ".toList := by decide
  unfold statsText statsText.part volumeText shareText
  rw [e1, e2, e3, e4]
  simp only [List.append_assoc]

/-- C67: no report. -/
theorem c67_nothing (h : program a w = .ok (.sliced j P r t)) (hr : r.phase = .finished) (hf : a.report = some "noprogres".toList) : arrives (· != .bulk) t = [] := by
  have hj : j.report = .noProgress := by
    have := reportOf h
    rw [hf] at this
    exact (act_pure.1 this).symm
  obtain ⟨-, -, -, -, -, h6⟩ := program_sliced h
  obtain ⟨y, h1, h2⟩ := transcript_report h6 hr
  rw [h2, if_neg (by rw [hj]; simp)]
  unfold reportText at h1
  rw [hj] at h1
  split at h1 <;> (cases h1; rfl)

/-- C67: the number of slices reported by the streamed pipeline is at most the number of slices shown. Missing: that they agree, which is wrong in general (`c67_count_wrong`). -/
theorem c67_count_partial (h : program a w = .ok (.sliced j P r t)) (hr : r.phase = .finished) (hp : a.pipeline = none ∨ a.pipeline = some "stream".toList) : r.count ≤ (shown r.obs).length := by
  obtain ⟨h1, h2, h3, -⟩ := program_sliced h
  have hj : j.pipeline = .stream := by
    rcases hp with e | e
    · exact (asked h1).pipe .stream (by rw [e]; simp)
    · exact (asked h1).pipe .stream (by rw [e]; simp)
  have := ran_count h3 hr
  rwa [if_pos hj] at this

/-- C67 fails: the number of slices reported by the other pipelines is always one too large. -/
theorem c67_count_more (h : program a w = .ok (.sliced j P r t)) (hr : r.phase = .finished) (hp : a.pipeline = some "dag".toList ∨ a.pipeline = some "wave".toList ∨ a.pipeline = some "edpc".toList) :
    r.count = (shown r.obs).length + 1 := by
  obtain ⟨h1, h2, h3, -⟩ := program_sliced h
  have hj : j.pipeline ≠ .stream := by
    rcases hp with e | e | e
    · rw [(asked h1).pipe .dag (by rw [e]; simp)]; simp
    · rw [(asked h1).pipe .wave (by rw [e]; simp)]; simp
    · rw [(asked h1).pipe .edpc (by rw [e]; simp)]; simp
  have := ran_count h3 hr
  rwa [if_neg hj] at this

end
end Spec
end Verif.Slicer
