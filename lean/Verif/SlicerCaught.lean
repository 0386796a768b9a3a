import Verif.SlicerExamples
import Verif.SlicerReport
import Verif.SalvageLemmas

/-! # Exceptions that are caught (C65, C66, C67) -/

namespace Verif.Slicer

open Verif Verif.Gates Verif.Stream Verif.Stream.Spec Verif.Layouts Verif.Layouts.Spec Verif.Pipe Verif.Pipe.Spec Verif.Wave Verif.Apply Verif.Real.Spec Verif.Router.Spec

theorem bare_append {ρ : Type} (l l' : List (Obs (Mach ρ))) : bare (l ++ l') = bare l ++ bare l' := by
  rw [bare_map, bare_map, bare_map, List.map_append]

theorem bare_unfinished {ρ : Type} {l : List (Obs (Mach ρ))} (h : Unfinished l) : Unfinished (bare l) := by
  have hi : ∀ is : List Instr, bare (is.map (Obs.instr (σ := Mach ρ))) = is.map .instr := by
    intro is
    induction is with
    | nil => rfl
    | cons i is ih => simp only [List.map_cons, bare, ih]
  obtain ⟨is, rfl | ⟨s, rfl⟩⟩ := h
  · exact ⟨is, .inl (hi is)⟩
  · exact ⟨is, .inr ⟨s.slice, by rw [bare_append, hi]; rfl⟩⟩

/-- What a pipeline has shown and counted when an exception leaves it. -/
theorem pipelineT_some {ρ : Type} {w : World} {late : Nat → Bool} {ctx : Ctx ρ} {rs : ρ} {p : Pipeline} {ids : List Nat} {P : List Instr} {r : Ran} (h : pipelineT w late ctx rs p ids P = some r) :
    r = nothing ∨ ∃ s A l, DSlice.init ctx.layout ids = .ok s ∧ Account (Real.env ctx w.realloc) P ⟨s, rs, 1⟩ p.loop A ∧ r.obs = bare A ++ l ∧ Unfinished l ∧ r.phase = .failed ∧
      if p = .stream then r.count ≤ (slices A).length + 1 else r.count = (slices A).length + 1 := by
  unfold pipelineT at h
  split at h
  · rename_i s hs
    have wave : (if fitsWave P then match wrunT (Real.env ctx w.realloc) late w.depth w.steps ⟨start ⟨s, rs, 1⟩ P, 1, [], []⟩ with
        | .ok (none, x) => some (⟨bare x.obs, instrCount x.obs, x.count, .failed⟩ : Ran)
        | _ => none
      else none) = some r → ∃ A l, Account (Real.env ctx w.realloc) P ⟨s, rs, 1⟩ .wave A ∧ r.obs = bare A ++ l ∧ Unfinished l ∧ r.phase = .failed ∧ r.count = (slices A).length + 1 := by
      intro h
      split at h
      · rename_i hf
        split at h
        · rename_i x hx
          cases h
          obtain ⟨k, w1, h1, -, h2, l, h3, h4⟩ := wrun_caught hx
          refine ⟨w1.obs, bare l, .wave _ k ?_ h1, ?_, bare_unfinished h4, rfl, ?_⟩
          · unfold fitsWave at hf
            rw [List.all_eq_true] at hf
            intro i hi
            simpa using hf i hi
          · rw [← bare_append, ← h3]
          · dsimp only
            rw [h2, c25_wave_wrong _ _ _ _ _ rfl h1, (c57_wave _ _ _ _ _ _ h1).2.2]
        · cases h
      · cases h
    cases p with
    | stream =>
      dsimp only at h
      split at h
      · rename_i st hx
        cases h
        obtain ⟨k, st1, h1, h2, l, h3, h4⟩ := srun_caught hx
        refine .inr ⟨s, _, bare l, hs, .streamed k h1, ?_, bare_unfinished h4, rfl, ?_⟩
        · rw [← bare_append, ← h3]
        · have hi : SInv P st1 := srun_ended (Real.keeps_budget ctx w.realloc) k (sinv_start _ P) h1
          have := hi.slices
          rw [if_pos rfl]
          dsimp only
          rw [slicesShown_obs, h2]
          omega
      · cases h
    | dag =>
      dsimp only at h
      split at h
      · cases h; exact .inl rfl
      · rename_i st0 h0
        split at h
        · rename_i st hx
          cases h
          obtain ⟨k, st1, h1, h2, l, h3, h4⟩ := drun_caught hx
          refine .inr ⟨s, _, bare l, hs, .dag k h0 h1, ?_, bare_unfinished h4, rfl, ?_⟩
          · rw [← bare_append, ← h3]
          · rw [if_neg (by simp)]
            dsimp only
            rw [h2]
            refine drun_count k ?_ h1
            unfold dstart at h0
            obtain ⟨d, -, h0⟩ := Outcome.bind_eq_ok.1 h0
            cases h0
            rfl
        · cases h
      · cases h
    | wave =>
      obtain ⟨A, l, h1, h2, h3, h4, h5⟩ := wave h
      exact .inr ⟨s, A, l, hs, h1, h2, h3, h4, by rw [if_neg (by simp)]; exact h5⟩
    | edpc =>
      obtain ⟨A, l, h1, h2, h3, h4, h5⟩ := wave h
      exact .inr ⟨s, A, l, hs, h1, h2, h3, h4, by rw [if_neg (by simp)]; exact h5⟩
  · cases h

theorem shown_count {ρ : Type} (l : List (Obs (Mach ρ))) : (shown (bare l)).length = sliceCount l := by
  induction l with
  | nil => rfl
  | cons o l ih => cases o <;> simp [bare, shown, sliceCount, ih] <;> rfl

theorem bare_prefix {ρ : Type} {l l' : List (Obs (Mach ρ))} (h : l <+: l') : bare l <+: bare l' := by
  obtain ⟨m, rfl⟩ := h
  rw [bare_append]
  exact List.prefix_append _ _

/-- How the pipeline with exceptions and late slices goes with the one without. -/
structure Halts (b : Prop) (x : Outcome (Option Ran)) (y : (Nat → Bool) → Option Ran) : Prop where
  throws : b → x = .throws → ∀ late, ∃ r, y late = some r
  quiet : x = .ok none → ∀ late, y late = none
  stops : ∀ late r, y late = some r → (∀ i, i < (shown r.obs).length → late i = false) ∧ (late (shown r.obs).length = true ∨ y Tried.never = some r)
  thrown : ∀ r, y Tried.never = some r → x = .throws
  given : ∀ r0 late k, x = .ok (some r0) → k < (shown r0.obs).length → late k = true → ∃ r, y late = some r ∧ r.obs <+: r0.obs
  early : ∀ r0 late r, x = .ok (some r0) → y late = some r → ∃ k, k < (shown r0.obs).length ∧ late k = true

theorem halts_of {b : Prop} {ρ σ α : Type} {x : Outcome (α × σ)} {y : (Nat → Bool) → Tried σ α} {l : σ → List (Obs (Mach ρ))} {s0 : σ} {f : α → σ → Ran} {g : σ → Ran}
    (hf : Tried.Follows x Prod.mk (y Tried.never)) (hh : ∀ late, Tried.Heeds late l s0 (y Tried.never) (y late)) (h0 : sliceCount (l s0) = 0)
    (hfo : ∀ a s, (f a s).obs = bare (l s)) (hgo : ∀ s, (g s).obs = bare (l s))
    {X : Outcome (Option Ran)} {Y : (Nat → Bool) → Option Ran} (hX : X = x >>= fun z => .ok (some (f z.1 z.2)))
    (hY : ∀ late, Y late = match y late with | .ok (none, s) => some (g s) | _ => none) : Halts b X Y := by
  obtain rfl : Y = fun late => match y late with | .ok (none, s) => some (g s) | _ => none := funext hY
  subst hX
  have hy : ∀ {late r}, (match y late with | .ok (none, s) => some (g s) | _ => none) = some r → ∃ s, y late = .ok (none, s) ∧ r = g s := by
    intro late r h
    split at h
    · rename_i s e; cases h; exact ⟨s, e, rfl⟩
    · cases h
  have hx : ∀ {r0}, (x >>= fun z => Outcome.ok (some (f z.1 z.2))) = .ok (some r0) → ∃ a s, y Tried.never = .ok (some a, s) ∧ r0.obs = bare (l s) := by
    intro r0 h
    obtain ⟨⟨a, s⟩, h1, h⟩ := Outcome.bind_eq_ok.1 h
    cases h
    obtain ⟨a', s', e, h2⟩ := hf.of_ok h1
    cases e
    exact ⟨a, s, h2, hfo a s⟩
  constructor
  · intro _ h late
    have ht : x = .throws := by
      cases x with
      | ok z => cases h
      | throws => rfl
      | ub => cases h
    obtain ⟨s, h1⟩ := hf.of_throws ht
    obtain ⟨o, s', h2, -⟩ := (hh late).within _ _ h1
    cases o with
    | none => rw [h2]; exact ⟨_, rfl⟩
    | some a => have := (hh late).value h2; rw [h1] at this; cases this
  · intro h
    obtain ⟨z, -, h⟩ := Outcome.bind_eq_ok.1 h
    cases h
  · intro late r h
    obtain ⟨s, h1, rfl⟩ := hy h
    obtain ⟨-, h2, h3⟩ := (hh late).stops _ _ h1
    rw [hgo, shown_count]
    refine ⟨fun i hi => h2 i (by omega) hi, ?_⟩
    rcases h3 with h3 | ⟨-, h3⟩
    · right; rw [h3]
    · exact .inl h3
  · intro r h
    obtain ⟨s, h1, -⟩ := hy h
    rw [hf.caught h1]
    rfl
  · intro r0 late k h hk hl
    obtain ⟨a, s, h1, h2⟩ := hx h
    obtain ⟨o, s', h3, h4⟩ := (hh late).within _ _ h1
    cases o with
    | none => exact ⟨g s', by rw [h3], by rw [hgo, h2]; exact bare_prefix h4⟩
    | some a' =>
      have h5 := (hh late).value h3
      rw [h1] at h5
      cases h5
      have := ((hh late).stops _ _ h3).2.1 k (by omega) (by rw [← shown_count, ← h2]; exact hk)
      rw [hl] at this
      cases this
  · intro r0 late r h h'
    obtain ⟨a, s, h1, h2⟩ := hx h
    obtain ⟨s', h3, -⟩ := hy h'
    rw [h2, shown_count]
    refine Classical.byContradiction fun hn => ?_
    have := (hh late).goes _ _ h1 fun i _ hi => by
      cases hl : late i with
      | false => rfl
      | true => exact absurd ⟨i, hi, hl⟩ hn
    rw [h3] at this
    cases this

theorem halts_nothing {b : Prop} : Halts b .throws fun _ => some nothing :=
  ⟨fun _ _ _ => ⟨_, rfl⟩, fun h => (nomatch h), fun _ r h => by cases h; exact ⟨fun i hi => absurd hi (Nat.not_lt_zero i), .inr rfl⟩, fun _ _ => rfl, fun _ _ _ h => (nomatch h), fun _ _ _ h => (nomatch h)⟩

theorem halts_none {b : Prop} : Halts b (.ok none) fun _ => none :=
  ⟨fun _ h => (nomatch h), fun _ _ => rfl, fun _ _ h => (nomatch h), fun _ h => (nomatch h), fun _ _ _ h => (nomatch h), fun _ _ _ h => (nomatch h)⟩

theorem halts_ub {b : Prop} : Halts b .ub fun _ => none :=
  ⟨fun _ h => (nomatch h), fun h => (nomatch h), fun _ _ h => (nomatch h), fun _ h => (nomatch h), fun _ _ _ h => (nomatch h), fun _ _ _ h => (nomatch h)⟩

theorem halts_early : Halts False .throws fun _ => none :=
  ⟨fun h => h.elim, fun h => (nomatch h), fun _ _ h => (nomatch h), fun _ h => (nomatch h), fun _ _ _ h => (nomatch h), fun _ _ _ h => (nomatch h)⟩

/-- If an exception leaves the pipeline after the first slice was made, it is known how far it had come. -/
theorem pipeline_halts {ρ : Type} {w : World} {ctx : Ctx ρ} {rs : ρ} {p : Pipeline} {ids : List Nat} {P : List Instr} {L : Layout}
    (hL : ctx.layout = L) : Halts (DSlice.init L ids ≠ .throws) (pipeline w ctx rs p ids P) fun late => pipelineT w late ctx rs p ids P := by
  subst hL
  unfold pipeline pipelineT
  cases hs : DSlice.init ctx.layout ids with
  | throws => exact (show ((Outcome.throws : Outcome DSlice) ≠ .throws) = False from propext ⟨fun h => h rfl, False.elim⟩) ▸ halts_early
  | ub => exact halts_ub
  | ok s =>
  rw [Outcome.bind_ok]
  have wave : Halts (Outcome.ok s ≠ .throws) (if fitsWave P = true then do
        let (b, x) ← wrun (Real.env ctx w.realloc) w.depth w.steps ⟨start ⟨s, rs, 1⟩ P, 1, [], []⟩
        .ok (some (⟨bare x.obs, instrCount x.obs, x.count, if b then .finished else .running⟩ : Ran))
      else .ok none) fun late => if fitsWave P then match wrunT (Real.env ctx w.realloc) late w.depth w.steps ⟨start ⟨s, rs, 1⟩ P, 1, [], []⟩ with
        | .ok (none, x) => some (⟨bare x.obs, instrCount x.obs, x.count, .failed⟩ : Ran)
        | _ => none
      else none := by
    split
    · refine halts_of (l := WSt.obs) (y := fun late => wrunT (Real.env ctx w.realloc) late w.depth w.steps ⟨start ⟨s, rs, 1⟩ P, 1, [], []⟩) (s0 := ⟨start ⟨s, rs, 1⟩ P, 1, [], []⟩)
        (f := fun (b : Bool) (x : WSt (Mach ρ)) => ⟨bare x.obs, instrCount x.obs, x.count, if b then .finished else .running⟩)
        (g := fun x => ⟨bare x.obs, instrCount x.obs, x.count, .failed⟩) (wrun_follows w.depth w.steps _) (fun late => wrun_heeds w.depth w.steps _) rfl
        (fun _ _ => rfl) (fun _ => rfl) ?_ fun late => ?_
      · rcases wrun (Real.env ctx w.realloc) w.depth w.steps ⟨start ⟨s, rs, 1⟩ P, 1, [], []⟩ with ⟨_, _⟩ | _ | _ <;> rfl
      · rcases wrunT (Real.env ctx w.realloc) late w.depth w.steps ⟨start ⟨s, rs, 1⟩ P, 1, [], []⟩ with ⟨_ | _, _⟩ | _ | _ <;> rfl
    · exact halts_none
  cases p with
  | stream =>
    refine halts_of (l := SSt.obs) (y := fun late => srunT (Real.env ctx w.realloc) late w.steps (sstart ⟨s, rs, 1⟩ P)) (s0 := sstart ⟨s, rs, 1⟩ P)
      (f := fun (c : Ctl) (st : SSt (Mach ρ)) => ⟨bare (st.events.filterMap Ev.obs), st.read, st.count, match c with | .go => .running | .finished => .finished | .failed => .failed⟩)
      (g := fun st => ⟨bare (st.events.filterMap Ev.obs), st.read, st.count, .failed⟩) (srun_follows w.steps _) (fun late => srun_heeds w.steps _) rfl (fun _ _ => rfl) (fun _ => rfl)
      ?_ fun late => ?_
    · dsimp only
      rcases srun (Real.env ctx w.realloc) w.steps (sstart ⟨s, rs, 1⟩ P) with ⟨_, _⟩ | _ | _ <;> rfl
    · dsimp only
      rcases srunT (Real.env ctx w.realloc) late w.steps (sstart ⟨s, rs, 1⟩ P) with ⟨_ | _, _⟩ | _ | _ <;> rfl
  | dag =>
    dsimp only
    cases h0 : dstart (⟨s, rs, 1⟩ : Mach ρ) P with
    | throws => exact halts_nothing
    | ub => exact halts_ub
    | ok st =>
      refine halts_of (l := DSt.obs) (y := fun late => drunT (Real.env ctx w.realloc) late w.steps st)
        (f := fun (b : Bool) (x : DSt (Mach ρ)) => ⟨bare x.obs, instrCount x.obs, x.count, if b then .finished else .running⟩)
        (g := fun x => ⟨bare x.obs, instrCount x.obs, x.count, .failed⟩) (drun_follows w.steps st) (fun late => drun_heeds w.steps st) ?_ (fun _ _ => rfl) (fun _ => rfl)
        ?_ fun late => ?_
      · unfold dstart at h0
        obtain ⟨d, -, h0⟩ := Outcome.bind_eq_ok.1 h0
        cases h0
        rfl
      · rw [Outcome.bind_ok]
      · dsimp only
        rcases drunT (Real.env ctx w.realloc) late w.steps st with ⟨_ | _, _⟩ | _ | _ <;> rfl
  | wave => exact wave
  | edpc => exact wave

theorem slice_halts {w : World} {j : Job} {P : List Instr} : Halts (DSlice.init j.layout (coreQubits j.size) ≠ .throws) (slice w j P) fun late => sliceT w late j P := by
  unfold slice sliceT
  by_cases he : j.pipeline = .edpc
  · simp only [if_pos he]
    split
    · exact halts_nothing
    · exact pipeline_halts (L := j.layout) rfl
  · simp only [if_neg he]
    cases hc : j.cached <;> cases hv : j.provider <;> dsimp only
    case false.boost =>
      cases w.boost with
      | none => exact halts_none
      | some pick => exact pipeline_halts (L := j.layout) rfl
    case true.boost =>
      cases w.boost with
      | none => exact halts_none
      | some pick => exact pipeline_halts (L := j.layout) rfl
    all_goals exact pipeline_halts (L := j.layout) rfl

theorem rescue_caught {a : Args} {w : World} {j j' : Job} {P P' : List Instr} {r : Ran} {t : List (Chan × Str)} (h : rescue a w j' P' = .ok (.caught j P r t)) :
    j' = j ∧ P' = P ∧ a.graceful = true ∧ sliceT w (clock a w) j P = some r ∧ transcript a w j r = .ok t := by
  unfold rescue at h
  split at h
  · rename_i r' e1 e2
    split at h
    · cases h
    · obtain ⟨t', ht, h⟩ := Outcome.bind_eq_ok.1 h
      cases h
      exact ⟨rfl, rfl, e1, e2, ht⟩
  · cases h

theorem caught_rescue {a : Args} {w : World} {j : Job} {P : List Instr} {r : Ran} {t : List (Chan × Str)} (hg : a.graceful = true) (hr : sliceT w (clock a w) j P = some r)
    (ht : transcript a w j r = .ok t) : rescue a w j P = .ok (.caught j P r t) := by
  have hu : unseen a w j r = false := by
    unfold unseen
    obtain ⟨x, hx, -⟩ := Outcome.bind_eq_ok.1 ht
    rw [hx]
  unfold rescue
  rw [hg, hr]
  dsimp only
  rw [hu, ht]
  rfl

theorem program_caught {a : Args} {w : World} {j : Job} {P : List Instr} {r : Ran} {t : List (Chan × Str)} (h : program a w = .ok (.caught j P r t)) :
    prepare a w = (Outcome.ok (Step.goes j) : Act _) ∧ j.program = .ok (P, true) ∧ a.graceful = true ∧
      (slice w j P = .throws ∧ ran a w j P = .ok none ∨ ∃ r0, slice w j P = .ok (some r0) ∧ outOfTime a w r0 = true) ∧
      sliceT w (clock a w) j P = some r ∧ transcript a w j r = .ok t := by
  unfold program at h
  split at h
  · cases h
  · rename_i j' hj
    unfold perform at h
    split at h
    · rename_i P' b hp
      split at h
      · cases h
      · rename_i hb
        have hp' : j'.program = .ok (P', true) := by rw [hp]; simp at hb; rw [hb]
        split at h
        · rename_i hr
          obtain ⟨rfl, rfl, h3, h5, h7⟩ := rescue_caught h
          refine ⟨hj, hp', h3, .inl ⟨?_, hr⟩, h5, h7⟩
          unfold ran at hr
          split at hr
          · assumption
          · have := slice_halts.quiet hr (clock a w)
            rw [h5] at this
            cases this
        · rename_i r' hr
          split at h
          · rename_i ho
            split at h
            · obtain ⟨rfl, rfl, h3, h5, h7⟩ := rescue_caught h
              have hsl : slice w j' P' = .ok (some r') := by
                unfold ran at hr
                split at hr
                · rw [if_pos h3] at hr
                  split at hr
                  · cases hr
                    simp [outOfTime, shown] at ho
                  · cases hr
                · exact hr
              exact ⟨hj, hp', h3, .inr ⟨r', hsl, ho⟩, h5, h7⟩
            · cases h
          · split at h
            · cases h
            · split at h
              · cases h
              · obtain ⟨t', ht, h⟩ := Outcome.bind_eq_ok.1 h
                cases h
        · cases h
        · cases h
    · split at h <;> cases h
    · cases h
  · cases h
  · cases h

theorem visitAll_prefix {a : Args} {w : World} {j : Job} {l l' : List (Obs DSlice)} (hl : l <+: l') {k : Nat} {x : List (Chan × Str)} (h : visitAll a w j k l' = .ok x) :
    ∃ y, visitAll a w j k l = .ok y := by
  induction l generalizing k x l' with
  | nil => exact ⟨_, rfl⟩
  | cons o l ih =>
    obtain ⟨m, rfl⟩ := hl
    obtain ⟨y, hy, h⟩ := Outcome.bind_eq_ok.1 h
    obtain ⟨z, hz, -⟩ := Outcome.bind_eq_ok.1 h
    obtain ⟨z', hz'⟩ := ih (List.prefix_append _ _) hz
    refine ⟨y ++ z', ?_⟩
    unfold visitAll
    rw [hy, Outcome.bind_ok, hz']
    rfl

theorem totals_live {L : Layout} : ∀ {ss : List DSlice} {v : Stats.Volume}, Stats.totals L ss v ≠ .throws
  | [], _, h => nomatch h
  | s :: ss, v, h => by
    unfold Stats.totals Stats.volumeCounts at h
    dsimp only at h
    split at h
    · exact totals_live h
    · cases h

theorem reportText_live {a : Args} {w : World} {j : Job} {r : Ran} : reportText a w j r ≠ .throws := by
  intro h
  unfold reportText at h
  split at h
  · cases h
  · split at h
    · cases h
    · cases h
    · cases h
    · cases ht : Stats.totals j.layout (shown r.obs) {} with
      | ok v => rw [ht] at h; cases h
      | throws => exact totals_live ht
      | ub => rw [ht] at h; cases h

/-- The number of cells of the layout is an `int`, as are its sides. -/
def Countable (L : Layout) : Prop := L.furthest.row + 1 < 2 ^ 31 ∧ L.furthest.col + 1 < 2 ^ 31 ∧ (L.furthest.row + 1) * (L.furthest.col + 1) < 2 ^ 31

instance (L : Layout) : Decidable (Countable L) := by unfold Countable; infer_instance

theorem totals_ok {L : Layout} (h : Countable L) : ∀ (ss : List DSlice) (v : Stats.Volume), ∃ u, Stats.totals L ss v = .ok u
  | [], v => ⟨v, rfl⟩
  | s :: ss, v => by
    unfold Stats.totals Stats.volumeCounts
    dsimp only
    rw [if_pos (show L.furthest.row + 1 < Stats.intLimit ∧ L.furthest.col + 1 < Stats.intLimit ∧ (L.furthest.row + 1) * (L.furthest.col + 1) < Stats.intLimit from h), Outcome.bind_ok]
    exact totals_ok h ss _

/-- Only the statistics can fail. -/
theorem reportText_ok {a : Args} {w : World} {j : Job} {r : Ran} (h : j.report = .stats → Countable j.layout) : ∃ y, reportText a w j r = .ok y := by
  unfold reportText
  split
  · exact ⟨_, rfl⟩
  · split
    · exact ⟨_, rfl⟩
    · exact ⟨_, rfl⟩
    · exact ⟨_, rfl⟩
    · obtain ⟨u, hu⟩ := totals_ok (h (by assumption)) (shown r.obs) {}
      rw [hu]
      exact ⟨_, rfl⟩

theorem stats_asked {a : Args} {w : World} {j : Job} (hj : prepare a w = (Outcome.ok (Step.goes j) : Act _)) (e : j.report = .stats) : a.report = some "stats".toList := by
  have := Spec.report_asked hj
  rw [e] at this
  rcases oneOf_goes this with ⟨e1, e2⟩ | ⟨v, x, e1, e2, e3, e4⟩
  · split at e2 <;> cases e2
  · simp only [reports, List.mem_cons, List.mem_nil_iff, or_false] at e2
    rcases e2 with rfl | rfl | rfl | rfl
    · cases e4
    · cases e4
    · cases e4
    · rw [e1, ← e3]

namespace Spec

section
variable {a : Args} {w : World} {j : Job} {P : List Instr} {r : Ran} {t : List (Chan × Str)}

/-- What was shown and counted when the exception came, with the router asked for. -/
theorem sliceT_caught (h1 : prepare a w = (Outcome.ok (Step.goes j) : Act _)) {late : Nat → Bool} (h : sliceT w late j P = some r) :
    r = nothing ∨ ∃ (ρ : Type) (R : RouterI ρ) (rs : ρ) (s : DSlice) (A : List (Obs (Mach ρ))) (l : List (Obs DSlice)), Chosen a w j.layout R rs ∧
      DSlice.init j.layout (coreQubits j.size) = .ok s ∧ Account (Real.env (setup a w j.layout R) w.realloc) P ⟨s, rs, 1⟩ (loopOf a) A ∧ r.obs = bare A ++ l ∧ Unfinished l ∧ r.phase = .failed ∧
      if j.pipeline = .stream then r.count ≤ (slices A).length + 1 else r.count = (slices A).length + 1 := by
  obtain ⟨s, src, ex, hw⟩ := wired h1
  obtain ⟨v1, v2, v3, v4, v5⟩ := chosen_values h1
  have hp := prepared h1
  have hpan : (s.format == Format.pandora) = decide (a.format = some "pandora".toList ∨ a.format = some "p".toList) := by
    rcases oneOf_goes hw.format with ⟨e, h⟩ | ⟨v, x, e, h, h', h''⟩
    · rw [e, h]; decide
    · simp only [formats, List.mem_cons, List.mem_nil_iff, or_false] at h
      rw [e, ← h', ← h'']
      rcases h with rfl | rfl | rfl | rfl | rfl | rfl <;> decide
  have hctx : ∀ {ρ : Type} (R : RouterI ρ), j.ctx w R = (setup a w j.layout R) := by
    intro ρ R
    unfold Job.ctx setup
    rw [hp.loc, hp.twists, hw.ids, hpan]
  have key : ∀ {ρ : Type} (R : RouterI ρ) (rs : ρ), pipelineT w late (j.ctx w R) rs j.pipeline (coreQubits j.size) P = some r → Chosen a w j.layout R rs →
      r = nothing ∨ ∃ (ρ : Type) (R : RouterI ρ) (rs : ρ) (s : DSlice) (A : List (Obs (Mach ρ))) (l : List (Obs DSlice)), Chosen a w j.layout R rs ∧
        DSlice.init j.layout (coreQubits j.size) = .ok s ∧ Account (Real.env (setup a w j.layout R) w.realloc) P ⟨s, rs, 1⟩ (loopOf a) A ∧ r.obs = bare A ++ l ∧ Unfinished l ∧ r.phase = .failed ∧
        if j.pipeline = .stream then r.count ≤ (slices A).length + 1 else r.count = (slices A).length + 1 := by
    intro ρ R rs h hc
    rcases pipelineT_some h with e | ⟨s, A, l, e1, e2, e3⟩
    · exact .inl e
    · rw [hctx, v5] at e2
      exact .inr ⟨ρ, R, rs, s, A, l, hc, e1, e2, e3⟩
  have hstop : (j.provider == Provider.astar) = decide (a.search = some "astar".toList) := by
    rw [Bool.eq_iff_iff, beq_iff_eq, decide_eq_true_iff]; exact v3
  unfold sliceT at h
  split at h
  · rename_i he
    split at h
    · cases h; exact .inl rfl
    · rename_i hn
      simp only [Bool.or_eq_true, beq_iff_eq, not_or, Bool.not_eq_true] at hn
      rw [hstop] at h
      have hc := Chosen.search (a := a) (w := w) (L := j.layout) (fun e => hn.2 (v2.2 e)) (fun e => by have := v1.2 e; rw [hn.1] at this; cases this)
      rw [decide_eq_true (v4.1 he)] at hc
      refine key _ () ?_ hc
      rw [he]
      exact h
  · rename_i he
    have he' : a.pipeline ≠ some "edpc".toList := fun e => he (v4.2 e)
    split at h
    · rename_i e1 e2
      split at h
      · rename_i pick hb
        exact key _ () h (.boost (v2.1 e2) (fun e => by have := v1.2 e; rw [e1] at this; cases this) he' hb)
      · cases h
    · rename_i e1 e2
      split at h
      · rename_i pick hb
        exact key _ _ h (.storedBoost (v2.1 e2) (v1.1 e1) he' hb)
      · cases h
    · rename_i v e1 e2
      have hc := Chosen.search (a := a) (w := w) (L := j.layout) (fun e => e2 (v2.2 e)) (fun e => by have := v1.2 e; rw [e1] at this; cases this)
      rw [decide_eq_false he', ← hstop] at hc
      exact key _ () h hc
    · rename_i v e1 e2
      have hc := Chosen.stored (a := a) (w := w) (L := j.layout) (fun e => e2 (v2.2 e)) (v1.1 e1) he'
      rw [← hstop] at hc
      exact key _ _ h hc

/-- C65: what `--graceful` does. Without it, the program would have ended in an exception. What was shown until then is what the pipeline asked for, with the router asked for, has shown in the
rounds before the one that was not finished, and what that one has shown, which is at most one slice; or nothing. The exception is reported on the standard output, and then the report and the
end are written as if the run had come to its end. -/
theorem c65_caught (h : program a w = .ok (.caught j P r t)) :
    a.graceful = true ∧ program { a with graceful := false } w = .throws ∧
      (r.obs = [] ∨ ∃ (ρ : Type) (R : RouterI ρ) (rs : ρ) (s : DSlice) (A : List (Obs (Mach ρ))) (l : List (Obs DSlice)), Chosen a w j.layout R rs ∧
        DSlice.init j.layout (coreQubits j.size) = .ok s ∧ Account (Real.env (setup a w j.layout R) w.realloc) P ⟨s, rs, 1⟩ (loopOf a) A ∧ r.obs = bare A ++ l ∧ Unfinished l) ∧
      ∃ x y, visitAll a w j 0 r.obs = .ok x ∧ reportText a w j r = .ok y ∧
        t = x ++ [(.cout, "Encountered exception: ".toList ++ w.message ++ "\nHalting slicing\n".toList)] ++ y ++ closing a j := by
  obtain ⟨h1, h2, h3, h4, h5, h7⟩ := program_caught h
  have hprep : prepare { a with graceful := false } w = prepare a w := prepare_congr rfl ⟨fun _ _ _ => rfl, fun _ _ _ => rfl, rfl, fun _ _ => rfl, rfl, rfl, rfl, rfl⟩
  have hc : r.phase = .failed := by
    rcases sliceT_caught h1 h5 with rfl | ⟨ρ, R, rs, s, A, l, -, -, -, -, -, c, -⟩
    · rfl
    · exact c
  refine ⟨h3, ?_, ?_, ?_⟩
  · unfold program
    rw [hprep, h1]
    dsimp only
    unfold perform
    rw [h2]
    dsimp only
    rw [if_neg (by simp)]
    unfold ran
    rcases h4 with ⟨h4, -⟩ | ⟨r0, h4, h6⟩
    · rw [h4]
      rfl
    · rw [h4]
      dsimp only
      rw [if_pos (show outOfTime { a with graceful := false } w r0 = true from h6)]
      rfl
  · rcases sliceT_caught h1 h5 with rfl | ⟨ρ, R, rs, s, A, l, c1, c2, c3, c4, c5, -⟩
    · exact .inl rfl
    · exact .inr ⟨ρ, R, rs, s, A, l, c1, c2, c3, c4, c5⟩
  · obtain ⟨x, x1, h7⟩ := Outcome.bind_eq_ok.1 h7
    rw [hc] at h7
    obtain ⟨y, y1, h7⟩ := Outcome.bind_eq_ok.1 h7
    cases h7
    exact ⟨x, y, x1, y1, rfl⟩

theorem shown_unfinished' {A l : List (Obs DSlice)} (h : Unfinished l) : shown (A ++ l) = shown A ∨ ∃ s, shown (A ++ l) = shown A ++ [s] := by
  have happ : ∀ A l : List (Obs DSlice), shown (A ++ l) = shown A ++ shown l := by
    intro A l
    induction A with
    | nil => rfl
    | cons o A ih => cases o <;> simp [shown, ih]
  have hi : ∀ is : List Instr, shown (is.map Obs.instr) = [] := by
    intro is
    induction is with
    | nil => rfl
    | cons i is ih => exact ih
  obtain ⟨is, rfl | ⟨s, rfl⟩⟩ := h
  · exact .inl (by rw [happ, hi]; simp)
  · exact .inr ⟨s, by rw [happ, happ, hi]; simp [shown]⟩

theorem shown_unfinished {A l : List (Obs DSlice)} (h : Unfinished l) : (shown (A ++ l)).length = (shown A).length ∨ (shown (A ++ l)).length = (shown A).length + 1 := by
  rcases shown_unfinished' (A := A) h with e | ⟨s, e⟩ <;> rw [e] <;> simp

/-- C67: the number of slices in the report after an exception. With the graph or the wave it is the number of slices shown, or one more. -/
theorem c67_caught_more (h : program a w = .ok (.caught j P r t)) (hp : a.pipeline = some "dag".toList ∨ a.pipeline = some "wave".toList ∨ a.pipeline = some "edpc".toList) :
    r.count = (shown r.obs).length ∨ r.count = (shown r.obs).length + 1 := by
  obtain ⟨h1, -, -, -, h5, -⟩ := program_caught h
  have hj : j.pipeline ≠ .stream := by
    rcases hp with e | e | e
    · rw [(asked h1).pipe .dag (by rw [e]; simp)]; simp
    · rw [(asked h1).pipe .wave (by rw [e]; simp)]; simp
    · rw [(asked h1).pipe .edpc (by rw [e]; simp)]; simp
  rcases sliceT_caught h1 h5 with rfl | ⟨ρ, R, rs, s, A, l, -, -, -, c4, c5, -, c6⟩
  · exact .inr rfl
  · rw [if_neg hj] at c6
    have hb : (shown (bare A)).length = (slices A).length := by rw [shown_bare, List.length_map]
    rw [c4, c6, ← hb]
    rcases shown_unfinished (A := bare A) c5 with e | e <;> omega

/-- C67: reading instruction by instruction, it is at most one more. -/
theorem c67_caught (h : program a w = .ok (.caught j P r t)) : r.count ≤ (shown r.obs).length + 1 := by
  obtain ⟨h1, -, -, -, h5, -⟩ := program_caught h
  rcases sliceT_caught h1 h5 with rfl | ⟨ρ, R, rs, s, A, l, -, -, -, c4, c5, -, c6⟩
  · exact Nat.le_refl _
  · have hb : (shown (bare A)).length = (slices A).length := by rw [shown_bare, List.length_map]
    have hc : r.count ≤ (shown (bare A)).length + 1 := by rw [hb]; split at c6 <;> omega
    rw [c4]
    rcases shown_unfinished (A := bare A) c5 with e | e <;> omega

/-- C67: what is written besides the slices after an exception: the progress so far, the message, and the summary. -/
theorem c67_caught_progress (h : program a w = .ok (.caught j P r t)) (ho : a.output ≠ none ∨ a.noSlices = true) (hf : a.report = none ∨ a.report = some "progress".toList) :
    arrives (· != .bulk) t = (List.range (shown r.obs).length).flatMap (tickText w) ++ ("Encountered exception: ".toList ++ w.message ++ "\nHalting slicing\n".toList) ++
      summaryText r.read r.count w.elapsed := by
  have hre : a.reports = true := by
    rcases ho with ho | ho
    · cases e : a.output with
      | none => exact absurd e ho
      | some _ => simp [Args.reports, e]
    · simp [Args.reports, ho]
  have hj : j.report = .progress := by
    have := report_asked (program_caught h).1
    rw [hre] at this
    rcases hf with e | e <;> (rw [e] at this; exact (act_pure.1 this).symm)
  obtain ⟨-, -, -, x, y, h1, h2, rfl⟩ := c65_caught h
  have e : arrives (· != .bulk) (closing a j) = [] := by
    unfold closing lineEnd
    split <;> split <;> rfl
  have e' : ∀ z : Str, arrives (· != .bulk) [(Chan.cout, z)] = z := fun z => List.append_nil z
  rw [arrives_append, arrives_append, arrives_append, visitAll_ticks h1, e, e', List.append_nil, if_pos hj, List.range_eq_range']
  unfold reportText at h2
  rw [hre, hj] at h2
  cases h2
  rw [arrives_out]
  rfl

/-- C65: with `--graceful`, no exception ends the program once slicing has begun. -/
theorem c65_graceful_lives (hg : a.graceful = true) (h : program a w = .throws) : prepare a w = .throws := by
  unfold program at h
  split at h
  · cases h
  · rename_i j hj
    exfalso
    have htr : ∀ r, unseen a w j r = false → transcript a w j r ≠ .throws := by
      intro r hu ht
      unfold unseen at hu
      unfold transcript at ht
      cases hv : visitAll a w j 0 r.obs with
      | ok x =>
        rw [hv, Outcome.bind_ok] at ht
        split at ht
        · cases ht
        · cases hy : reportText a w j r with
          | ok y => rw [hy] at ht; cases ht
          | throws => exact reportText_live hy
          | ub => rw [hy] at ht; cases ht
      | throws => rw [hv] at hu; cases hu
      | ub => rw [hv] at ht; cases ht
    have hfin : ∀ {r} {f : List (Chan × Str) → Result}, unseen a w j r = false → (transcript a w j r >>= fun t => .ok (f t)) ≠ .throws := by
      intro r f hu ht
      cases hv : transcript a w j r with
      | ok x => rw [hv] at ht; cases ht
      | throws => exact htr r hu hv
      | ub => rw [hv] at ht; cases ht
    have hres : ∀ P, rescue a w j P ≠ .throws := by
      intro P h
      unfold rescue at h
      split at h
      · split at h
        · cases h
        · rename_i ho
          exact hfin (Bool.not_eq_true _ ▸ ho) h
      · cases h
    unfold perform at h
    split at h
    · split at h
      · cases h
      · split at h
        · exact hres _ h
        · split at h
          · exact hres _ h
          · split at h
            · rename_i hc; rw [hg] at hc; cases hc.2
            · split at h
              · cases h
              · rename_i hu
                rw [hg] at hu
                exact hfin (by simpa using hu) h
        · rename_i hr
          unfold ran at hr
          split at hr
          · rw [if_pos hg] at hr
            split at hr <;> cases hr
          · contradiction
        · cases h
    · rw [if_pos hg] at h; cases h
    · cases h
  · assumption
  · cases h

/-- C65: what `-t` does with `--graceful`. No slice that was shown before the exception came was late. If the next one would not have been late either, then the exception has nothing to do
with the time, and without `-t` it is the same. -/
theorem c65_caught_time (h : program a w = .ok (.caught j P r t)) :
    (a.timeout ≠ none → ∀ i, i < (shown r.obs).length → w.late i = false) ∧
      (a.timeout ≠ none ∧ w.late (shown r.obs).length = true ∨ program { a with timeout := none } w = .ok (.caught j P r t)) := by
  obtain ⟨h1, h2, h3, h4, h5, h7⟩ := program_caught h
  obtain ⟨s1, s2⟩ := slice_halts.stops _ _ h5
  refine ⟨fun ht i hi => ?_, ?_⟩
  · have := s1 i hi
    unfold clock at this
    cases e : a.timeout with
    | none => exact absurd e ht
    | some x => rw [e] at this; simpa using this
  · rcases s2 with s2 | s2
    · left
      unfold clock at s2
      rw [Bool.and_eq_true] at s2
      exact ⟨fun e => (by rw [e] at s2; cases s2.1), s2.2⟩
    · right
      rcases h4 with ⟨-, h4⟩ | ⟨r0, h4, -⟩
      · have hprep : prepare { a with timeout := none } w = prepare a w := prepare_congr rfl ⟨fun _ _ _ => rfl, fun _ _ _ => rfl, rfl, fun _ _ => rfl, rfl, rfl, rfl, rfl⟩
        have hv : visitAll { a with timeout := none } w j 0 r.obs = visitAll a w j 0 r.obs  :=
          visitAll_congr (show prints { a with timeout := none } j = prints a j from rfl) _ _
        have ht : transcript { a with timeout := none } w j r = .ok t := by
          rw [← h7]
          unfold transcript
          rw [hv]
          rfl
        have hr : ran { a with timeout := none } w j P = .ok none := h4
        unfold program
        rw [hprep, h1]
        dsimp only
        unfold perform
        rw [h2]
        dsimp only
        rw [if_neg (by simp), hr]
        dsimp only
        exact caught_rescue h3 s2 ht
      · have := slice_halts.thrown _ s2
        rw [h4] at this
        cases this

/-- C65: with `-t` and `--graceful`, the slices before the first late one are written, then the exception is reported, and the report and the end follow. See `c65_late` for `-t` alone. -/
theorem c65_late_graceful (h : program a w = .ok (.sliced j P r t)) {k : Nat} (hk : k < (shown r.obs).length) (hl : w.late k = true) (hs : a.report = some "stats".toList → Countable j.layout) (x : Nat) :
    ∃ r' t', program { a with timeout := some x, graceful := true } w = .ok (.caught j P r' t') ∧ r'.obs <+: r.obs ∧ (∀ i, i < (shown r'.obs).length → w.late i = false) ∧
      w.late (shown r'.obs).length = true := by
  obtain ⟨h1, h2, h3, h4, h5, h6⟩ := program_sliced h
  have hprep : prepare { a with timeout := some x, graceful := true } w = prepare a w := prepare_congr rfl ⟨fun _ _ _ => rfl, fun _ _ _ => rfl, rfl, fun _ _ => rfl, rfl, rfl, rfl, rfl⟩
  have hsl : slice w j P = .ok (some r) := by
    unfold ran at h3
    split at h3
    · split at h3
      · split at h3
        · cases h3; simp [shown] at hk
        · cases h3
      · cases h3
    · exact h3
  have hran : ran { a with timeout := some x, graceful := true } w j P = .ok (some r) := by
    unfold ran
    rw [hsl]
  have hcl : clock { a with timeout := some x, graceful := true } w = w.late := by
    funext i
    simp [clock]
  obtain ⟨r', hr, hpre⟩ := slice_halts.given r w.late k hsl hk hl
  obtain ⟨x', hx, -⟩ := Outcome.bind_eq_ok.1 h6
  obtain ⟨v, hv⟩ : ∃ v, visitAll { a with timeout := some x, graceful := true } w j 0 r'.obs = .ok v := by
    rw [visitAll_congr (show prints { a with timeout := some x, graceful := true } j = prints a j from rfl)]
    exact visitAll_prefix hpre hx
  have hph : r'.phase = .failed := by
    rcases sliceT_caught h1 hr with rfl | ⟨ρ, R, rs, s, A, l, -, -, -, -, -, c, -⟩
    · rfl
    · exact c
  obtain ⟨y, hy⟩ : ∃ y, reportText { a with timeout := some x, graceful := true } w j r' = .ok y :=
    reportText_ok fun e => hs (stats_asked h1 e)
  obtain ⟨t', ht⟩ : ∃ t', transcript { a with timeout := some x, graceful := true } w j r' = .ok t' := by
    unfold transcript
    rw [hv, Outcome.bind_ok, hph]
    dsimp only
    rw [hy]
    exact ⟨_, rfl⟩
  have hp : program { a with timeout := some x, graceful := true } w = .ok (.caught j P r' t') := by
    unfold program
    rw [hprep, h1]
    dsimp only
    unfold perform
    rw [h2]
    dsimp only
    rw [if_neg (by simp), hran]
    dsimp only
    rw [if_pos, if_pos rfl]
    · exact caught_rescue rfl (hcl ▸ hr) ht
    · unfold outOfTime
      simp only [Option.isSome_some, Bool.true_and]
      exact List.any_eq_true.2 ⟨k, List.mem_range.2 hk, hl⟩
  obtain ⟨s1, s2⟩ := slice_halts.stops _ _ hr
  refine ⟨r', t', hp, hpre, s1, ?_⟩
  rcases s2 with s2 | s2
  · exact s2
  · have := slice_halts.thrown _ s2
    rw [hsl] at this
    cases this

/-- C66: the qubits stay on their cells until the exception comes. See `c66_home`; the last slice that was shown is left out here. -/
theorem c66_caught_home (h : program a w = .ok (.caught j P r t)) (hfit : j.size + (introduced P).length ≤ 2 ^ 32) :
    ∃ g, fromGrid g a.options = .ok j.layout ∧ ∃ cs : List Cell, cs.Pairwise Before ∧ (∀ c, c ∈ cs ↔ At g c .qubit) ∧
      ∀ s ∈ (shown r.obs).dropLast, ∀ q, q < j.size → ∃ c, cs[q]? = some c ∧ (There s c q ∨ Rotates s c) ∧ ∀ x p, s.cells x = some p → p.id = some q → x = c := by
  obtain ⟨h1, h2, -, -, h5, -⟩ := program_caught h
  have hp := prepared h1
  obtain ⟨g, hg⟩ := hp.grid
  rcases sliceT_caught h1 h5 with rfl | ⟨ρ, R, rs, s, A, l, hc, c2, c3, c4, c5, -⟩
  · obtain ⟨s, -, hsh, -⟩ := c53_first_slice (ids := []) hg (Nat.zero_le _)
    obtain ⟨cs, c1, c2, -⟩ := hsh.qubits
    exact ⟨g, hg, cs, c1, c2, by simp [shown, nothing]⟩
  have hu : Compiled.Spec.Usual (setup a w j.layout R) rs := by
    cases hc with
    | search => exact .search _ _ _ rfl
    | stored => exact .stored _ _ rfl
    | boost => exact .boost _ rfl
    | storedBoost => exact .storedBoost _ rfl
  obtain ⟨cs, d1, d2, d3⟩ := Compiled.Spec.c62_compiled (realloc := w.realloc) hu hg ⟨hp.program P h2, hp.size, hfit⟩ c2
  refine ⟨g, hg, cs, d1, d2, fun x hx q hq => ?_⟩
  obtain ⟨c, e1, e2⟩ := d3 q hq
  refine ⟨c, e1, ?_⟩
  have hx : x ∈ shown (bare A) := by
    rw [c4] at hx
    rcases shown_unfinished' (A := bare A) c5 with e | ⟨y, e⟩
    · rw [e] at hx; exact List.dropLast_subset _ hx
    · rw [e, List.dropLast_concat] at hx; exact hx
  rw [shown_bare] at hx
  obtain ⟨m, hm, rfl⟩ := List.mem_map.1 hx
  obtain ⟨y, hy, e⟩ := List.mem_filterMap.1 hm
  cases y with
  | instr i => cases e
  | slice y =>
    cases e
    obtain ⟨A1, A2, e⟩ := List.append_of_mem hy
    exact e2 _ A1 _ A2 (e ▸ c3)

end

/-! ### Examples -/

/-- A layout without distillation regions, and a circuit that takes a magic state. -/
def bareWorld : World :=
  { fastWorld with stdin := "qreg q[1];\nh q[0];\nh q[0];\nt q[0];\n".toList, files := fun f => if f = "one".toList then some "QrQ\nrrr".toList else none }

def caughtView : Outcome Result → Option (Nat × Nat × Nat × Nat)
  | .ok (.caught j P r _) => some (j.size, (introduced P).length, (shown r.obs).length, r.count)
  | _ => none

theorem view_caught {o : Outcome Result} {n m k c : Nat} (h : caughtView o = some (n, m, k, c)) :
    ∃ j P r t, o = .ok (.caught j P r t) ∧ j.size = n ∧ (introduced P).length = m ∧ (shown r.obs).length = k ∧ r.count = c := by
  unfold caughtView at h
  split at h
  · rename_i j P r t
    simp only [Option.some.injEq, Prod.mk.injEq] at h
    exact ⟨j, P, r, t, rfl, h.1, h.2.1, h.2.2.1, h.2.2.2⟩
  · cases h

/-- The hypotheses of `c65_caught` and `c67_caught`: a slice was shown when the magic state could not be had. -/
example : ∃ j P r t, program tightArgs bareWorld = .ok (.caught j P r t) ∧ 0 < (shown r.obs).length := by
  have h : caughtView (program tightArgs bareWorld) = some (1, 1, 1, 1) := by decide +kernel
  obtain ⟨j, P, r, t, h, -, -, e3, -⟩ := view_caught h
  exact ⟨j, P, r, t, h, by omega⟩

/-- The hypotheses of `c67_caught_more` and `c66_caught_home`. -/
example : ∃ j P r t, program { tightArgs with pipeline := some "dag".toList } bareWorld = .ok (.caught j P r t) ∧ r.count = (shown r.obs).length + 1 ∧
    j.size + (introduced P).length ≤ 2 ^ 32 ∧ 1 < (shown r.obs).length := by
  have h : caughtView (program { tightArgs with pipeline := some "dag".toList } bareWorld) = some (1, 1, 2, 3) := by decide +kernel
  obtain ⟨j, P, r, t, h, e1, e2, e3, e4⟩ := view_caught h
  exact ⟨j, P, r, t, h, by omega, by omega, by omega⟩

/-- The hypotheses of `c67_caught_progress`, and what it says: the circuit has the Hadamard gates twice, and one slice is shown. -/
example : ∃ j P r t, program { tightArgs with noSlices := true } bareWorld = .ok (.caught j P r t) ∧
    arrives (· != .bulk) t = "Encountered exception: Not enough space\nHalting slicing\nLS Instructions read  3\nSlices 1\nMade patch computation. Took 0.1s.\n".toList := by
  have h : (match program { tightArgs with noSlices := true } bareWorld with
    | .ok (.caught _ _ r _) => decide ((shown r.obs).length = 1 ∧ r.count = 1 ∧ r.read = 3)
    | _ => false) = true := by decide +kernel
  split at h
  · rename_i j P r t e
    obtain ⟨e1, e2, e3⟩ := of_decide_eq_true h
    refine ⟨j, P, r, t, e, ?_⟩
    rw [c67_caught_progress e (.inr rfl) (.inl rfl), e1, e2, e3]
    decide +kernel
  · cases h

/-- A world where the third slice is late. -/
def slowWorld : World :=
  { fastWorld with
    stdin := "qreg q[1];\nh q[0];\nh q[0];\nh q[0];\n".toList, files := fun f => if f = "one".toList then some "QrQ\nrrr".toList else none, late := fun k => k == 2 }

/-- The hypotheses of `c65_late_graceful`. -/
example : ∃ j P r t, program tightArgs slowWorld = .ok (.sliced j P r t) ∧ 2 < (shown r.obs).length ∧ slowWorld.late 2 = true ∧ (tightArgs.report = some "stats".toList → Countable j.layout) := by
  have h : (match program tightArgs slowWorld with
    | .ok (.sliced _ _ r _) => decide (2 < (shown r.obs).length)
    | _ => false) = true := by decide +kernel
  split at h
  · rename_i j P r t e
    exact ⟨j, P, r, t, e, of_decide_eq_true h, rfl, nofun⟩
  · cases h

/-- The hypotheses of `c65_caught_time`, where the time is the reason: two slices are shown. -/
example : ∃ j P r t, program { tightArgs with timeout := some 1 } slowWorld = .ok (.caught j P r t) ∧ (shown r.obs).length = 2 := by
  have h : caughtView (program { tightArgs with timeout := some 1 } slowWorld) = some (1, 0, 2, 1) := by decide +kernel
  obtain ⟨j, P, r, t, h, -, -, e3, -⟩ := view_caught h
  exact ⟨j, P, r, t, h, e3⟩

/-- The hypotheses of `c65_graceful_lives`: an exception while the input is read is not caught. -/
example : tightArgs.graceful = true ∧ program tightArgs { bareWorld with stdin := "h q[0];\n".toList } = .throws := by
  refine ⟨rfl, ?_⟩
  have h : (match program tightArgs { bareWorld with stdin := "h q[0];\n".toList } with | .throws => true | _ => false) = true := by decide +kernel
  split at h
  · assumption
  · cases h

end Spec

end Verif.Slicer
