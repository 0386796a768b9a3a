import Verif.Slicer
import Verif.CompiledProps
import Verif.JsonRun
import Verif.StatsRun

/-! # The slicer program (lemmas) -/

namespace Verif.Slicer

open Verif Verif.Gates Verif.Stream Verif.Layouts Verif.Pipe Verif.Wave Verif.Apply
open Verif.Stream.Spec (Compiles)

/-! ## Steps -/

theorem act_goes {α β : Type} {x : Act α} {f : α → Act β} {b : β} : (x >>= f) = (Outcome.ok (Step.goes b) : Act β) ↔ ∃ a, x = (Outcome.ok (Step.goes a) : Act α) ∧ f a = (Outcome.ok (Step.goes b) : Act β) := by
  show Act.bind x f = _ ↔ _
  unfold Act.bind
  constructor
  · intro h
    split at h
    · exact ⟨_, rfl, h⟩
    · cases h
    · cases h
    · cases h
  · rintro ⟨a, rfl, h⟩
    exact h

theorem act_ok {α β : Type} {a : α} {f : α → Act β} : Bind.bind (m := Act) (Outcome.ok (Step.goes a)) f = f a := rfl

theorem act_pure {α : Type} {a b : α} : (pure a : Act α) = (Outcome.ok (Step.goes b) : Act α) ↔ a = b := by
  show (Outcome.ok (Step.goes a) : Outcome (Step α)) = _ ↔ _
  simp

theorem act_stop {α : Type} {s : Stop} {b : α} : ¬ (Act.stop s : Act α) = (Outcome.ok (Step.goes b) : Act α) := by
  intro h
  cases h

theorem lift_goes {α : Type} {x : Outcome α} {b : α} : Act.lift x = (Outcome.ok (Step.goes b) : Act α) ↔ x = .ok b := by
  cases x with
  | ok a => show (Outcome.ok (Step.goes a) : Outcome (Step α)) = _ ↔ _; simp
  | throws => simp [Act.lift]
  | ub => simp [Act.lift]

theorem oneOf_goes {α : Type} {table : List (String × α)} {dflt b : α} {v : Option Str} (h : oneOf table dflt v = (Outcome.ok (Step.goes b) : Act α)) :
    (v = none ∧ b = dflt) ∨ ∃ s e, v = some s ∧ e ∈ table ∧ e.1.toList = s ∧ e.2 = b := by
  unfold oneOf at h
  split at h
  · exact .inl ⟨rfl, (act_pure.1 h).symm⟩
  · rename_i s
    split at h
    · rename_i e he
      refine .inr ⟨s, e, rfl, List.mem_of_find?_eq_some he, ?_, act_pure.1 h⟩
      simpa using List.find?_some he
    · exact absurd h act_stop

/-! ## What was done when the run starts -/

theorem size_lt {dflt : Placement} {ls : List Str} {q : Option (Str × Nat)} {f : Qasm.GateFile} (h : Qasm.advanceGate dflt ls q = .ok f) (hq : ∀ x ∈ q, x.2 < 2 ^ 32) :
    ∀ x ∈ f.qreg, x.2 < 2 ^ 32 := by
  induction ls generalizing q with
  | nil => rw [Qasm.advanceGate] at h; cases h; exact hq
  | cons l ls ih =>
    rw [Qasm.advanceGate] at h
    split at h
    · exact ih h hq
    · obtain ⟨r, h1, h⟩ := Outcome.bind_eq_ok.1 h
      split at h
      · cases h; exact hq
      · exact ih h hq
      · rename_i n k
        split at h
        · refine ih h ?_
          intro x hx
          cases hx
          rw [Qasm.parseGate] at h1
          split at h1
          · cases h1
          · obtain ⟨ln, -, h1⟩ := Outcome.bind_eq_ok.1 h1
            split at h1
            · cases h1
            · split at h1
              · unfold Qasm.parseQreg at h1
                split at h1
                · obtain ⟨v, h2, h1⟩ := Outcome.bind_eq_ok.1 h1
                  obtain ⟨nm, -, h1⟩ := Outcome.bind_eq_ok.1 h1
                  cases h1
                  obtain ⟨_, -, h2⟩ := Outcome.bind_eq_ok.1 h2
                  obtain ⟨_, -, h2⟩ := Outcome.bind_eq_ok.1 h2
                  obtain ⟨v, -, h2⟩ := Outcome.bind_eq_ok.1 h2
                  cases h2
                  dsimp only
                  omega
                · cases h1
              · obtain ⟨g, -, h1⟩ := Outcome.bind_eq_ok.1 h1
                cases h1
        · cases h

theorem source_size {w : World} {s : Settings} {src : Source} (h : openSource w s = .ok src) : src.size < 2 ^ 32 := by
  unfold openSource at h
  split at h
  · obtain ⟨f, -, h⟩ := Outcome.bind_eq_ok.1 h
    obtain ⟨x, -, h⟩ := Outcome.bind_eq_ok.1 h
    cases h
  · obtain ⟨f, h1, h⟩ := Outcome.bind_eq_ok.1 h
    unfold Qasm.openGates at h1
    obtain ⟨f', h2, h1⟩ := Outcome.bind_eq_ok.1 h1
    split at h
    · cases h
    · rename_i reg n e
      cases h
      split at h1
      · cases h1
      · cases h1
        exact size_lt h2 (by simp) (reg, n) e
  · obtain ⟨⟨n, r⟩, h1, h⟩ := Outcome.bind_eq_ok.1 h
    cases h
    unfold Pandora.openDb at h1
    split at h1
    · cases h1
    · cases h1
      show w.qubits < 2 ^ 32
      omega

/-- Everything that is known of the job. -/
structure Prepared (a : Args) (w : World) (j : Job) : Prop where
  grid : ∃ g, fromGrid g a.options = .ok j.layout
  size : j.size < 2 ^ 32
  program : ∀ P, j.program = .ok (P, true) → ∃ m ex gs, Compiles m j.size ex gs P
  ancilla : j.pipeline = .edpc → j.loc = true
  loc : j.loc = a.loc
  twists : j.twists = !a.noTwists

theorem chosen_grid {a : Args} {w : World} {l : LayoutChoice} (h : chooseLayout a w = (Outcome.ok (Step.goes l) : Act _)) :
    ∀ L, l = .given L → ∃ g, fromGrid g a.options = .ok L := by
  intro L hl
  unfold chooseLayout at h
  split at h
  · obtain ⟨g, -, h⟩ := act_goes.1 h
    rw [act_pure] at h
    rw [← h] at hl
    cases hl
  · split at h
    · rw [act_pure] at h
      rw [← h] at hl
      cases hl
    · split at h
      · rw [lift_goes] at h; cases h
      · obtain ⟨L', h1, h⟩ := act_goes.1 h
        rw [lift_goes] at h1
        rw [act_pure] at h
        rw [← h] at hl
        cases hl
        obtain ⟨g, -, h2⟩ := Outcome.bind_eq_ok.1 h1
        exact ⟨g, h2⟩

theorem stages_grid {a : Args} {p : Pipeline} {n : Nat} {l : LayoutChoice} {L : Layout} {inj : Injection} {ok : Bool} (hl : ∀ L, l = .given L → ∃ g, fromGrid g a.options = .ok L)
    (h : chooseStages a p n l = (Outcome.ok (Step.goes (L, inj, ok)) : Act _)) : (∃ g, fromGrid g a.options = .ok L) ∧ (p = .edpc → ok = true → a.loc = true) := by
  unfold chooseStages at h
  split at h
  · obtain ⟨L', h1, h⟩ := act_goes.1 h
    rw [lift_goes] at h1
    rw [act_pure] at h
    cases h
    obtain ⟨t, -, h2⟩ := Outcome.bind_eq_ok.1 h1
    refine ⟨⟨_, h2⟩, fun e h => ?_⟩
    simp at h
    exact h.1.2
  · split at h
    · exact absurd h act_stop
    · obtain ⟨L', h1, h⟩ := act_goes.1 h
      rw [lift_goes] at h1
      obtain ⟨m, -, h⟩ := act_goes.1 h
      rw [act_pure] at h
      cases h
      obtain ⟨t, -, h2⟩ := Outcome.bind_eq_ok.1 h1
      exact ⟨⟨_, h2⟩, by simp⟩
  · split at h
    · exact absurd h act_stop
    · rw [act_pure] at h
      cases h
      exact ⟨hl _ rfl, by simp⟩

theorem instructions_compiles {w : World} {src : Source} {dflt : Placement} {m : Mode} {inj : Injection} {P : List Instr} (h : instructions w src dflt m inj = .ok (P, true)) :
    ∃ ex gs, Compiles m src.size ex gs P := by
  obtain ⟨⟨gs, b1⟩, -, h⟩ := Outcome.bind_eq_ok.1 h
  obtain ⟨⟨ds, b2⟩, -, h⟩ := Outcome.bind_eq_ok.1 h
  obtain ⟨⟨out, b3, c⟩, h2, h⟩ := Outcome.bind_eq_ok.1 h
  have h' := (Outcome.ok.inj h)
  simp only [Prod.mk.injEq, Bool.and_eq_true] at h'
  obtain ⟨rfl, ⟨-, -⟩, rfl⟩ := h'
  cases inj with
  | none => exact ⟨fun _ => none, ds, .plain _ _ h2⟩
  | teleported => exact ⟨fun _ => none, ds, .teleported _ _ h2⟩
  | catalytic => exact ⟨fun _ => none, ds, .catalytic _ _ h2⟩
  | boundary e => exact ⟨e, ds, .compact _ _ h2⟩

theorem prepared {a : Args} {w : World} {j : Job} (h : prepare a w = (Outcome.ok (Step.goes j) : Act _)) : Prepared a w j := by
  obtain ⟨s, h1, h⟩ := act_goes.1 h
  obtain ⟨src, h2, h⟩ := act_goes.1 h
  rw [lift_goes] at h2
  obtain ⟨always, -, h⟩ := act_goes.1 h
  obtain ⟨⟨L, inj, ok⟩, h3, h⟩ := act_goes.1 h
  dsimp only at h
  split at h
  · rw [lift_goes] at h; cases h
  · rename_i hv
    obtain ⟨lli, -, h⟩ := act_goes.1 h
    obtain ⟨cached, -, h⟩ := act_goes.1 h
    obtain ⟨provider, -, h⟩ := act_goes.1 h
    rw [act_pure] at h
    subst h
    obtain ⟨lay, h4, h1⟩ := act_goes.1 h1
    obtain ⟨f, -, h1⟩ := act_goes.1 h1
    obtain ⟨rep, -, h1⟩ := act_goes.1 h1
    have hlay : s.layout = lay := by
      split at h1
      · exact absurd h1 act_stop
      · obtain ⟨d, -, h1⟩ := act_goes.1 h1
        obtain ⟨p, -, h1⟩ := act_goes.1 h1
        split at h1
        · rw [act_pure] at h1; rw [← h1]
        · split at h1
          · exact absurd h1 act_stop
          · rw [act_pure] at h1; rw [← h1]
    rw [hlay] at h3
    obtain ⟨h5, h6⟩ := stages_grid (chosen_grid h4) h3
    refine ⟨h5, source_size h2, ?_, ?_, rfl, rfl⟩
    · intro P hP
      obtain ⟨ex, gs, hc⟩ := instructions_compiles hP
      exact ⟨_, ex, gs, hc⟩
    · intro e
      dsimp only at e
      refine h6 e ?_
      cases ok with
      | true => rfl
      | false => simp [e] at hv

/-! ## The run -/

theorem bare_map {ρ : Type} (l : List (Obs (Mach ρ))) : bare l = l.map (mapObs (·.slice)) := by
  induction l with
  | nil => rfl
  | cons o l ih => cases o <;> simp [bare, mapObs, ih]

theorem shown_slices (l : List (Obs DSlice)) : shown l = Pipe.Spec.slices l := by
  induction l with
  | nil => rfl
  | cons o l ih => cases o <;> simp [shown, ih, Pipe.Spec.slices]

theorem shown_bare {ρ : Type} (l : List (Obs (Mach ρ))) : shown (bare l) = (Pipe.Spec.slices l).map (·.slice) := by
  induction l with
  | nil => rfl
  | cons o l ih => cases o <;> simp [bare, shown, ih, Pipe.Spec.slices]

def Pipeline.loop : Pipeline → Real.Spec.Loop
  | .stream => .streamed
  | .dag => .dag
  | .wave => .wave
  | .edpc => .wave

theorem pipeline_account {ρ : Type} {w : World} {ctx : Ctx ρ} {rs : ρ} {p : Pipeline} {ids : List Nat} {P : List Instr} {r : Ran} (h : pipeline w ctx rs p ids P = .ok (some r)) :
    ∃ s A, DSlice.init ctx.layout ids = .ok s ∧ Real.Spec.Account (Real.env ctx w.realloc) P ⟨s, rs, 1⟩ p.loop A ∧ r.obs = bare A := by
  obtain ⟨s, hs, h⟩ := Outcome.bind_eq_ok.1 h
  refine ⟨s, ?_⟩
  have wave : (if fitsWave P = true then do
        let (b, x) ← wrun (Real.env ctx w.realloc) w.depth w.steps ⟨start ⟨s, rs, 1⟩ P, 1, [], []⟩
        .ok (some (⟨bare x.obs, instrCount x.obs, x.count, if b then .finished else .running⟩ : Ran))
      else .ok none) = .ok (some r) → ∃ A, Real.Spec.Account (Real.env ctx w.realloc) P ⟨s, rs, 1⟩ .wave A ∧ r.obs = bare A := by
    intro h
    split at h
    · rename_i hf
      obtain ⟨⟨b, x⟩, h1, h⟩ := Outcome.bind_eq_ok.1 h
      cases h
      refine ⟨x.obs, .wave _ _ ?_ h1, rfl⟩
      unfold fitsWave at hf
      rw [List.all_eq_true] at hf
      intro i hi
      have := hf i hi
      simpa using this
    · cases h
  cases p with
  | stream =>
    obtain ⟨⟨c, st⟩, h1, h⟩ := Outcome.bind_eq_ok.1 h
    cases h
    exact ⟨_, hs, .streamed _ h1, rfl⟩
  | dag =>
    obtain ⟨st0, h0, h⟩ := Outcome.bind_eq_ok.1 h
    obtain ⟨⟨b, st⟩, h1, h⟩ := Outcome.bind_eq_ok.1 h
    cases h
    exact ⟨_, hs, .dag _ h0 h1, rfl⟩
  | wave => obtain ⟨A, h1, h2⟩ := wave h; exact ⟨A, hs, h1, h2⟩
  | edpc => obtain ⟨A, h1, h2⟩ := wave h; exact ⟨A, hs, h1, h2⟩

/-- A run of one of the pipelines on the layout, with some router. -/
structure Traced {ρ : Type} (w : World) (j : Job) (P : List Instr) (r : Ran) (ctx : Ctx ρ) (rs : ρ) (s : DSlice) (A : List (Obs (Mach ρ))) : Prop where
  layout : ctx.layout = j.layout
  first : DSlice.init j.layout (coreQubits j.size) = .ok s
  account : Real.Spec.Account (Real.env ctx w.realloc) P ⟨s, rs, 1⟩ j.pipeline.loop A
  obs : r.obs = bare A
  usual : Compiled.Spec.Usual ctx rs
  shared : j.pipeline ≠ .edpc → ctx.router.edpc = false

theorem slice_traced {w : World} {j : Job} {P : List Instr} {r : Ran} (h : slice w j P = .ok (some r)) :
    ∃ (ρ : Type) (ctx : Ctx ρ) (rs : ρ) (s : DSlice) (A : List (Obs (Mach ρ))), Traced w j P r ctx rs s A := by
  have key : ∀ {ρ : Type} (R : RouterI ρ) (rs : ρ), pipeline w (j.ctx w R) rs j.pipeline (coreQubits j.size) P = .ok (some r) → Compiled.Spec.Usual (j.ctx w R) rs →
      (j.pipeline ≠ .edpc → R.edpc = false) → ∃ (ρ : Type) (ctx : Ctx ρ) (rs : ρ) (s : DSlice) (A : List (Obs (Mach ρ))), Traced w j P r ctx rs s A := by
    intro ρ R rs h h1 h2
    obtain ⟨s, A, e1, e2, e3⟩ := pipeline_account h
    exact ⟨ρ, _, rs, s, A, rfl, e1, e2, e3, h1, h2⟩
  unfold slice at h
  split at h
  · rename_i he
    split at h
    · cases h
    · refine key _ () (by rw [he]; exact h) (.search _ _ _ rfl) (fun hn => absurd he hn)
  · split at h
    · rename_i e
      split at h
      · exact key _ () h (.boost _ rfl) (fun _ => rfl)
      · cases h
    · split at h
      · exact key _ _ h (.storedBoost _ rfl) (fun _ => rfl)
      · cases h
    · exact key _ () h (.search _ _ _ rfl) (fun _ => rfl)
    · exact key _ _ h (.stored _ _ rfl) (fun _ => rfl)

/-- Nothing was shown, or there was a run. -/
theorem ran_traced {a : Args} {w : World} {j : Job} {P : List Instr} {r : Ran} (h : ran a w j P = .ok (some r)) :
    r.obs = [] ∨ ∃ (ρ : Type) (ctx : Ctx ρ) (rs : ρ) (s : DSlice) (A : List (Obs (Mach ρ))), Traced w j P r ctx rs s A := by
  unfold ran at h
  split at h
  · split at h
    · split at h
      · cases h; exact .inl rfl
      · cases h
    · cases h
  · exact .inr (slice_traced h)

theorem rescue_result {a : Args} {w : World} {j : Job} {P : List Instr} {x : Result} (h : rescue a w j P = .ok x) : x = .unknown ∨ ∃ r t, x = .caught j P r t := by
  unfold rescue at h
  split at h
  · split at h
    · cases h; exact .inl rfl
    · obtain ⟨t, -, h⟩ := Outcome.bind_eq_ok.1 h
      cases h
      exact .inr ⟨_, t, rfl⟩
  · cases h; exact .inl rfl

theorem transcript_seen {a : Args} {w : World} {j : Job} {r : Ran} {t : List (Chan × Str)} (h : transcript a w j r = .ok t) : unseen a w j r = false := by
  obtain ⟨x, h1, -⟩ := Outcome.bind_eq_ok.1 h
  unfold unseen
  rw [h1]

theorem program_sliced {a : Args} {w : World} {j : Job} {P : List Instr} {r : Ran} {t : List (Chan × Str)} (h : program a w = .ok (.sliced j P r t)) :
    prepare a w = (Outcome.ok (Step.goes j) : Act _) ∧ j.program = .ok (P, true) ∧ ran a w j P = .ok (some r) ∧ outOfTime a w r = false ∧ (r.phase = .failed → a.graceful = true) ∧
      transcript a w j r = .ok t := by
  unfold program at h
  split at h
  · cases h
  · rename_i j' hj
    unfold perform at h
    split at h
    · rename_i P' b hp
      split at h
      · cases h
      · rename_i hb
        split at h
        · rcases rescue_result h with e | ⟨_, _, e⟩ <;> cases e
        · rename_i r' hr
          split at h
          · split at h
            · rcases rescue_result h with e | ⟨_, _, e⟩ <;> cases e
            · cases h
          · rename_i ho
            split at h
            · cases h
            rename_i hg
            split at h
            · cases h
            · obtain ⟨t', ht, h⟩ := Outcome.bind_eq_ok.1 h
              cases h
              refine ⟨hj, ?_, hr, by simpa using ho, fun hf => ?_, ht⟩
              · rw [hp]; simp at hb; rw [hb]
              · cases hx : a.graceful with
                | true => rfl
                | false => exact absurd ⟨hf, hx⟩ hg
        · cases h
        · cases h
    · split at h <;> cases h
    · cases h
  · cases h
  · cases h

theorem sliced_program {a : Args} {w : World} {j : Job} {P : List Instr} {r : Ran} {t : List (Chan × Str)}
    (h1 : prepare a w = (Outcome.ok (Step.goes j) : Act _)) (h2 : j.program = .ok (P, true)) (h3 : ran a w j P = .ok (some r)) (h4 : outOfTime a w r = false)
    (h5 : r.phase = .failed → a.graceful = true) (h6 : transcript a w j r = .ok t) : program a w = .ok (.sliced j P r t) := by
  unfold program
  rw [h1]
  dsimp only
  unfold perform
  rw [h2]
  dsimp only
  rw [if_neg (by simp), h3]
  dsimp only
  rw [h4, if_neg (by simp), if_neg (by rintro ⟨x, y⟩; rw [h5 x] at y; cases y), transcript_seen h6, if_neg (by simp), h6]
  rfl

theorem program_congr {a b : Args} {w : World} (h1 : prepare a w = prepare b w) (h2 : ∀ j, perform a w j = perform b w j) : program a w = program b w := by
  unfold program
  rw [h1]
  cases prepare b w with
  | ok x => cases x <;> simp [h2]
  | throws => rfl
  | ub => rfl

theorem visitAll_congr {a b : Args} {w : World} {j : Job} (h : prints a j = prints b j) (k : Nat) (l : List (Obs DSlice)) : visitAll a w j k l = visitAll b w j k l := by
  induction l generalizing k with
  | nil => rfl
  | cons o l ih =>
    have hv : visit a w j k o = visit b w j k o := by
      cases o with
      | instr i => rfl
      | slice s => simp [visit, drawing, h]
    cases o <;> simp only [visitAll, hv, ih]

/-- The options used while slicing. -/
theorem perform_congr {a b : Args} {w : World} {j : Job} (h1 : a.output.isSome = b.output.isSome) (h2 : a.noSlices = b.noSlices) (h3 : a.graceful = b.graceful)
    (h4 : a.timeout.isSome = b.timeout.isSome) : perform a w j = perform b w j := by
  have hp : prints a j = prints b j := by simp [prints, h2]
  have hr : a.reports = b.reports := by simp [Args.reports, h1, h2]
  have ht : ∀ r, transcript a w j r = transcript b w j r := by
    intro r
    unfold transcript
    rw [visitAll_congr hp]
    simp [reportText, closing, hp, hr]
  have hv : ∀ r, unseen a w j r = unseen b w j r := by
    intro r
    unfold unseen
    rw [visitAll_congr hp]
  have hc : clock a w = clock b w := by
    unfold clock
    rw [h4]
  unfold perform rescue outOfTime ran
  simp only [h3, h4, ht, hv, hc]

/-- The options used after the settings were read. -/
structure Alike (a b : Args) : Prop where
  corrections : ∀ w s src, correctionsOf a w s src = correctionsOf b w s src
  stages : ∀ p n l, chooseStages a p n l = chooseStages b p n l
  loc : a.loc = b.loc
  lli : ∀ s x, lliMode a s x = lliMode b s x
  router : oneOf routers false a.router = oneOf routers false b.router
  search : oneOf providers .djikstra a.search = oneOf providers .djikstra b.search
  noTwists : a.noTwists = b.noTwists
  opIds : a.opIds = b.opIds

theorem prepare_congr {a b : Args} {w : World} (h1 : settings a w = settings b w) (h2 : Alike a b) : prepare a w = prepare b w := by
  unfold prepare
  rw [h1, h2.loc, h2.router, h2.search, h2.noTwists, h2.opIds]
  simp only [h2.corrections, h2.stages, h2.lli]

/-! ## What was asked for -/

/-- What the options say about the job. -/
structure Asked (a : Args) (w : World) (j : Job) : Prop where
  loc : j.loc = a.loc
  json : a.printLli = none → j.lli = .none
  listed : j.lli ≠ .before
  sliced : a.printLli ≠ none → j.lli = .sliced
  quiet : a.report = none → a.reports = false → j.report = .noProgress
  shared : a.pipeline ≠ some "edpc".toList → j.pipeline ≠ .edpc
  pipe : ∀ p, (a.pipeline, p) ∈ [(none, Pipeline.stream), (some "stream".toList, .stream), (some "dag".toList, .dag), (some "wave".toList, .wave), (some "edpc".toList, .edpc)] → j.pipeline = p

theorem asked {a : Args} {w : World} {j : Job} (h : prepare a w = (Outcome.ok (Step.goes j) : Act _)) : Asked a w j := by
  obtain ⟨s, h1, h⟩ := act_goes.1 h
  obtain ⟨src, h2, h⟩ := act_goes.1 h
  obtain ⟨always, -, h⟩ := act_goes.1 h
  obtain ⟨⟨L, inj, ok⟩, h3, h⟩ := act_goes.1 h
  dsimp only at h
  split at h
  · rw [lift_goes] at h; cases h
  obtain ⟨lli, hl, h⟩ := act_goes.1 h
  obtain ⟨cached, -, h⟩ := act_goes.1 h
  obtain ⟨provider, hp, h⟩ := act_goes.1 h
  rw [act_pure] at h
  subst h
  obtain ⟨l, hl1, hl⟩ := act_goes.1 hl
  have hlb : lli = l ∧ l ≠ .before := by
    split at hl
    · obtain ⟨x, -, hl⟩ := act_goes.1 hl
      obtain ⟨y, -, hl⟩ := act_goes.1 hl
      exact absurd hl act_stop
    · rename_i hb
      split at hl
      · obtain ⟨x, -, hl⟩ := act_goes.1 hl
        obtain ⟨y, -, hl⟩ := act_goes.1 hl
        exact absurd hl act_stop
      · rw [act_pure] at hl
        exact ⟨hl.symm, hb⟩
  obtain ⟨rfl, hb⟩ := hlb
  obtain ⟨lay, -, h1⟩ := act_goes.1 h1
  obtain ⟨f, -, h1⟩ := act_goes.1 h1
  obtain ⟨rep, hr, h1⟩ := act_goes.1 h1
  have hs : s.report = rep ∧ oneOf pipelines .stream a.pipeline = (Outcome.ok (Step.goes s.pipeline) : Act _) := by
    split at h1
    · exact absurd h1 act_stop
    · obtain ⟨d, -, h1⟩ := act_goes.1 h1
      obtain ⟨p, hp, h1⟩ := act_goes.1 h1
      split at h1
      · rw [act_pure] at h1; rw [← h1]; exact ⟨rfl, hp⟩
      · split at h1
        · exact absurd h1 act_stop
        · rw [act_pure] at h1; rw [← h1]; exact ⟨rfl, hp⟩
  refine ⟨rfl, ?_, hb, ?_, ?_, ?_, ?_⟩
  · intro e
    rw [e] at hl1
    exact (act_pure.1 hl1).symm
  · intro hn
    rcases oneOf_goes hl1 with ⟨e, -⟩ | ⟨v, e, -, h5, -, h7⟩
    · exact absurd e hn
    · simp [lliPrints] at h5
      rcases h5 with rfl | rfl | rfl
      · exact absurd h7.symm hb
      · exact absurd h7.symm hb
      · exact h7.symm
  · intro e1 e2
    dsimp only
    rw [hs.1]
    rw [e1, e2] at hr
    exact (act_pure.1 hr).symm
  · intro hn e
    dsimp only at e
    have h6 := hs.2
    rw [e] at h6
    rcases oneOf_goes h6 with ⟨-, h⟩ | ⟨v, e, h4, h5, h6, h7⟩
    · cases h
    · simp [pipelines] at h5
      rcases h5 with rfl | rfl | rfl | rfl | rfl
      · cases h7
      · cases h7
      · cases h7
      · cases h7
      · exact hn (by rw [h4, ← h6])
  · intro p hp
    dsimp only
    have h6 := hs.2
    simp only [List.mem_cons, Prod.mk.injEq, List.not_mem_nil, or_false] at hp
    rcases hp with ⟨e, rfl⟩ | ⟨e, rfl⟩ | ⟨e, rfl⟩ | ⟨e, rfl⟩ | ⟨e, rfl⟩ <;> rw [e] at h6 <;> exact (act_pure.1 (show (pure _ : Act _) = _ from h6)).symm

/-! ## What is written -/

theorem arrives_append (c : Chan → Bool) (x y : List (Chan × Str)) : arrives c (x ++ y) = arrives c x ++ arrives c y := by
  simp [arrives]

theorem drawing_bulk {a : Args} {j : Job} {k : Nat} {s : DSlice} {x : List (Chan × Str)} (h : drawing a j k s = .ok x) :
    (prints a j = false ∧ x = []) ∨ ∃ d, prints a j = true ∧ Json.sliceJson j.layout s = .ok d ∧ x = [(.bulk, (if k = 0 then "[\n".toList else ",\n".toList) ++ Json.dump 0 d)] := by
  unfold drawing at h
  split at h
  · rename_i hp
    obtain ⟨d, h1, h⟩ := Outcome.bind_eq_ok.1 h
    cases h
    exact .inr ⟨d, hp, h1, rfl⟩
  · rename_i hp
    cases h
    exact .inl ⟨by simpa using hp, rfl⟩

theorem progress_out {w : World} {j : Job} {k : Nat} : ∀ e ∈ progressLine w j k, e.1 = .out := by
  unfold progressLine
  split <;> simp

theorem bulk_none {y : List (Chan × Str)} (h : ∀ e ∈ y, e.1 ≠ .bulk) : bulk y = [] := by
  unfold bulk arrives
  rw [List.filter_eq_nil_iff.2]
  · rfl
  · intro e he
    simp [h e he]

theorem bulk_append (x y : List (Chan × Str)) : bulk (x ++ y) = bulk x ++ bulk y := arrives_append _ x y

theorem bulk_progress {w : World} {j : Job} {k : Nat} : bulk (progressLine w j k) = [] := bulk_none fun e he => by rw [progress_out e he]; simp

/-- The drawings. -/
theorem visitAll_written {a : Args} {w : World} {j : Job} (hp : prints a j = true) {l : List (Obs DSlice)} {k : Nat} {x : List (Chan × Str)} (h : visitAll a w j k l = .ok x) :
    Json.written j.layout (shown l) (decide (k = 0)) = .ok (bulk x) := by
  have hl : j.lli = .none := by simp [prints] at hp; exact hp.2
  induction l generalizing k x with
  | nil => cases h; rfl
  | cons o l ih =>
    obtain ⟨y, h1, h⟩ := Outcome.bind_eq_ok.1 h
    obtain ⟨z, h2, h⟩ := Outcome.bind_eq_ok.1 h
    cases h
    cases o with
    | instr i =>
      simp [visit, hl] at h1
      subst h1
      exact ih h2
    | slice s =>
      obtain ⟨u, h3, h1⟩ := Outcome.bind_eq_ok.1 h1
      cases h1
      rcases drawing_bulk h3 with ⟨e, -⟩ | ⟨d, -, e1, rfl⟩
      · rw [hp] at e; cases e
      · have := ih h2
        simp at this
        rw [shown, Json.written, e1, Outcome.bind_ok, this, Outcome.bind_ok]
        rw [bulk_append, bulk_append, bulk_append, bulk_progress]
        by_cases hk : k = 0 <;> simp [bulk, arrives, hk, lineEnd, hl]

/-- Whether slices are drawn does not matter for the rest. -/
theorem visitAll_rest {a b : Args} {w : World} {j : Job} {l : List (Obs DSlice)} {k : Nat} {x : List (Chan × Str)} (h : visitAll a w j k l = .ok x) (hb : prints b j = false) :
    ∃ y, visitAll b w j k l = .ok y ∧ arrives (· != .bulk) y = arrives (· != .bulk) x ∧ (prints a j = false → y = x) := by
  induction l generalizing k x with
  | nil => cases h; exact ⟨_, rfl, rfl, fun _ => rfl⟩
  | cons o l ih =>
    obtain ⟨y, h1, h⟩ := Outcome.bind_eq_ok.1 h
    obtain ⟨z, h2, h⟩ := Outcome.bind_eq_ok.1 h
    cases h
    obtain ⟨z', e1, e2, e3⟩ := ih h2
    cases o with
    | instr i =>
      refine ⟨y ++ z', ?_, ?_, ?_⟩
      · show (visit b w j k (.instr i) >>= fun _ => _) = _
        rw [show visit b w j k (.instr i) = visit a w j k (.instr i) from rfl, h1, Outcome.bind_ok, e1]
        rfl
      · rw [arrives_append, arrives_append, e2]
      · intro hp; rw [e3 hp]
    | slice s =>
      obtain ⟨u, h3, h1⟩ := Outcome.bind_eq_ok.1 h1
      cases h1
      have hd : drawing b j k s = .ok [] := by unfold drawing; rw [hb]; rfl
      refine ⟨([] ++ progressLine w j k ++ lineEnd j) ++ z', ?_, ?_, ?_⟩
      · show (visit b w j k (.slice s) >>= fun _ => _) = _
        rw [visit, hd, Outcome.bind_ok, Outcome.bind_ok, e1]
        rfl
      · rw [arrives_append, arrives_append, arrives_append, arrives_append, e2, arrives_append, arrives_append]
        rcases drawing_bulk h3 with ⟨-, rfl⟩ | ⟨d, -, -, rfl⟩
        · rfl
        · rfl
      · intro hp
        rw [e3 hp]
        rcases drawing_bulk h3 with ⟨-, rfl⟩ | ⟨d, e, -⟩
        · rfl
        · rw [hp] at e; cases e

/-- The instructions slice by slice. -/
theorem visitAll_sliced {a : Args} {w : World} {j : Job} (hl : j.lli = .sliced) {l : List (Obs DSlice)} {k : Nat} {x : List (Chan × Str)} (h : visitAll a w j k l = .ok x) :
    Sliced.slicedGo l = .ok (bulk x) := by
  have hp : prints a j = false := by simp [prints, hl]
  induction l generalizing k x with
  | nil => cases h; rfl
  | cons o l ih =>
    obtain ⟨y, h1, h⟩ := Outcome.bind_eq_ok.1 h
    obtain ⟨z, h2, h⟩ := Outcome.bind_eq_ok.1 h
    cases h
    cases o with
    | instr i =>
      simp only [visit, hl, if_true] at h1
      obtain ⟨t, h3, h1⟩ := Outcome.bind_eq_ok.1 h1
      cases h1
      rw [Sliced.slicedGo, h3, Outcome.bind_ok, ih h2, Outcome.bind_ok]
      simp [bulk, arrives]
    | slice s =>
      obtain ⟨u, h3, h1⟩ := Outcome.bind_eq_ok.1 h1
      cases h1
      rcases drawing_bulk h3 with ⟨-, rfl⟩ | ⟨d, e, -⟩
      · rw [Sliced.slicedGo, ih h2, Outcome.bind_ok]
        rw [bulk_append, bulk_append, bulk_append, bulk_progress]
        simp [bulk, arrives, lineEnd, hl]
      · rw [hp] at e; cases e

theorem report_out {a : Args} {w : World} {j : Job} {r : Ran} {y : List (Chan × Str)} (h : reportText a w j r = .ok y) : ∀ e ∈ y, e.1 = .out := by
  unfold reportText at h
  split at h
  · cases h; simp
  · split at h
    · cases h; simp
    · cases h; simp
    · cases h; simp
    · obtain ⟨v, -, h⟩ := Outcome.bind_eq_ok.1 h
      cases h; simp

theorem transcript_bulk {a : Args} {w : World} {j : Job} {r : Ran} {t : List (Chan × Str)} (h : transcript a w j r = .ok t) (hr : r.phase ≠ .running) :
    ∃ x, visitAll a w j 0 r.obs = .ok x ∧ bulk t = bulk x ++ bulk (closing a j) := by
  obtain ⟨x, h1, h⟩ := Outcome.bind_eq_ok.1 h
  refine ⟨x, h1, ?_⟩
  split at h
  · rename_i e; exact absurd e hr
  · obtain ⟨y, h2, h⟩ := Outcome.bind_eq_ok.1 h
    cases h
    have e1 : bulk y = [] := bulk_none fun e he => by rw [report_out h2 e he]; simp
    have e2 : bulk (if r.phase = .failed then halted w else []) = [] := by
      refine bulk_none fun e he => ?_
      split at he
      · simp [halted] at he; rw [he]; simp
      · cases he
    unfold bulk at *
    rw [arrives_append, arrives_append, arrives_append, e1, e2]
    simp

end Verif.Slicer
