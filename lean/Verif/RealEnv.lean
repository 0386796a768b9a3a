import Verif.WaveSteps
import Verif.PipelineDag
import Verif.PipelineStream
import Verif.BellRun

/-! # The pipelines with the instruction application of the code: lemmas -/

namespace Verif.Real

open Verif Apply Verif.Wave

section
variable {ρ : Type}

/-- The pipelines as they are run: `try_apply_instruction_direct_followup`, `advance_slice`, and the resetting of marks. -/
def env (ctx : Ctx ρ) (realloc : Nat → Bool) : Env (Mach ρ) where
  apply := Apply.apply ctx
  advance := Apply.step ctx
  reset m := do
    let s ← resetMarked m.slice
    .ok { m with slice := s }
  edpc := ctx.router.edpc
  realloc := realloc

/-- The three ways a result can look. -/
inductive Shape (ctx : Ctx ρ) (i : Instr) (r : Res (Mach ρ)) : Prop
  | done (h : r.followups = [])
  | more (f : Instr) (h : r.followups = [f]) (he : r.err = false) (hf : f = r.instr ∨ ∀ c, f.op ≠ .bellCnot c)
  | deferred (c : BellCNOT) (hi : i.op = .bellCnot c) (hr : c.route = none) (x : RoutingRegion) (hx : r.instr.op = .bellCnot { c with route := some x })
      (h : r.followups = [r.instr]) (he : r.err = true) (hd : ctx.router.edpc = true)

structure Kept (ctx : Ctx ρ) (i : Instr) (r : Res (Mach ρ)) : Prop where
  wait : r.instr.wait = i.wait
  shape : Shape ctx i r
  kind : (∃ c, i.op = .bellCnot c) ∨ ∀ c, r.instr.op = .bellCnot c → r.instr = i

theorem kept_fail {ctx : Ctx ρ} {m : Mach ρ} {i : Instr} {r : Res (Mach ρ)} (h : fail m i = .ok r) : Kept ctx i r := by
  cases h; exact ⟨rfl, .done rfl, .inr fun _ _ => rfl⟩

theorem kept_success {ctx : Ctx ρ} {m : Mach ρ} {i : Instr} {r : Res (Mach ρ)} (h : success m i = .ok r) : Kept ctx i r := by
  cases h; exact ⟨rfl, .done rfl, .inr fun _ _ => rfl⟩

theorem kept_bellRun {ctx : Ctx ρ} {m : Mach ρ} {i : Instr} {b : BellInit} {l : List LocalInstr} {k : Nat} {r : Res (Mach ρ)}
    (h : bellInitRun ctx m i b l k = .ok r) : Kept ctx i r := by
  unfold bellInitRun at h
  obtain ⟨x, -, h⟩ := Outcome.bind_eq_ok.1 h
  split at h
  · cases h; exact ⟨rfl, .done rfl, .inr fun c e => by cases e⟩
  · cases h; exact ⟨rfl, .more _ rfl rfl (.inl rfl), .inr fun c e => by cases e⟩

theorem kept_cnotRun {ctx : Ctx ρ} {m : Mach ρ} {i : Instr} {c : BellCNOT} {sets : List (List LocalInstr)} {ps : List (Nat × Nat)} {r : Res (Mach ρ)}
    (hi : i.op = .bellCnot c) (h : cnotRun ctx m i c sets ps = .ok r) : Kept ctx i r := by
  unfold cnotRun at h
  split at h
  · obtain ⟨x, -, h⟩ := Outcome.bind_eq_ok.1 h
    dsimp only at h
    split at h
    · cases h; exact ⟨rfl, .done rfl, .inl ⟨c, hi⟩⟩
    · cases h; exact ⟨rfl, .more _ rfl rfl (.inl rfl), .inl ⟨c, hi⟩⟩
  · cases h

/-- What `cnotPhase` leaves behind. -/
theorem cnotPhase_shape {ctx : Ctx ρ} {m : Mach ρ} {i : Instr} {c : BellCNOT} {sets : List (List LocalInstr)} {ps : List (Nat × Nat)} {k : Nat} {r : Res (Mach ρ)}
    (h : cnotPhase ctx m i c sets ps k = .ok r) :
    r.instr.wait = i.wait ∧ r.err = false ∧ (r.followups = [] ∨ r.followups = [r.instr]) ∧ (k = 0 → 1 < sets.length → r.followups = [r.instr]) ∧
    ∃ ps' k', r.instr.op = .bellCnot { c with counterPairs := some ps', phase := k' } := by
  unfold cnotPhase at h
  split at h
  · obtain ⟨x, -, h⟩ := Outcome.bind_eq_ok.1 h
    dsimp only at h
    split at h
    · cases h; exact ⟨rfl, rfl, .inr rfl, fun _ _ => rfl, _, _, rfl⟩
    · split at h
      · rename_i hk
        cases h
        refine ⟨rfl, rfl, .inl rfl, fun h1 h2 => ?_, _, _, rfl⟩
        rcases hk with hk | hk <;> omega
      · cases h; exact ⟨rfl, rfl, .inr rfl, fun _ _ => rfl, _, _, rfl⟩
  · cases h

theorem cnotRoute_shape {ctx : Ctx ρ} {m : Mach ρ} {i : Instr} {c : BellCNOT} {r : Res (Mach ρ)} (h : cnotRoute ctx m i c = .ok r) :
    (r.instr = i ∧ r.err = true ∧ r.followups = []) ∨
    (r.instr.wait = i.wait ∧ r.err = true ∧ r.followups = [r.instr] ∧ ∃ x, r.instr.op = .bellCnot { c with route := some x }) := by
  unfold cnotRoute at h
  obtain ⟨⟨rt, rs⟩, -, h⟩ := Outcome.bind_eq_ok.1 h
  dsimp only at h
  cases rt with
  | none => cases h; exact .inl ⟨rfl, rfl, rfl⟩
  | some region =>
    dsimp only at h
    split at h
    · cases h
    · obtain ⟨reg, -, h⟩ := Outcome.bind_eq_ok.1 h
      obtain ⟨x, -, h⟩ := Outcome.bind_eq_ok.1 h
      cases h
      exact .inr ⟨rfl, rfl, rfl, _, rfl⟩

theorem cnotDecompose_shape {m : Mach ρ} {i : Instr} {c : BellCNOT} {region : RoutingRegion} {r : Res (Mach ρ)} (h : cnotDecompose m i c region = .ok r) :
    r.instr.wait = i.wait ∧ r.err = true ∧ r.followups = [] ∧
    ∃ s1 s2 s3 s4 ps, r.instr.op = .bellCnot { c with localSets := some [s1, s2, s3, s4], counterPairs := some ps, phase := some 0 } := by
  unfold cnotDecompose at h
  obtain ⟨e, -, h⟩ := Outcome.bind_eq_ok.1 h
  obtain ⟨p, -, h⟩ := Outcome.bind_eq_ok.1 h
  cases h
  exact ⟨rfl, rfl, rfl, _, _, _, _, _, rfl⟩

theorem kept_cnot {ctx : Ctx ρ} {m : Mach ρ} {i : Instr} {c : BellCNOT} (hi : i.op = .bellCnot c) {r : Res (Mach ρ)} (h : applyCnot ctx m i c = .ok r) :
    Kept ctx i r := by
  unfold applyCnot at h
  split at h
  · cases h
  · split at h
    · split at h
      · exact kept_fail h
      · split at h
        · rename_i hd
          unfold applyCnotEdpc at h
          split at h
          · rename_i hr
            rcases cnotRoute_shape h with ⟨h1, h2, h3⟩ | ⟨h1, h2, h3, x, h4⟩
            · exact ⟨by rw [h1], .done h3, .inl ⟨c, hi⟩⟩
            · exact ⟨h1, .deferred c hi hr x h4 h3 h2 hd, .inl ⟨c, hi⟩⟩
          · split at h
            · obtain ⟨h1, -, h3, -⟩ := cnotDecompose_shape h
              exact ⟨h1, .done h3, .inl ⟨c, hi⟩⟩
            · split at h
              · obtain ⟨h1, h2, h3, -⟩ := cnotPhase_shape h
                rcases h3 with h3 | h3
                · exact ⟨h1, .done h3, .inl ⟨c, hi⟩⟩
                · exact ⟨h1, .more _ h3 h2 (.inl rfl), .inl ⟨c, hi⟩⟩
              · cases h
        · unfold applyCnotPlain at h
          split at h
          · split at h
            · cases h
            · exact kept_cnotRun hi h
          · obtain ⟨⟨rt, rs⟩, -, h⟩ := Outcome.bind_eq_ok.1 h
            dsimp only at h
            cases rt with
            | none => exact kept_fail h
            | some region =>
              dsimp only at h
              split at h
              · cases h
              · obtain ⟨reg, -, h⟩ := Outcome.bind_eq_ok.1 h
                obtain ⟨l, -, h⟩ := Outcome.bind_eq_ok.1 h
                exact kept_cnotRun hi h
    · exact kept_fail h

theorem kept_apply {ctx : Ctx ρ} {m : Mach ρ} {i : Instr} {r : Res (Mach ρ)} (h : Apply.apply ctx m i = .ok r) : Kept ctx i r := by
  unfold Apply.apply at h
  split at h
  · unfold applyMeasure at h
    split at h
    · exact kept_fail h
    · exact kept_success h
  · unfold applySq at h
    split at h
    · split at h
      · split at h
        · cases h
        · obtain ⟨⟨m', ok⟩, -, h⟩ := Outcome.bind_eq_ok.1 h
          dsimp only at h
          split at h
          · cases h; exact ⟨rfl, .more _ rfl rfl (.inr (fun c e => by cases e)), .inr fun _ _ => rfl⟩
          · exact kept_fail h
      · split at h
        · exact kept_fail h
        · split at h <;> exact kept_success h
    · exact kept_fail h
  · unfold applyMulti at h
    split at h
    · split at h
      · split at h
        · unfold applyMultiLocal at h
          obtain ⟨b1, -, h⟩ := Outcome.bind_eq_ok.1 h
          split at h
          · cases h
          · obtain ⟨b2, -, h⟩ := Outcome.bind_eq_ok.1 h
            split at h
            · cases h
            · obtain ⟨x, -, h⟩ := Outcome.bind_eq_ok.1 h
              cases h
              exact ⟨rfl, .done rfl, .inr fun c e => by cases e⟩
        · split at h
          · cases h
          · obtain ⟨⟨m', ok⟩, -, h⟩ := Outcome.bind_eq_ok.1 h
            dsimp only at h
            split at h
            · exact kept_success h
            · exact kept_fail h
      · exact kept_fail h
    · cases h
  · unfold applyInit at h
    obtain ⟨o, -, h⟩ := Outcome.bind_eq_ok.1 h
    cases o with
    | none => exact kept_fail h
    | some c =>
      obtain ⟨x, -, h⟩ := Outcome.bind_eq_ok.1 h
      exact kept_success h
  · unfold applyBell at h
    split at h
    · cases h
    · split at h
      · exact kept_fail h
      · split at h
        · exact kept_fail h
        · split at h
          · split at h
            · cases h
            · exact kept_bellRun h
          · obtain ⟨⟨rt, rs⟩, -, h⟩ := Outcome.bind_eq_ok.1 h
            dsimp only at h
            cases rt with
            | none => exact kept_fail h
            | some region =>
              dsimp only at h
              split at h
              · exact kept_fail h
              · obtain ⟨l, -, h⟩ := Outcome.bind_eq_ok.1 h
                exact kept_bellRun h
  · rename_i hi
    exact kept_cnot hi h
  · unfold applyRotate at h
    split at h
    · obtain ⟨o, -, h⟩ := Outcome.bind_eq_ok.1 h
      cases o with
      | none => exact kept_fail h
      | some n =>
        dsimp only at h
        obtain ⟨⟨reg, st, af⟩, -, h⟩ := Outcome.bind_eq_ok.1 h
        obtain ⟨x, -, h⟩ := Outcome.bind_eq_ok.1 h
        cases h
        exact ⟨rfl, .more _ rfl rfl (.inr (fun c e => by cases e)), .inr fun _ _ => rfl⟩
    · exact kept_fail h
  · unfold applyMagic at h
    split at h
    · cases h
    · split at h
      · exact kept_fail h
      · split at h
        · cases h
        · split at h
          · cases h
          · obtain ⟨o, -, h⟩ := Outcome.bind_eq_ok.1 h
            cases o with
            | none => cases h
            | some p => exact kept_success h
  · unfold applyY at h
    split at h
    · exact kept_success h
    · split at h
      · unfold yPredistilled at h
        obtain ⟨l, -, h⟩ := Outcome.bind_eq_ok.1 h
        split at h
        · exact kept_fail h
        · split at h
          · cases h
          · split at h
            · exact kept_fail h
            · exact kept_success h
      · split at h
        · unfold yTwist at h
          split at h
          · cases h
          · obtain ⟨o, -, h⟩ := Outcome.bind_eq_ok.1 h
            cases o with
            | none => exact kept_fail h
            | some c =>
              dsimp only at h
              obtain ⟨x, -, h⟩ := Outcome.bind_eq_ok.1 h
              cases h
              exact ⟨rfl, .done rfl, .inr fun c e => by cases e⟩
        · exact kept_fail h
  · unfold applyBusy at h
    split at h
    · obtain ⟨s, -, h⟩ := Outcome.bind_eq_ok.1 h
      obtain ⟨x, -, h⟩ := Outcome.bind_eq_ok.1 h
      split at h
      · exact kept_fail h
      · exact kept_success h
    · obtain ⟨s, -, h⟩ := Outcome.bind_eq_ok.1 h
      cases h
      exact ⟨rfl, .more _ rfl rfl (.inr (fun c e => by cases e)), .inr fun _ _ => rfl⟩
  · exact kept_success h
  · cases h

/-! ### The assumptions on the parameters -/

theorem one_followup (ctx : Ctx ρ) (realloc : Nat → Bool) : Pipe.OneFollowup (env ctx realloc) := by
  intro s i r h
  rcases (kept_apply h).shape with h | ⟨f, h, -, -⟩ | ⟨c, hi, hr, x, hx, h, -, -⟩ <;> simp [h]

theorem keeps_budget (ctx : Ctx ρ) (realloc : Nat → Bool) : Pipe.Spec.KeepsBudget (env ctx realloc) :=
  fun _ _ _ h _ _ => (kept_apply h).wait

theorem protocol_plain (ctx : Ctx ρ) (realloc : Nat → Bool) (hd : ctx.router.edpc = false) : Protocol (env ctx realloc) (fun _ => .plain) where
  one := one_followup ctx realloc
  defer s i r h _ he hs := by
    rcases (kept_apply h).shape with h1 | ⟨f, h1, h2, -⟩ | ⟨c, hi, hr, x, hx, h1, h2, h3⟩
    · simp [selfResult, h1] at hs
    · rw [h2] at he; cases he
    · rw [hd] at h3; cases h3
  plain := by simp
  follow := by simp
  routed := by simp
  compiled := by simp

/-! ### EDPC -/

/-- How far a CNOT has got in EDPC mode. -/
def passed : Operation → Stage
  | .bellCnot c =>
    match c.route, c.counterPairs, c.localSets with
    | none, _, _ => .plain
    | some _, none, _ => .routed
    | some _, some _, some sets => if c.phase = some 0 ∧ 1 < sets.length then .compiled else .plain
    | some _, some _, none => .plain
  | _ => .plain

/-- An end patch of the CNOT is missing or busy. -/
def busyEnds (s : DSlice) (c : BellCNOT) : Bool :=
  match s.patchById c.control, s.patchById c.target with
  | some pc, some pt => pc.isActive || pt.isActive
  | _, _ => true

/-- In EDPC mode: a CNOT that has its route meets busy ends, or has been compiled without a route. -/
def improper (s : DSlice) (i : Instr) : Bool :=
  match i.op with
  | .bellCnot c => if c.route.isSome then busyEnds s c else c.counterPairs.isSome
  | _ => false

/-- As `env`, stopping where a CNOT would not follow the protocol. -/
def careful (ctx : Ctx ρ) (realloc : Nat → Bool) : Env (Mach ρ) :=
  { env ctx realloc with apply := fun m i => if improper m.slice i then .throws else Apply.apply ctx m i }

theorem careful_apply {ctx : Ctx ρ} {realloc : Nat → Bool} {m : Mach ρ} {i : Instr} {r : Res (Mach ρ)} (h : (careful ctx realloc).apply m i = .ok r) :
    improper m.slice i = false ∧ Apply.apply ctx m i = .ok r := by
  simp only [careful] at h
  split at h
  · cases h
  · rename_i e
    exact ⟨by simpa using e, h⟩

/-- The result for a CNOT with a route. -/
theorem routed_edpc {ctx : Ctx ρ} (hd : ctx.router.edpc = true) {m : Mach ρ} {i : Instr} {c : BellCNOT} (hi : i.op = .bellCnot c) (hr : c.route.isSome)
    (hp : improper m.slice i = false) {r : Res (Mach ρ)} (h : Apply.apply ctx m i = .ok r) :
    (c.counterPairs = none ∧ ∃ region, cnotDecompose m i c region = .ok r) ∨
    (∃ ps k sets, c.counterPairs = some ps ∧ c.phase = some k ∧ c.localSets = some sets ∧ cnotPhase ctx m i c sets ps k = .ok r) := by
  unfold improper at hp
  rw [hi] at hp
  simp only [hr, if_true] at hp
  unfold busyEnds at hp
  unfold Apply.apply at h
  rw [hi] at h
  dsimp only at h
  unfold applyCnot at h
  split at h
  · cases h
  · split at h
    · rename_i pc pt h1 h2
      rw [h1, h2] at hp
      simp only at hp
      simp only [hp, Bool.false_eq_true, if_false, hd, if_true] at h
      unfold applyCnotEdpc at h
      split at h
      · rename_i e; rw [e] at hr; cases hr
      · rename_i region e
        split at h
        · rename_i e2
          exact .inl ⟨e2, region, h⟩
        · rename_i ps e2
          split at h
          · rename_i k sets e3 e4
            exact .inr ⟨ps, k, sets, e2, e3, e4, h⟩
          · cases h
    · rename_i hn
      exfalso
      split at hp
      · rename_i a b; exact hn _ _ a b
      · cases hp

/-- The result for a CNOT without a route. -/
theorem unrouted_edpc {ctx : Ctx ρ} (hd : ctx.router.edpc = true) {m : Mach ρ} {i : Instr} {c : BellCNOT} (hi : i.op = .bellCnot c) (hr : c.route = none)
    {r : Res (Mach ρ)} (h : Apply.apply ctx m i = .ok r) : r.instr = i ∨ (r.err = true ∧ r.followups = [r.instr]) := by
  unfold Apply.apply at h
  rw [hi] at h
  dsimp only at h
  unfold applyCnot at h
  split at h
  · cases h
  · split at h
    · split at h
      · cases h; exact .inl rfl
      · unfold applyCnotEdpc at h
        rw [hr] at h
        rcases cnotRoute_shape h with ⟨h1, -⟩ | ⟨-, h1, h2, -⟩
        · exact .inl h1
        · exact .inr ⟨h1, h2⟩
    · cases h; exact .inl rfl

theorem passed_of_ne {o : Operation} (h : ∀ c, o ≠ .bellCnot c) : passed o = .plain := by
  unfold passed
  split
  · exact absurd rfl (h _)
  · rfl

theorem protocol_edpc (ctx : Ctx ρ) (realloc : Nat → Bool) (hd : ctx.router.edpc = true) : Protocol (careful ctx realloc) passed where
  one s i r h := one_followup ctx realloc s i r (careful_apply h).2
  defer s i r h hp he hs := by
    obtain ⟨h0, h⟩ := careful_apply h
    rcases (kept_apply h).shape with h1 | ⟨f, h1, h2, -⟩ | ⟨c, hi, hr, x, hx, h1, h2, h3⟩
    · simp [selfResult, h1] at hs
    · rw [h2] at he; cases he
    · refine ⟨hd, ?_⟩
      unfold improper at h0
      rw [hi] at h0
      simp only [hr, Option.isSome_none, Bool.false_eq_true, if_false, Option.isSome_eq_false_iff, Option.isNone_iff_eq_none] at h0
      rw [hx]
      simp [passed, h0]
  plain s i r h hp hn := by
    obtain ⟨h0, h⟩ := careful_apply h
    have hk := kept_apply h
    rcases hk.kind with ⟨c, hi⟩ | hk'
    · cases hr : c.route with
      | some reg =>
        rcases routed_edpc hd hi (by rw [hr]; rfl) h0 h with ⟨hc, -⟩ | ⟨ps, k, sets, h1, h2, h3, h4⟩
        · rw [hi] at hp; simp [passed, hr, hc] at hp
        · obtain ⟨-, -, -, -, ps', k', h5⟩ := cnotPhase_shape h4
          rw [h5]
          simp only [passed, hr, h3]
          split <;> simp
      | none =>
        rcases unrouted_edpc hd hi hr h with h1 | ⟨h1, h2⟩
        · rw [h1, hp]; simp
        · exact absurd ⟨h1, by simp [selfResult, h2]⟩ hn
    · intro hc
      have : ∃ c, r.instr.op = .bellCnot c := by
        unfold passed at hc
        split at hc
        · rename_i c e; exact ⟨c, e⟩
        · cases hc
      obtain ⟨c, e⟩ := this
      rw [hk' c e, hp] at hc
      cases hc
  follow s i r h hp f hf hs := by
    obtain ⟨h0, h⟩ := careful_apply h
    rcases (kept_apply h).shape with h1 | ⟨g, h1, h2, hg⟩ | ⟨c, hi, hr, x, hx, h1, h2, h3⟩
    · rw [h1] at hf; cases hf
    · rw [h1, List.mem_singleton] at hf
      subst hf
      rcases hg with rfl | hg
      · simp [selfResult, h1] at hs
      · rw [passed_of_ne hg]; simp
    · simp [selfResult, h1] at hs
  routed s i r h hp := by
    obtain ⟨h0, h⟩ := careful_apply h
    unfold passed at hp
    split at hp
    · rename_i c hi
      split at hp
      · cases hp
      · rename_i reg hr hc
        rcases routed_edpc hd hi (by rw [hr]; rfl) h0 h with ⟨-, region, h1⟩ | ⟨ps, k, sets, h1, -⟩
        · obtain ⟨-, h2, h3, s1, s2, s3, s4, ps, h4⟩ := cnotDecompose_shape h1
          refine ⟨h2, by simp [selfResult, h3], ?_⟩
          rw [h4]
          simp [passed, hr]
        · rw [hc] at h1; cases h1
      · split at hp <;> cases hp
      · cases hp
    · cases hp
  compiled s i r h hp := by
    obtain ⟨h0, h⟩ := careful_apply h
    unfold passed at hp
    split at hp
    · rename_i c hi
      split at hp
      · cases hp
      · cases hp
      · rename_i reg ps0 sets0 hr hc hl
        split at hp
        · rename_i hk
          rcases routed_edpc hd hi (by rw [hr]; rfl) h0 h with ⟨h1, -⟩ | ⟨ps, k, sets, h1, h2, h3, h4⟩
          · rw [hc] at h1; cases h1
          · obtain ⟨-, h5, -, h6, ps', k', h7⟩ := cnotPhase_shape h4
            rw [hl] at h3; cases h3
            rw [hk.1] at h2; cases h2
            refine ⟨h5, by simp [selfResult, h6 rfl hk.2], ?_⟩
            rw [h7]
            simp only [passed, hr, hl]
            split <;> simp
        · cases hp
      · cases hp
    · cases hp

/-! ### Runs of `careful` are runs of `env` -/

/-- `e'` succeeds only as `e` does. -/
def Below {σ : Type} (e' e : Env σ) : Prop :=
  (∀ s i r, e'.apply s i = .ok r → e.apply s i = .ok r) ∧ e'.advance = e.advance ∧ e'.reset = e.reset ∧ e'.edpc = e.edpc ∧ e'.realloc = e.realloc

theorem careful_below (ctx : Ctx ρ) (realloc : Nat → Bool) : Below (careful ctx realloc) (env ctx realloc) :=
  ⟨fun _ _ _ h => (careful_apply h).2, rfl, rfl, rfl, rfl⟩

end

section
variable {σ : Type} {e' e : Env σ}

theorem applyTo_below (hb : Below e' e) {st : St σ} {id : Nat} {x : Res σ × St σ} (h : applyTo e' st id = .ok x) : applyTo e st id = .ok x := by
  unfold applyTo at h ⊢
  split at h
  · rename_i hlt
    rw [if_pos hlt]
    obtain ⟨r, h1, h⟩ := Outcome.bind_eq_ok.1 h
    rw [hb.1 _ _ _ h1]
    exact h
  · cases h

/-- `f'` succeeds only as `f` does. -/
def RecBelow (f' f : Rec σ) : Prop := ∀ st id prox x, f' st id prox = .ok x → f st id prox = .ok x

theorem release_below {f' f : Rec σ} (hf : RecBelow f' f) {st st' : St σ} {j : Nat} {prox : Bool} (h : release f' st j prox = .ok st') :
    release f st j prox = .ok st' := by
  unfold release at h ⊢
  split
  · rename_i hp; rw [if_pos hp] at h; exact h
  · rename_i hp
    rw [if_neg hp] at h
    obtain ⟨x, h1, h⟩ := Outcome.bind_eq_ok.1 h
    rw [hf _ _ _ _ h1]
    exact h

theorem depLoop_below (hb : Below e' e) {f' f : Rec σ} (hf : RecBelow f' f) {prox : Bool} {n0 : Nat} : ∀ {js : List Nat} {st st' : St σ},
    depLoop e' f' prox n0 st js = .ok st' → depLoop e f prox n0 st js = .ok st'
  | [], _, _, h => h
  | j :: js, st, st', h => by
    rw [depLoop] at h ⊢
    rw [hb.2.2.2.2] at h
    split at h
    · cases h
    · rename_i h1
      rw [if_neg h1]
      split at h
      · cases h
      · rename_i h2
        rw [if_neg h2]
        obtain ⟨s, h3, h⟩ := Outcome.bind_eq_ok.1 h
        have : oneDep f st j prox = .ok s := by
          unfold oneDep at h3 ⊢
          dsimp only at h3 ⊢
          split at h3
          · rename_i h4; rw [if_pos h4]; exact release_below hf h3
          · rename_i h4; rw [if_neg h4]; exact h3
        rw [this]
        exact depLoop_below hb hf h

theorem followLoop_below (hb : Below e' e) {f' f : Rec σ} (hf : RecBelow f' f) {prox : Bool} {n0 : Nat} {deps : List Nat} {o : Nat} :
    ∀ {fs : List Instr} {st st' : St σ}, followLoop e' f' prox n0 deps o st fs = .ok st' → followLoop e f prox n0 deps o st fs = .ok st'
  | [], _, _, h => h
  | i :: fs, st, st', h => by
    rw [followLoop] at h ⊢
    rw [hb.2.2.2.2] at h
    split at h
    · cases h
    · rename_i h1
      rw [if_neg h1]
      obtain ⟨x, h3, h⟩ := Outcome.bind_eq_ok.1 h
      dsimp only
      rw [hf _ _ _ _ h3]
      exact followLoop_below hb hf h

theorem notify_below (hb : Below e' e) {f' f : Rec σ} (hf : RecBelow f' f) {st st' : St σ} {id : Nat} {fs : List Instr} {prox : Bool}
    (h : notify e' f' st id fs prox = .ok st') : notify e f st id fs prox = .ok st' := by
  unfold notify at h ⊢
  cases fs with
  | nil => exact depLoop_below hb hf h
  | cons a fs => exact followLoop_below hb hf h

theorem tryImm_below (hb : Below e' e) : ∀ d, RecBelow (tryImm e' d) (tryImm e d)
  | 0, _, _, _, _, h => h
  | d + 1, st, id, prox, x, h => by
    rw [tryImm] at h ⊢
    split at h
    · cases h
    · rename_i h1
      rw [if_neg h1]
      obtain ⟨imm, h2, h⟩ := Outcome.bind_eq_ok.1 h
      rw [h2, Outcome.bind_ok]
      split at h
      · rename_i h3; rw [if_pos h3]; exact h
      · rename_i h3
        rw [if_neg h3]
        obtain ⟨y, h4, h⟩ := Outcome.bind_eq_ok.1 h
        rw [applyTo_below hb h4, Outcome.bind_ok]
        dsimp only at h ⊢
        split at h
        · rename_i h5; rw [if_pos h5]; exact h
        · rename_i h5
          rw [if_neg h5]
          split at h
          · rename_i h6; rw [if_pos h6]; exact h
          · rename_i h6
            rw [if_neg h6]
            obtain ⟨z, h7, h⟩ := Outcome.bind_eq_ok.1 h
            rw [notify_below hb (tryImm_below hb d) h7]
            exact h

theorem schedOne_below (hb : Below e' e) {f' f : Rec σ} (hf : RecBelow f' f) {prox df : Bool} {st st' : St σ} {id : Nat}
    (h : schedOne e' f' prox df st id = .ok st') : schedOne e f prox df st id = .ok st' := by
  unfold schedOne at h ⊢
  obtain ⟨y, h4, h⟩ := Outcome.bind_eq_ok.1 h
  rw [applyTo_below hb h4, Outcome.bind_ok]
  dsimp only at h ⊢
  split at h
  · rename_i h5
    rw [if_pos h5]
    split at h
    · rename_i h6; rw [if_pos h6]; exact h
    · rename_i h6; rw [if_neg h6]; exact notify_below hb hf h
  · rename_i h5; rw [if_neg h5]; exact h

theorem schedList_below (hb : Below e' e) {f' f : Rec σ} (hf : RecBelow f' f) {prox df : Bool} : ∀ {ids : List Nat} {st st' : St σ},
    schedList e' f' prox df st ids = .ok st' → schedList e f prox df st ids = .ok st'
  | [], _, _, h => h
  | id :: ids, st, st', h => by
    rw [schedList] at h ⊢
    obtain ⟨s, h1, h⟩ := Outcome.bind_eq_ok.1 h
    rw [schedOne_below hb hf h1]
    exact schedList_below hb hf h

theorem scheduleWave_below (hb : Below e' e) {depth : Nat} {st st' : St σ} (h : scheduleWave e' depth st = .ok st') : scheduleWave e depth st = .ok st' := by
  have hf := tryImm_below hb depth
  unfold scheduleWave at h ⊢
  obtain ⟨s1, h1, h⟩ := Outcome.bind_eq_ok.1 h
  obtain ⟨s2, h2, h⟩ := Outcome.bind_eq_ok.1 h
  obtain ⟨s3, h3, h⟩ := Outcome.bind_eq_ok.1 h
  dsimp only
  rw [schedList_below hb hf h1, Outcome.bind_ok, schedList_below hb hf h2, Outcome.bind_ok]
  have : rounds e (tryImm e depth) s2 = .ok s3 := by
    unfold rounds at h3 ⊢
    rw [hb.2.2.2.1] at h3
    split at h3
    · rename_i h4
      rw [if_pos h4]
      obtain ⟨s4, h5, h3⟩ := Outcome.bind_eq_ok.1 h3
      obtain ⟨sl, h6, h3⟩ := Outcome.bind_eq_ok.1 h3
      rw [schedList_below hb hf h5, Outcome.bind_ok, ← hb.2.2.1, h6, Outcome.bind_ok]
      exact schedList_below hb hf h3
    · rename_i h4; rw [if_neg h4]; exact h3
  rw [this]
  exact h

theorem runWaves_below (hb : Below e' e) {depth : Nat} : ∀ {n : Nat} {st : St σ} {x : St σ × Nat}, runWaves e' depth n st = .ok x → runWaves e depth n st = .ok x
  | 0, _, _, h => h
  | n + 1, st, x, h => by
    rw [runWaves] at h ⊢
    split at h
    · rename_i h1; rw [if_pos h1]; exact h
    · rename_i h1
      rw [if_neg h1]
      obtain ⟨s, h2, h⟩ := Outcome.bind_eq_ok.1 h
      obtain ⟨sl, h3, h⟩ := Outcome.bind_eq_ok.1 h
      obtain ⟨y, h4, h⟩ := Outcome.bind_eq_ok.1 h
      rw [scheduleWave_below hb h2, Outcome.bind_ok, ← hb.2.1, h3, Outcome.bind_ok, runWaves_below hb h4]
      exact h

end

end Verif.Real
