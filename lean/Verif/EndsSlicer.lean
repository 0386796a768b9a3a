import Verif.EndsHang

/-! # How many steps of the program are followed (C69) -/

namespace Verif.Slicer

open Verif Verif.Gates Verif.Stream Verif.Wave Verif.Pipe Verif.Pipe.Spec Verif.Apply

/-- The same surroundings, with another number of steps that are followed. -/
def World.to (w : World) (n : Nat) : World := { w with steps := n }

section
variable {σ : Type} {env : Env σ}

theorem srun_add {k : Nat} (n : Nat) {st st' : SSt σ} (h : srun env k st = .ok (.go, st')) : srun env (k + n) st = srun env n st' := by
  induction k generalizing st with
  | zero => cases h; rw [Nat.zero_add]
  | succ k ih =>
    unfold srun at h
    obtain ⟨⟨c, s1⟩, h1, h⟩ := Outcome.bind_eq_ok.1 h
    rw [Nat.succ_add]
    conv => lhs; unfold srun
    rw [h1, Outcome.bind_ok]
    dsimp only at h ⊢
    split at h
    · rename_i hc
      rw [if_pos hc]
      exact ih h
    · rename_i hc
      exact absurd (by cases h; rfl) hc

theorem srun_more {k n : Nat} (hn : k ≤ n) {st st' : SSt σ} {c : Ctl} (h : srun env k st = .ok (c, st')) (hc : c ≠ .go) : srun env n st = .ok (c, st') := by
  induction k generalizing st n with
  | zero => cases h; exact absurd rfl hc
  | succ k ih =>
    obtain ⟨n, rfl⟩ : ∃ m, n = m + 1 := ⟨n - 1, by omega⟩
    unfold srun at h ⊢
    obtain ⟨⟨c1, s1⟩, h1, h⟩ := Outcome.bind_eq_ok.1 h
    rw [h1, Outcome.bind_ok]
    dsimp only at h ⊢
    split at h
    · rename_i hg
      rw [if_pos hg]
      exact ih (by omega) h
    · rename_i hg
      rw [if_neg hg]
      exact h

theorem drun_more {k n : Nat} (hn : k ≤ n) {st st' : DSt σ} (h : drun env k st = .ok (true, st')) : drun env n st = .ok (true, st') := by
  induction k generalizing st n with
  | zero =>
    injection h with h
    injection h with h1 h2
    subst h2
    cases n with
    | zero => unfold drun; rw [h1]
    | succ n => unfold drun; rw [if_pos h1]
  | succ k ih =>
    obtain ⟨n, rfl⟩ : ∃ m, n = m + 1 := ⟨n - 1, by omega⟩
    unfold drun at h ⊢
    split at h
    · rename_i he
      rw [if_pos he]; exact h
    · rename_i he
      rw [if_neg he]
      obtain ⟨s1, h1, h⟩ := Outcome.bind_eq_ok.1 h
      rw [h1, Outcome.bind_ok]
      exact ih (by omega) h

theorem wrun_more {depth k n : Nat} (hn : k ≤ n) {x x' : WSt σ} (h : wrun env depth k x = .ok (true, x')) : wrun env depth n x = .ok (true, x') := by
  induction k generalizing x n with
  | zero =>
    injection h with h
    injection h with h1 h2
    subst h2
    cases n with
    | zero => unfold wrun; rw [h1]
    | succ n => unfold wrun; rw [if_pos h1]
  | succ k ih =>
    obtain ⟨n, rfl⟩ : ∃ m, n = m + 1 := ⟨n - 1, by omega⟩
    unfold wrun at h ⊢
    split at h
    · rename_i he
      rw [if_pos he]; exact h
    · rename_i he
      rw [if_neg he]
      obtain ⟨s1, h1, h⟩ := Outcome.bind_eq_ok.1 h
      obtain ⟨s2, h2, h⟩ := Outcome.bind_eq_ok.1 h
      rw [h1, Outcome.bind_ok, h2, Outcome.bind_ok]
      exact ih (by omega) h

end

theorem read_more {db : Pandora.Db} {k n : Nat} (hn : k ≤ n) {s : Pandora.Reader} {gs : List Gate} (h : Pandora.read db k s = .ok (gs, true)) : Pandora.read db n s = .ok (gs, true) := by
  induction k generalizing s n gs with
  | zero => cases h
  | succ k ih =>
    obtain ⟨n, rfl⟩ : ∃ m, n = m + 1 := ⟨n - 1, by omega⟩
    unfold Pandora.read at h ⊢
    obtain ⟨⟨b, s1⟩, h1, h⟩ := Outcome.bind_eq_ok.1 h
    rw [h1, Outcome.bind_ok]
    dsimp only at h ⊢
    split at h
    · rename_i hb
      rw [if_pos hb]; exact h
    · rename_i hb
      rw [if_neg hb]
      obtain ⟨⟨g, s2⟩, h2, h⟩ := Outcome.bind_eq_ok.1 h
      obtain ⟨⟨gs', e⟩, h3, h⟩ := Outcome.bind_eq_ok.1 h
      rw [h2, Outcome.bind_ok]
      dsimp only at h3 h ⊢
      injection h with h
      injection h with ha hb
      subst ha hb
      rw [ih (by omega) h3]
      rfl

theorem dec_more {approx : Nat → Frac → Outcome (List Gate)} {k n : Nat} (hn : k ≤ n) {s : DecStream} {gs : List Gate} (h : DecStream.run approx k s = .ok (gs, true)) :
    DecStream.run approx n s = .ok (gs, true) := by
  induction k generalizing s n gs with
  | zero =>
    injection h with h
    injection h with h1 h2
    subst h1
    cases n with
    | zero => unfold DecStream.run; rw [h2]
    | succ n => unfold DecStream.run; rw [if_neg (by simpa using h2)]
  | succ k ih =>
    obtain ⟨n, rfl⟩ : ∃ m, n = m + 1 := ⟨n - 1, by omega⟩
    unfold DecStream.run at h ⊢
    split at h
    · rename_i hb
      rw [if_pos hb]
      obtain ⟨⟨g, s2⟩, h2, h⟩ := Outcome.bind_eq_ok.1 h
      obtain ⟨⟨gs', e⟩, h3, h⟩ := Outcome.bind_eq_ok.1 h
      rw [h2, Outcome.bind_ok]
      dsimp only at h3 h ⊢
      injection h with h
      injection h with ha hb
      subst ha hb
      rw [ih (by omega) h3]
      rfl
    · rename_i hb
      rw [if_neg hb]; exact h

theorem machine_more {τ : Type} {M : Machine τ} {k n : Nat} (hn : k ≤ n) {s : τ} {c c' : Nat} {P : List Instr} (h : M.run k s c = .ok (P, true, c')) : M.run n s c = .ok (P, true, c') := by
  obtain ⟨h1, h2⟩ := (run_iff M k s c P c').1 h
  exact (run_iff M n s c P c').2 ⟨h1, by omega⟩

theorem instructions_more {w : World} {n : Nat} (hn : w.steps ≤ n) {src : Source} {d : Placement} {m : Mode} {inj : Injection} {P : List Instr} (h : instructions w src d m inj = .ok (P, true)) :
    instructions (w.to n) src d m inj = .ok (P, true) := by
  unfold instructions at h ⊢
  obtain ⟨⟨gs, b1⟩, h1, h⟩ := Outcome.bind_eq_ok.1 h
  obtain ⟨⟨ds, b2⟩, h2, h⟩ := Outcome.bind_eq_ok.1 h
  obtain ⟨⟨out, b3, c⟩, h3, h⟩ := Outcome.bind_eq_ok.1 h
  dsimp only at h2 h3 h
  injection h with h
  injection h with ha hb
  subst ha
  simp only [Bool.and_eq_true] at hb
  obtain ⟨⟨rfl, rfl⟩, rfl⟩ := hb
  have e1 : src.gates (w.to n) d = .ok (gs, true) := by
    cases src with
    | file f reg k => exact h1
    | db r k => exact read_more hn h1
  have e2 : DecStream.run (w.to n).approx (w.to n).steps ⟨gs, []⟩ = .ok (ds, true) := dec_more hn h2
  have e3 : stream (w.to n) m src.size ds inj = .ok (out, true, c) := by
    cases inj <;> exact machine_more hn h3
  rw [e1, Outcome.bind_ok]
  dsimp only
  rw [e2, Outcome.bind_ok]
  dsimp only
  rw [e3]
  rfl

/-- The preparations do not depend on the number of steps, except for reading the program. -/
theorem prepare_more {a : Args} {w : World} {n : Nat} {j : Job} (h : prepare a w = (Outcome.ok (Step.goes j) : Act _)) :
    ∃ src d m inj, j.program = instructions w src d m inj ∧
      prepare a (w.to n) = (Outcome.ok (Step.goes { j with program := instructions (w.to n) src d m inj }) : Act _) := by
  obtain ⟨s, h1, h⟩ := act_goes.1 h
  obtain ⟨src, h2, h⟩ := act_goes.1 h
  obtain ⟨always, h3, h⟩ := act_goes.1 h
  obtain ⟨⟨L, inj, ok⟩, h4, h⟩ := act_goes.1 h
  dsimp only at h
  split at h
  · rw [lift_goes] at h; cases h
  · rename_i hv
    obtain ⟨lli, h5, h⟩ := act_goes.1 h
    obtain ⟨cached, h6, h⟩ := act_goes.1 h
    obtain ⟨provider, h7, h⟩ := act_goes.1 h
    rw [act_pure] at h
    subst h
    refine ⟨src, if L.ancilla.isEmpty then .nextToTarget else w.dflt, ⟨src.reg, always, a.loc⟩, inj, rfl, ?_⟩
    have e3 : correctionsOf a (w.to n) s src = (Outcome.ok (Step.goes always) : Act _) := by
      unfold correctionsOf at h3 ⊢
      split at h3
      · obtain ⟨x, -, h3⟩ := act_goes.1 h3
        obtain ⟨y, -, h3⟩ := act_goes.1 h3
        exact absurd h3 act_stop
      · rename_i hd
        rw [if_neg hd]
        exact h3
    have e5 : ∀ p, lliMode a s p = (Outcome.ok (Step.goes lli) : Act _) := by
      intro p
      obtain ⟨l, g1, g2⟩ := act_goes.1 h5
      refine act_goes.2 ⟨l, g1, ?_⟩
      split at g2
      · obtain ⟨⟨x, b⟩, -, g2⟩ := act_goes.1 g2
        obtain ⟨y, -, g2⟩ := act_goes.1 g2
        exact absurd g2 act_stop
      · rename_i hb
        rw [if_neg hb]
        split at g2
        · obtain ⟨x, -, g2⟩ := act_goes.1 g2
          obtain ⟨y, -, g2⟩ := act_goes.1 g2
          exact absurd g2 act_stop
        · rename_i hb
          rw [if_neg hb]
          exact g2
    refine act_goes.2 ⟨s, h1, act_goes.2 ⟨src, h2, act_goes.2 ⟨always, e3, act_goes.2 ⟨(L, inj, ok), h4, ?_⟩⟩⟩⟩
    dsimp only
    rw [if_neg hv]
    exact act_goes.2 ⟨lli, e5 _, act_goes.2 ⟨cached, h6, act_goes.2 ⟨provider, h7, rfl⟩⟩⟩

/-- When the whole program was read, the job is the same with more steps. -/
theorem prepare_same {a : Args} {w : World} {n : Nat} (hn : w.steps ≤ n) {j : Job} {P : List Instr} (h : prepare a w = (Outcome.ok (Step.goes j) : Act _)) (hP : j.program = .ok (P, true)) :
    prepare a (w.to n) = (Outcome.ok (Step.goes j) : Act _) := by
  obtain ⟨src, d, m, inj, h1, h2⟩ := prepare_more (n := n) h
  rw [h2]
  have : instructions (w.to n) src d m inj = j.program := by
    rw [hP]
    rw [hP] at h1
    exact instructions_more hn h1.symm
  rw [this]

theorem pipeline_more {ρ : Type} {w : World} {n : Nat} (hn : w.steps ≤ n) {ctx : Ctx ρ} {rs : ρ} {p : Pipeline} {ids : List Nat} {P : List Instr} {r : Ran} (h : pipeline w ctx rs p ids P = .ok (some r))
    (hr : r.phase ≠ .running) : pipeline (w.to n) ctx rs p ids P = .ok (some r) := by
  unfold pipeline at h ⊢
  obtain ⟨s, h1, h⟩ := Outcome.bind_eq_ok.1 h
  rw [h1, Outcome.bind_ok]
  have wave : ∀ {o : Outcome (Option Ran)}, (if fitsWave P = true then do
      let (b, x) ← wrun (Real.env ctx w.realloc) w.depth w.steps ⟨Wave.start ⟨s, rs, 1⟩ P, 1, [], []⟩
      .ok (some ⟨bare x.obs, instrCount x.obs, x.count, if b = true then Phase.finished else Phase.running⟩)
    else Outcome.ok none) = .ok (some r) → (if fitsWave P = true then do
      let (b, x) ← wrun (Real.env ctx w.realloc) w.depth n ⟨Wave.start ⟨s, rs, 1⟩ P, 1, [], []⟩
      .ok (some ⟨bare x.obs, instrCount x.obs, x.count, if b = true then Phase.finished else Phase.running⟩)
    else Outcome.ok none) = .ok (some r) := by
    intro _ h
    split at h
    · rename_i hf
      rw [if_pos hf]
      obtain ⟨⟨b, x⟩, h2, h⟩ := Outcome.bind_eq_ok.1 h
      cases h
      cases b with
      | false => exact absurd rfl hr
      | true => rw [wrun_more hn h2]; rfl
    · cases h
  cases p with
  | stream =>
    dsimp only at h ⊢
    obtain ⟨⟨c, st⟩, h2, h⟩ := Outcome.bind_eq_ok.1 h
    cases h
    have hc : c ≠ .go := by rintro rfl; exact hr rfl
    have := srun_more hn h2 hc
    rw [show (w.to n).steps = n from rfl, show (w.to n).realloc = w.realloc from rfl, this]
    rfl
  | dag =>
    dsimp only at h ⊢
    obtain ⟨st0, h2, h⟩ := Outcome.bind_eq_ok.1 h
    obtain ⟨⟨b, st⟩, h3, h⟩ := Outcome.bind_eq_ok.1 h
    cases h
    rw [h2, Outcome.bind_ok]
    cases b with
    | false => exact absurd rfl hr
    | true =>
      rw [show (w.to n).steps = n from rfl, show (w.to n).realloc = w.realloc from rfl, drun_more hn h3]
      rfl
  | wave => exact wave (o := .ub) h
  | edpc => exact wave (o := .ub) h

theorem slice_more {w : World} {n : Nat} (hn : w.steps ≤ n) {j : Job} {P : List Instr} {r : Ran} (h : slice w j P = .ok (some r)) (hr : r.phase ≠ .running) : slice (w.to n) j P = .ok (some r) := by
  unfold slice at h ⊢
  split at h
  · rename_i he
    rw [if_pos he]
    split at h
    · cases h
    · rename_i hc
      rw [if_neg hc]
      exact pipeline_more hn h hr
  · rename_i he
    rw [if_neg he]
    split at h
    · split at h
      · rename_i pick hb
        rw [show (w.to n).boost = w.boost from rfl, hb]
        exact pipeline_more hn h hr
      · cases h
    · split at h
      · rename_i pick hb
        rw [show (w.to n).boost = w.boost from rfl, hb]
        exact pipeline_more hn h hr
      · cases h
    · exact pipeline_more hn h hr
    · exact pipeline_more hn h hr

theorem pipeline_unstarted {ρ : Type} {w : World} {ctx : Ctx ρ} {rs : ρ} {p : Pipeline} {ids : List Nat} {P : List Instr} (h : DSlice.init ctx.layout ids = .throws) :
    pipeline w ctx rs p ids P = .throws := by
  unfold pipeline
  rw [h]
  rfl

theorem slice_unstarted {w : World} {n : Nat} {j : Job} {P : List Instr} (h : DSlice.init j.layout (coreQubits j.size) = .throws) (hs : slice w j P = .throws) : slice (w.to n) j P = .throws := by
  unfold slice at hs ⊢
  split at hs
  · rename_i he
    rw [if_pos he]
    split at hs
    · rename_i hc; rw [if_pos hc]
    · rename_i hc
      rw [if_neg hc]
      exact pipeline_unstarted h
  · rename_i he
    rw [if_neg he]
    split at hs
    · split at hs
      · rename_i pick hb
        rw [show (w.to n).boost = w.boost from rfl, hb]
        exact pipeline_unstarted h
      · cases hs
    · split at hs
      · rename_i pick hb
        rw [show (w.to n).boost = w.boost from rfl, hb]
        exact pipeline_unstarted h
      · cases hs
    · exact pipeline_unstarted h
    · exact pipeline_unstarted h

theorem ran_more {a : Args} {w : World} {n : Nat} (hn : w.steps ≤ n) {j : Job} {P : List Instr} {r : Ran} (h : ran a w j P = .ok (some r)) (hr : r.phase ≠ .running) : ran a (w.to n) j P = .ok (some r) := by
  unfold ran at h ⊢
  split at h
  · rename_i hs
    split at h
    · rename_i hg
      split at h
      · rename_i hi
        rw [slice_unstarted hi hs]
        dsimp only
        rw [if_pos hg]
        exact h
      · cases h
    · cases h
  · rename_i hs
    rw [slice_more hn h hr]

theorem visitAll_to {a : Args} {w : World} {n : Nat} {j : Job} {l : List (Obs DSlice)} {k : Nat} : visitAll a (w.to n) j k l = visitAll a w j k l := by
  induction l generalizing k with
  | nil => rfl
  | cons o l ih =>
    unfold visitAll
    have : visit a (w.to n) j k o = visit a w j k o := by cases o <;> rfl
    rw [this]
    simp only [ih]

theorem transcript_to {a : Args} {w : World} {n : Nat} {j : Job} {r : Ran} : transcript a (w.to n) j r = transcript a w j r := by
  unfold transcript
  rw [visitAll_to]
  rfl

/-- The pieces put together again. -/
theorem sliced_of {a : Args} {w : World} {j : Job} {P : List Instr} {r : Ran} {t : List (Chan × Str)} (h1 : prepare a w = (Outcome.ok (Step.goes j) : Act _)) (h2 : j.program = .ok (P, true))
    (h3 : ran a w j P = .ok (some r)) (h4 : outOfTime a w r = false) (h5 : r.phase = .failed → a.graceful = true) (h6 : transcript a w j r = .ok t) : program a w = .ok (.sliced j P r t) := by
  unfold program
  rw [h1]
  dsimp only
  unfold perform
  rw [h2]
  dsimp only
  rw [if_neg (by simp), h3]
  dsimp only
  rw [h4, if_neg (by simp), if_neg (by rintro ⟨e1, e2⟩; rw [h5 e1] at e2; cases e2), transcript_seen h6, if_neg (by simp), h6]
  rfl

namespace Spec

/-- C69: once the program has come to its end within some number of steps, more steps change nothing. -/
theorem c69_steps {a : Args} {w : World} {j : Job} {P : List Instr} {r : Ran} {t : List (Chan × Str)} (h : program a w = .ok (.sliced j P r t)) (hr : r.phase ≠ .running) {n : Nat} (hn : w.steps ≤ n) :
    program a { w with steps := n } = .ok (.sliced j P r t) := by
  obtain ⟨h1, h2, h3, h4, h5, h6⟩ := program_sliced h
  exact sliced_of (w := w.to n) (prepare_same hn h1 h2) h2 (ran_more hn h3 hr) h4 h5 (transcript_to.trans h6)

end Spec

end Verif.Slicer
