import Verif.Stream

/-!
# Instruction streams: what complete runs deliver (helper lemmas)
-/

namespace Verif.Stream
open Verif.Gates

/-- `out` is everything the stream delivers from state `s` with id counter `c`, leaving the counter at `c'`. -/
inductive Delivers {σ : Type} (M : Machine σ) : σ → Nat → List Instr → Nat → Prop
  | done {s c} (h : M.hasNext s = false) : Delivers M s c [] c
  | step {s c i s' c' out c''} (h : M.hasNext s = true) (hn : M.next s c = .ok (i, s', c')) (hr : Delivers M s' c' out c'') :
      Delivers M s c (i :: out) c''

theorem run_iff {σ : Type} (M : Machine σ) (n : Nat) (s : σ) (c : Nat) (out : List Instr) (c' : Nat) :
    M.run n s c = .ok (out, true, c') ↔ Delivers M s c out c' ∧ out.length ≤ n := by
  induction n generalizing s c out with
  | zero =>
    unfold Machine.run
    constructor
    · intro h
      simp only [Outcome.ok.injEq, Prod.mk.injEq, Bool.not_eq_true'] at h
      obtain ⟨rfl, h, rfl⟩ := h
      exact ⟨.done h, by simp⟩
    · rintro ⟨h, hl⟩
      cases h with
      | done h => simp [h]
      | step => simp at hl
  | succ n ih =>
    unfold Machine.run
    by_cases hh : M.hasNext s = true
    · simp only [hh, if_true, Outcome.bind_eq_ok]
      constructor
      · rintro ⟨⟨i, s', c1⟩, h1, ⟨is, b, c2⟩, h2, h3⟩
        simp only [Outcome.ok.injEq, Prod.mk.injEq] at h3
        obtain ⟨rfl, rfl, rfl⟩ := h3
        obtain ⟨h4, h5⟩ := (ih _ _ _).1 h2
        exact ⟨.step hh h1 h4, by simpa using h5⟩
      · rintro ⟨h, hl⟩
        cases h with
        | done h => rw [h] at hh; cases hh
        | step h hn hr => exact ⟨_, hn, _, (ih _ _ _).2 ⟨hr, by simpa using hl⟩, rfl⟩
    · rw [if_neg hh]
      constructor
      · intro h
        simp only [Outcome.ok.injEq, Prod.mk.injEq] at h
        obtain ⟨rfl, _, rfl⟩ := h
        exact ⟨.done (by simpa using hh), by simp⟩
      · rintro ⟨h, _⟩
        cases h with
        | done h => rfl
        | step h => exact absurd h hh

theorem delivers_list {l out : List Instr} {c c' : Nat} : Delivers listMachine l c out c' ↔ out = l ∧ c' = c := by
  constructor
  · intro h
    induction h with
    | done h => simp [listMachine] at h; exact ⟨h.symm, rfl⟩
    | @step s c i s' c1 out c2 h hn hr ih =>
      cases s with
      | nil => cases hn
      | cons j s => cases hn; exact ⟨by rw [ih.1], ih.2⟩
  · rintro ⟨rfl, rfl⟩
    induction out with
    | nil => exact .done rfl
    | cons i l ih => exact .step rfl rfl ih

/-- Expanding a list of instructions one after the other. -/
def expandList {τ : Type} (expand : τ → Nat → Instr → Outcome (List Instr × τ × Nat)) : τ → Nat → List Instr → Outcome (List Instr × τ × Nat)
  | t, c, [] => .ok ([], t, c)
  | t, c, i :: is => do
    let (l, t, c) ← expand t c i
    let (ls, t, c) ← expandList expand t c is
    .ok (l ++ ls, t, c)

/-- The expansion is never empty. -/
def NonemptyExp {τ : Type} (expand : τ → Nat → Instr → Outcome (List Instr × τ × Nat)) : Prop :=
  ∀ t c i l t' c', expand t c i = .ok (l, t', c') → l ≠ []

theorem delivers_stage_queue {σ τ : Type} {expand : τ → Nat → Instr → Outcome (List Instr × τ × Nat)} {M : Machine σ}
    {s : σ} {t : τ} {q out : List Instr} {c c' : Nat} :
    Delivers (stage expand M) (s, t, q) c out c' ↔ ∃ out', out = q ++ out' ∧ Delivers (stage expand M) (s, t, []) c out' c' := by
  induction q generalizing out with
  | nil => simp
  | cons i q ih =>
    constructor
    · intro h
      cases h with
      | done h => simp [stage] at h
      | step h hn hr =>
        cases hn
        obtain ⟨o, rfl, ho⟩ := ih.1 hr
        exact ⟨o, rfl, ho⟩
    · rintro ⟨o, rfl, ho⟩
      exact .step (by simp [stage]) rfl (ih.2 ⟨o, rfl, ho⟩)

theorem delivers_stage_nil {σ τ : Type} {expand : τ → Nat → Instr → Outcome (List Instr × τ × Nat)} {M : Machine σ}
    (hne : NonemptyExp expand) {s : σ} {t : τ} {out : List Instr} {c c' : Nat} :
    Delivers (stage expand M) (s, t, []) c out c' ↔
      (M.hasNext s = false ∧ out = [] ∧ c' = c) ∨
      (M.hasNext s = true ∧ ∃ i s' c1 l t' c2 o, M.next s c = .ok (i, s', c1) ∧ expand t c1 i = .ok (l, t', c2) ∧ out = l ++ o ∧
        Delivers (stage expand M) (s', t', []) c2 o c') := by
  constructor
  · intro h
    cases h with
    | done h => exact Or.inl ⟨by simpa [stage] using h, rfl, rfl⟩
    | step h hn hr =>
      simp only [stage, List.isEmpty_nil, Bool.not_true, Bool.false_or] at h
      simp only [stage, h, Bool.not_true, Bool.false_eq_true, if_false, Outcome.bind_eq_ok] at hn
      obtain ⟨⟨i, s1, c1⟩, h1, ⟨l, t1, c2⟩, h2, ⟨i', q⟩, h3, h4⟩ := hn
      cases l with
      | nil => cases h3
      | cons x l =>
        cases h3; cases h4
        obtain ⟨o, rfl, ho⟩ := delivers_stage_queue.1 hr
        exact Or.inr ⟨h, i, s1, c1, _, t1, _, o, h1, h2, rfl, ho⟩
  · rintro (⟨h, rfl, rfl⟩ | ⟨h, i, s', c1, l, t', c2, o, h1, h2, rfl, h3⟩)
    · exact .done (by simpa [stage] using h)
    · cases l with
      | nil => exact absurd rfl (hne _ _ _ _ _ _ h2)
      | cons x l =>
        refine .step (i := x) (s' := (s', t', l)) (c' := c2) (by simpa [stage] using h) ?_ (delivers_stage_queue.2 ⟨o, rfl, h3⟩)
        simp [stage, h, h1, h2, queuePop]

/-- A stage over instructions from a file: the concatenation of the expansions. -/
theorem delivers_stage_list {τ : Type} {expand : τ → Nat → Instr → Outcome (List Instr × τ × Nat)} (hne : NonemptyExp expand)
    {is : List Instr} {t : τ} {out : List Instr} {c c' : Nat} :
    Delivers (stage expand listMachine) (is, t, []) c out c' ↔ ∃ t', expandList expand t c is = .ok (out, t', c') := by
  induction is generalizing t c out with
  | nil =>
    rw [delivers_stage_nil hne]
    simp only [listMachine, expandList, List.isEmpty_nil, Bool.not_true, true_and, Bool.false_eq_true, false_and, or_false, Outcome.ok.injEq, Prod.mk.injEq]
    exact ⟨fun h => ⟨t, h.1.symm, rfl, h.2.symm⟩, fun ⟨_, h1, _, h3⟩ => ⟨h1.symm, h3.symm⟩⟩
  | cons i is ih =>
    rw [delivers_stage_nil hne]
    simp only [listMachine, List.isEmpty_cons, Bool.not_false, Bool.true_eq_false, false_and, true_and, false_or, expandList, Outcome.bind_eq_ok]
    constructor
    · rintro ⟨i', s', c1, l, t', c2, o, h1, h2, rfl, h3⟩
      cases h1
      obtain ⟨t3, h4⟩ := ih.1 h3
      exact ⟨t3, _, h2, _, h4, rfl⟩
    · rintro ⟨t', ⟨l, t1, c1⟩, h1, ⟨ls, t2, c2⟩, h2, h3⟩
      cases h3
      exact ⟨i, is, c, l, t1, c1, ls, rfl, h1, rfl, ih.2 ⟨_, h2⟩⟩

/-- Two expansions in sequence. -/
def thenExpand {τ₁ τ₂ : Type} (e₁ : τ₁ → Nat → Instr → Outcome (List Instr × τ₁ × Nat)) (e₂ : τ₂ → Nat → Instr → Outcome (List Instr × τ₂ × Nat)) :
    τ₁ × τ₂ → Nat → Instr → Outcome (List Instr × (τ₁ × τ₂) × Nat) := fun t c i => do
  let (l, t1, c) ← e₁ t.1 c i
  let (l, t2, c) ← expandList e₂ t.2 c l
  .ok (l, (t1, t2), c)

theorem expandList_ne {τ : Type} {e : τ → Nat → Instr → Outcome (List Instr × τ × Nat)} (hne : NonemptyExp e) {t : τ} {c : Nat}
    {is l : List Instr} {t' : τ} {c' : Nat} (h : expandList e t c is = .ok (l, t', c')) (his : is ≠ []) : l ≠ [] := by
  cases is with
  | nil => exact absurd rfl his
  | cons i is =>
    simp only [expandList, Outcome.bind_eq_ok] at h
    obtain ⟨⟨l1, t1, c1⟩, h1, ⟨l2, t2, c2⟩, h2, h3⟩ := h
    cases h3
    have := hne _ _ _ _ _ _ h1
    simp [this]

theorem nonempty_then {τ₁ τ₂ : Type} {e₁ : τ₁ → Nat → Instr → Outcome (List Instr × τ₁ × Nat)}
    {e₂ : τ₂ → Nat → Instr → Outcome (List Instr × τ₂ × Nat)} (h1 : NonemptyExp e₁) (h2 : NonemptyExp e₂) : NonemptyExp (thenExpand e₁ e₂) := by
  intro t c i l t' c' h
  simp only [thenExpand, Outcome.bind_eq_ok] at h
  obtain ⟨⟨l1, t1, c1⟩, h3, ⟨l2, t2, c2⟩, h4, h5⟩ := h
  cases h5
  exact expandList_ne h2 h4 (h1 _ _ _ _ _ _ h3)

theorem stage_pending {σ τ₁ τ₂ : Type} {e₁ : τ₁ → Nat → Instr → Outcome (List Instr × τ₁ × Nat)}
    {e₂ : τ₂ → Nat → Instr → Outcome (List Instr × τ₂ × Nat)} {M : Machine σ} (h2 : NonemptyExp e₂)
    {s : σ} {t₁ : τ₁} {t₂ : τ₂} {q out : List Instr} {c c' : Nat} :
    Delivers (stage e₂ (stage e₁ M)) ((s, t₁, q), t₂, []) c out c' ↔
      ∃ l t₂' c1 o, expandList e₂ t₂ c q = .ok (l, t₂', c1) ∧ out = l ++ o ∧ Delivers (stage e₂ (stage e₁ M)) ((s, t₁, []), t₂', []) c1 o c' := by
  induction q generalizing t₂ c out with
  | nil =>
    simp only [expandList, Outcome.ok.injEq, Prod.mk.injEq]
    constructor
    · intro h; exact ⟨[], t₂, c, out, ⟨rfl, rfl, rfl⟩, rfl, h⟩
    · rintro ⟨_, _, _, o, ⟨rfl, rfl, rfl⟩, rfl, h⟩; exact h
  | cons i q ih =>
    rw [delivers_stage_nil h2]
    have hh : (stage e₁ M).hasNext (s, t₁, i :: q) = true := by simp [stage]
    have hn : (stage e₁ M).next (s, t₁, i :: q) c = .ok (i, (s, t₁, q), c) := rfl
    rw [hh, hn]
    simp only [Bool.true_eq_false, false_and, false_or, true_and, expandList, Outcome.bind_eq_ok]
    constructor
    · rintro ⟨i', s', c1, l, t', c2, o, h3, h4, rfl, h5⟩
      cases h3
      obtain ⟨l', t3, c3, o', h6, rfl, h7⟩ := ih.1 h5
      exact ⟨l ++ l', t3, c3, o', ⟨_, h4, _, h6, rfl⟩, by simp, h7⟩
    · rintro ⟨l, t', c1, o, ⟨⟨l1, t1, c2⟩, h3, ⟨l2, t2, c3⟩, h4, h5⟩, rfl, h6⟩
      cases h5
      exact ⟨i, _, c, l1, t1, c2, l2 ++ o, rfl, h3, by simp, ih.2 ⟨l2, _, _, o, h4, rfl, h6⟩⟩

/-- Two stages in sequence deliver what one stage with the composed expansion delivers. -/
theorem stage_fusion {σ τ₁ τ₂ : Type} {e₁ : τ₁ → Nat → Instr → Outcome (List Instr × τ₁ × Nat)}
    {e₂ : τ₂ → Nat → Instr → Outcome (List Instr × τ₂ × Nat)} {M : Machine σ} (h1 : NonemptyExp e₁) (h2 : NonemptyExp e₂)
    {s : σ} {t₁ : τ₁} {t₂ : τ₂} {out : List Instr} {c c' : Nat} :
    Delivers (stage e₂ (stage e₁ M)) ((s, t₁, []), t₂, []) c out c' ↔ Delivers (stage (thenExpand e₁ e₂) M) (s, (t₁, t₂), []) c out c' := by
  constructor
  · -- strong induction on the length of the output
    generalize hn : out.length = n
    induction n using Nat.strongRecOn generalizing s t₁ t₂ c out with
    | ind n ihn =>
      intro h
      rw [delivers_stage_nil (nonempty_then h1 h2)]
      rw [delivers_stage_nil h2] at h
      rcases h with ⟨hh, rfl, rfl⟩ | ⟨hh, i, ⟨s', t', q⟩, c1, l, t2', c2, o, h3, h4, rfl, h5⟩
      · left; simp [stage] at hh; exact ⟨hh, rfl, rfl⟩
      · right
        have hM : M.hasNext s = true := by simpa [stage] using hh
        refine ⟨hM, ?_⟩
        simp only [stage, hM, Bool.not_true, Bool.false_eq_true, if_false, Outcome.bind_eq_ok] at h3
        obtain ⟨⟨j, s1, c3⟩, h6, ⟨is, t1, c4⟩, h7, ⟨i', q'⟩, h8, h9⟩ := h3
        cases is with
        | nil => cases h8
        | cons x is =>
          cases h8; cases h9
          obtain ⟨l', t3, c5, o', h10, rfl, h11⟩ := (stage_pending h2).1 h5
          have hl : l ≠ [] := h2 _ _ _ _ _ _ h4
          have hlt : o'.length < n := by
            rw [← hn]; simp only [List.length_append]
            have := List.length_pos_iff.2 hl; omega
          refine ⟨j, s1, c3, l ++ l', (t1, t3), c5, o', h6, ?_, by simp, ihn _ hlt rfl h11⟩
          simp only [thenExpand, Outcome.bind_eq_ok]
          refine ⟨_, h7, (l ++ l', t3, c5), ?_, rfl⟩
          simp only [expandList, Outcome.bind_eq_ok]
          exact ⟨_, h4, _, h10, rfl⟩
  · generalize hn : out.length = n
    induction n using Nat.strongRecOn generalizing s t₁ t₂ c out with
    | ind n ihn =>
      intro h
      rw [delivers_stage_nil h2]
      rw [delivers_stage_nil (nonempty_then h1 h2)] at h
      rcases h with ⟨hh, rfl, rfl⟩ | ⟨hM, j, s', c3, l, ⟨t1', t2'⟩, c5, o, h6, h7, rfl, h8⟩
      · left; exact ⟨by simpa [stage] using hh, rfl, rfl⟩
      · right
        refine ⟨by simpa [stage] using hM, ?_⟩
        have hlne := (nonempty_then h1 h2) _ _ _ _ _ _ h7
        simp only [thenExpand, Outcome.bind_eq_ok] at h7
        obtain ⟨⟨is, t1, c4⟩, h9, ⟨l2, t2, c6⟩, h10, h11⟩ := h7
        cases h11
        have hne := h1 _ _ _ _ _ _ h9
        cases is with
        | nil => exact absurd rfl hne
        | cons x is =>
          simp only [expandList, Outcome.bind_eq_ok] at h10
          obtain ⟨⟨la, ta, ca⟩, h12, ⟨lb, tb, cb⟩, h13, h14⟩ := h10
          cases h14
          have hlt : o.length < n := by
            rw [← hn]; simp only [List.length_append]
            have := List.length_pos_iff.2 (h2 _ _ _ _ _ _ h12); omega
          refine ⟨x, (s', t1, is), c4, la, ta, ca, lb ++ o, ?_, h12, by simp, ?_⟩
          · simp [stage, hM, h6, h9, queuePop]
          · exact (stage_pending h2).2 ⟨lb, _, _, o, h13, rfl, ihn _ hlt rfl h8⟩

theorem makeCnot_ne {loc : Bool} {c a b : Nat} {ty : CnotType} {pl : Placement} {al : Bool} {l : List Instr} {c' : Nat}
    (h : makeCnot loc c a b ty pl al = .ok (l, c')) : l ≠ [] := by
  unfold makeCnot at h
  split at h
  · dsimp only at h; split at h
    · cases h
    · cases h; simp
  · cases h; simp

theorem makeT_ne {loc : Bool} {c a : Nat} {l : List Instr} {c' : Nat} (h : makeT loc c a = .ok (l, c')) : l ≠ [] := by
  unfold makeT at h
  dsimp only at h
  split at h
  · simp only [Outcome.bind_eq_ok] at h
    obtain ⟨⟨l1, c1⟩, h1, h2⟩ := h
    cases h2; simp
  · cases h; simp

theorem compileGate_ne {m : Mode} {c : Nat} {g : Gate} {l : List Instr} {c' : Nat} (h : compileGate m c g = .ok (l, c')) : l ≠ [] := by
  unfold compileGate at h
  split at h <;> first
    | (cases h; simp; done)
    | exact makeT_ne h
    | exact makeCnot_ne h
    | skip
  · split at h
    · cases h; simp
    · split at h
      · cases h; simp
      · split at h
        · exact makeT_ne h
        · cases h
  · simp only [Outcome.bind_eq_ok] at h
    obtain ⟨⟨l1, c1⟩, h1, h2⟩ := h
    cases h2; simp
  · cases h
  · split at h
    · cases h
    · cases h; simp

/-- What a gate program compiles to when nothing else takes ids in between. -/
theorem delivers_gates_queue {m : Mode} {gs : List Gate} {q out : List Instr} {c c' : Nat} :
    Delivers (gateMachine m) (gs, q) c out c' ↔ ∃ o, out = q ++ o ∧ Delivers (gateMachine m) (gs, []) c o c' := by
  induction q generalizing out with
  | nil => simp
  | cons i q ih =>
    constructor
    · intro h
      cases h with
      | done h => simp [gateMachine] at h
      | step h hn hr =>
        cases hn
        obtain ⟨o, rfl, ho⟩ := ih.1 hr
        exact ⟨o, rfl, ho⟩
    · rintro ⟨o, rfl, ho⟩
      exact .step (by simp [gateMachine]) rfl (ih.2 ⟨o, rfl, ho⟩)

theorem delivers_gates_nil {m : Mode} {out : List Instr} {c c' : Nat} :
    Delivers (gateMachine m) ([], []) c out c' ↔ out = [] ∧ c' = c := by
  constructor
  · intro h
    cases h with
    | done => exact ⟨rfl, rfl⟩
    | step h => simp [gateMachine] at h
  · rintro ⟨rfl, rfl⟩; exact .done rfl

theorem delivers_gates_cons {m : Mode} {g : Gate} {gs : List Gate} {out : List Instr} {c c' : Nat} :
    Delivers (gateMachine m) (g :: gs, []) c out c' ↔
      ∃ l c1 o, compileGate m c g = .ok (l, c1) ∧ out = l ++ o ∧ Delivers (gateMachine m) (gs, []) c1 o c' := by
  constructor
  · intro h
    cases h with
    | done h => simp [gateMachine] at h
    | step h hn hr =>
      simp only [gateMachine, Outcome.bind_eq_ok] at hn
      obtain ⟨⟨l, c1⟩, h1, ⟨i, q⟩, h2, h3⟩ := hn
      cases l with
      | nil => cases h2
      | cons x l =>
        cases h2; cases h3
        obtain ⟨o, rfl, ho⟩ := delivers_gates_queue.1 hr
        exact ⟨_, _, o, h1, rfl, ho⟩
  · rintro ⟨l, c1, o, h1, rfl, h2⟩
    have := compileGate_ne h1
    cases l with
    | nil => exact absurd rfl this
    | cons x l =>
      refine .step (i := x) (s' := (gs, l)) (c' := c1) rfl ?_ (delivers_gates_queue.2 ⟨o, rfl, h2⟩)
      simp [gateMachine, h1, queuePop]

/-- A stage over a gate program, gate by gate. -/
theorem delivers_stage_gates_pending {τ : Type} {e : τ → Nat → Instr → Outcome (List Instr × τ × Nat)} (hne : NonemptyExp e) {m : Mode}
    {gs : List Gate} {q : List Instr} {t : τ} {out : List Instr} {c c' : Nat} :
    Delivers (stage e (gateMachine m)) ((gs, q), t, []) c out c' ↔
      ∃ l t' c1 o, expandList e t c q = .ok (l, t', c1) ∧ out = l ++ o ∧ Delivers (stage e (gateMachine m)) ((gs, []), t', []) c1 o c' := by
  induction q generalizing t c out with
  | nil =>
    simp only [expandList, Outcome.ok.injEq, Prod.mk.injEq]
    constructor
    · intro h; exact ⟨[], t, c, out, ⟨rfl, rfl, rfl⟩, rfl, h⟩
    · rintro ⟨_, _, _, o, ⟨rfl, rfl, rfl⟩, rfl, h⟩; exact h
  | cons i q ih =>
    rw [delivers_stage_nil hne]
    have hh : (gateMachine m).hasNext (gs, i :: q) = true := by simp [gateMachine]
    have hn : (gateMachine m).next (gs, i :: q) c = .ok (i, (gs, q), c) := rfl
    rw [hh, hn]
    simp only [Bool.true_eq_false, false_and, false_or, true_and, expandList, Outcome.bind_eq_ok]
    constructor
    · rintro ⟨i', s', c1, l, t', c2, o, h3, h4, rfl, h5⟩
      cases h3
      obtain ⟨l', t3, c3, o', h6, rfl, h7⟩ := ih.1 h5
      exact ⟨l ++ l', t3, c3, o', ⟨_, h4, _, h6, rfl⟩, by simp, h7⟩
    · rintro ⟨l, t', c1, o, ⟨⟨l1, t1, c2⟩, h3, ⟨l2, t2, c3⟩, h4, h5⟩, rfl, h6⟩
      cases h5
      exact ⟨i, _, c, l1, t1, c2, l2 ++ o, rfl, h3, by simp, ih.2 ⟨l2, _, _, o, h4, rfl, h6⟩⟩

theorem delivers_stage_gates_nil {τ : Type} {e : τ → Nat → Instr → Outcome (List Instr × τ × Nat)} (hne : NonemptyExp e) {m : Mode}
    {t : τ} {out : List Instr} {c c' : Nat} :
    Delivers (stage e (gateMachine m)) (([], []), t, []) c out c' ↔ out = [] ∧ c' = c := by
  rw [delivers_stage_nil hne]
  simp [gateMachine]

theorem delivers_stage_gates_cons {τ : Type} {e : τ → Nat → Instr → Outcome (List Instr × τ × Nat)} (hne : NonemptyExp e) {m : Mode}
    {g : Gate} {gs : List Gate} {t : τ} {out : List Instr} {c c' : Nat} :
    Delivers (stage e (gateMachine m)) ((g :: gs, []), t, []) c out c' ↔
      ∃ is c1 l t' c2 o, compileGate m c g = .ok (is, c1) ∧ expandList e t c1 is = .ok (l, t', c2) ∧ out = l ++ o ∧
        Delivers (stage e (gateMachine m)) ((gs, []), t', []) c2 o c' := by
  rw [delivers_stage_nil hne]
  have hh : (gateMachine m).hasNext (g :: gs, []) = true := by simp [gateMachine]
  rw [hh]
  simp only [Bool.true_eq_false, false_and, false_or, true_and]
  constructor
  · rintro ⟨i, s', c1, l, t', c2, o, h1, h2, rfl, h3⟩
    simp only [gateMachine, Outcome.bind_eq_ok] at h1
    obtain ⟨⟨is, c3⟩, h4, ⟨x, q⟩, h5, h6⟩ := h1
    cases is with
    | nil => cases h5
    | cons y is =>
      cases h5; cases h6
      obtain ⟨l', t3, c5, o', h7, rfl, h8⟩ := (delivers_stage_gates_pending hne).1 h3
      refine ⟨_, _, l ++ l', t3, c5, o', h4, ?_, by simp, h8⟩
      simp only [expandList, Outcome.bind_eq_ok]
      exact ⟨_, h2, _, h7, rfl⟩
  · rintro ⟨is, c1, l, t', c2, o, h1, h2, rfl, h3⟩
    have := compileGate_ne h1
    cases is with
    | nil => exact absurd rfl this
    | cons x is =>
      simp only [expandList, Outcome.bind_eq_ok] at h2
      obtain ⟨⟨la, ta, ca⟩, h12, ⟨lb, tb, cb⟩, h13, h14⟩ := h2
      cases h14
      refine ⟨x, (gs, is), c1, la, ta, ca, lb ++ o, ?_, h12, by simp, ?_⟩
      · simp [gateMachine, h1, queuePop]
      · exact (delivers_stage_gates_pending hne).2 ⟨lb, _, _, o, h13, rfl, h3⟩

theorem boundary_ne : NonemptyExp boundaryExpand := by
  intro t c i l t' c' h
  unfold boundaryExpand at h
  split at h
  · simp only [Outcome.bind_eq_ok] at h
    obtain ⟨⟨r, m⟩, _, h2⟩ := h
    cases h2; simp
  · cases h; simp
  · split at h <;> cases h <;> simp
  · cases h; simp
  · cases h; simp

theorem teleported_ne (core : List Nat) (rot : Bool) : NonemptyExp (teleportedExpand core rot) := by
  intro t c i l t' c' h
  unfold teleportedExpand at h
  split at h
  · split at h <;> cases h <;> simp
  · split at h <;> cases h <;> simp
  · cases h; simp

theorem catalytic_ne (core : List Nat) (loc rot : Bool) : NonemptyExp (catalyticExpand core loc rot) := by
  intro t c i l t' c' h
  unfold catalyticExpand at h
  split at h
  · split at h
    · simp only [Outcome.bind_eq_ok] at h
      obtain ⟨⟨l1, c1⟩, _, ⟨l2, c2⟩, _, h3⟩ := h
      cases h3; simp
    · cases h; simp
  · split at h <;> cases h <;> simp
  · cases h; simp

/-- The identity expansion: a gate program without any injection stage. -/
def idExpand (_ : Unit) (c : Nat) (i : Instr) : Outcome (List Instr × Unit × Nat) := .ok ([i], (), c)

theorem id_ne : NonemptyExp idExpand := by
  intro t c i l t' c' h; cases h; simp

theorem expandList_id (c : Nat) (is : List Instr) : expandList idExpand () c is = .ok (is, (), c) := by
  induction is with
  | nil => rfl
  | cons i is ih => simp [expandList, idExpand, ih]

theorem delivers_gates_id {m : Mode} {gs : List Gate} {out : List Instr} {c c' : Nat} :
    Delivers (gateMachine m) (gs, []) c out c' ↔ Delivers (stage idExpand (gateMachine m)) ((gs, []), (), []) c out c' := by
  induction gs generalizing c out with
  | nil => rw [delivers_gates_nil, delivers_stage_gates_nil id_ne]
  | cons g gs ih =>
    rw [delivers_gates_cons, delivers_stage_gates_cons id_ne]
    constructor
    · rintro ⟨l, c1, o, h1, rfl, h2⟩
      exact ⟨l, c1, l, (), c1, o, h1, expandList_id _ _, rfl, ih.1 h2⟩
    · rintro ⟨is, c1, l, t', c2, o, h1, h2, rfl, h3⟩
      rw [expandList_id] at h2; cases h2
      exact ⟨is, c1, o, h1, rfl, ih.2 h3⟩

end Verif.Stream
