import Verif.Salvage
import Verif.Basic

/-! # The pipelines up to an exception: they are the same functions -/

namespace Verif

namespace Tried

/-- The second gives the value of the first, or the variables when it throws. -/
def Follows {ρ σ α : Type} (x : Outcome ρ) (f : α → σ → ρ) (y : Tried σ α) : Prop :=
  match x with
  | .ok r => ∃ a s, r = f a s ∧ y = .ok (some a, s)
  | .throws => ∃ s, y = .ok (none, s)
  | .ub => y = .ub

section
variable {ρ ρ' σ α β : Type} {x : Outcome ρ} {f : α → σ → ρ} {y : Tried σ α} {g : ρ → Outcome ρ'} {f' : β → σ → ρ'} {g' : α → σ → Tried σ β}

theorem Follows.bind (h : Follows x f y) (hg : ∀ a s, Follows (g (f a s)) f' (g' a s)) : Follows (x >>= g) f' (andThen y g') := by
  cases x with
  | ok r =>
    obtain ⟨a, s, rfl, rfl⟩ := h
    exact hg a s
  | throws =>
    obtain ⟨s, rfl⟩ := h
    exact ⟨s, rfl⟩
  | ub =>
    have h : y = .ub := h
    subst h
    rfl

theorem Follows.attempt {x : Outcome α} {g : α → Outcome ρ'} {s : σ} (hg : ∀ a, x = .ok a → Follows (g a) f' (g' a s)) : Follows (x >>= g) f' (andThen (attempt s x) g') := by
  cases x with
  | ok a => exact hg a rfl
  | throws => exact ⟨s, rfl⟩
  | ub => rfl

theorem Follows.ok {r : ρ} {a : α} {s : σ} (h : r = f a s) : Follows (.ok r) f (.ok (some a, s)) := ⟨a, s, h, rfl⟩

theorem Follows.throws {s : σ} : Follows (.throws : Outcome ρ) f (.ok (none, s)) := ⟨s, rfl⟩

theorem Follows.ub : Follows (.ub : Outcome ρ) f .ub := rfl

theorem Follows.of_ok {r : ρ} (h : Follows x f y) (hx : x = .ok r) : ∃ a s, r = f a s ∧ y = .ok (some a, s) := by subst hx; exact h

theorem Follows.of_throws (h : Follows x f y) (hx : x = .throws) : ∃ s, y = .ok (none, s) := by subst hx; exact h

theorem Follows.caught {s : σ} (h : Follows x f y) (hy : y = .ok (none, s)) : x = .throws := by
  subst hy
  cases x with
  | ok r => obtain ⟨_, _, -, h⟩ := h; cases h
  | throws => rfl
  | ub => cases h

theorem Follows.value {a : α} {s : σ} (h : Follows x f y) (hy : y = .ok (some a, s)) : x = .ok (f a s) := by
  subst hy
  cases x with
  | ok r => obtain ⟨_, _, rfl, h⟩ := h; cases h; rfl
  | throws => obtain ⟨_, h⟩ := h; cases h
  | ub => cases h

end

/-- Whatever becomes of it, the variables are related to what they were. -/
def Leads {σ α : Type} (R : σ → σ → Prop) (s : σ) (y : Tried σ α) : Prop := ∀ o s', y = .ok (o, s') → R s s'

section
variable {σ α β : Type} {R : σ → σ → Prop} {s : σ}

theorem Leads.andThen (ht : ∀ a b c, R a b → R b c → R a c) {y : Tried σ α} {g : α → σ → Tried σ β} (h : Leads R s y) (hg : ∀ a s, Leads R s (g a s)) : Leads R s (andThen y g) := by
  intro o s' e
  unfold Tried.andThen at e
  split at e
  · exact ht _ _ _ (h _ _ rfl) (hg _ _ _ _ e)
  · cases e; exact h _ _ rfl
  · cases e
  · cases e

theorem Leads.attempt (ht : ∀ a b c, R a b → R b c → R a c) {s1 : σ} (h : R s s1) {x : Outcome α} {g : α → σ → Tried σ β} (hg : ∀ a, x = .ok a → Leads R s1 (g a s1)) :
    Leads R s (Tried.andThen (attempt s1 x) g) := by
  intro o s' e
  cases x with
  | ok a => exact ht _ _ _ h (hg a rfl _ _ e)
  | throws => cases e; exact h
  | ub => cases e

theorem Leads.ok {o : Option α} {s1 : σ} (h : R s s1) : Leads R s (.ok (o, s1) : Tried σ α) := by
  intro o s' e; cases e; exact h

theorem Leads.ub : Leads R s (.ub : Tried σ α) := by intro o s' e; cases e

theorem Leads.from (ht : ∀ a b c, R a b → R b c → R a c) {s1 : σ} (h : R s s1) {y : Tried σ α} (hy : Leads R s1 y) : Leads R s y :=
  fun o s' e => ht _ _ _ h (hy o s' e)

end

open Pipe in
/-- The second stops where the first shows a slice late, and is the same otherwise; `l` is what has been shown. -/
structure Heeds {σ τ α : Type} (late : Nat → Bool) (l : σ → List (Obs τ)) (s0 : σ) (x y : Tried σ α) : Prop where
  stops : ∀ o s, y = .ok (o, s) → sliceCount (l s0) ≤ sliceCount (l s) ∧ (∀ i, sliceCount (l s0) ≤ i → i < sliceCount (l s) → late i = false) ∧
    (x = .ok (o, s) ∨ o = none ∧ late (sliceCount (l s)) = true)
  goes : ∀ o s, x = .ok (o, s) → (∀ i, sliceCount (l s0) ≤ i → i < sliceCount (l s) → late i = false) → y = .ok (o, s)
  grows : ∀ o s, x = .ok (o, s) → l s0 <+: l s
  within : ∀ o s, x = .ok (o, s) → ∃ o' s', y = .ok (o', s') ∧ l s' <+: l s

section
open Pipe
variable {σ τ α β : Type} {late : Nat → Bool} {l : σ → List (Obs τ)} {s0 : σ}

theorem sliceCount_append {σ : Type} (l l' : List (Obs σ)) : sliceCount (l ++ l') = sliceCount l + sliceCount l' := List.countP_append

theorem sliceCount_prefix {σ : Type} {l l' : List (Obs σ)} (h : l <+: l') : sliceCount l ≤ sliceCount l' := by
  obtain ⟨m, rfl⟩ := h
  rw [sliceCount_append]
  omega

theorem Heeds.value {x y : Tried σ α} {a : α} {s : σ} (h : Heeds late l s0 x y) (e : y = .ok (some a, s)) : x = .ok (some a, s) := by
  obtain ⟨-, -, h | ⟨h, -⟩⟩ := h.stops _ _ e
  · exact h
  · cases h

theorem Heeds.andThen {x y : Tried σ α} {f g : α → σ → Tried σ β} (h : Heeds late l s0 x y) (hg : ∀ a s, Heeds late l s (f a s) (g a s)) :
    Heeds late l s0 (andThen x f) (andThen y g) := by
  constructor
  · intro o s e
    unfold Tried.andThen at e
    split at e
    · rename_i a s1
      obtain ⟨h1, h2, h3⟩ := h.stops _ _ rfl
      obtain ⟨h4, h5, h6⟩ := (hg a s1).stops _ _ e
      refine ⟨Nat.le_trans h1 h4, fun i hi hi' => ?_, ?_⟩
      · by_cases hc : i < sliceCount (l s1)
        · exact h2 i hi hc
        · exact h5 i (by omega) hi'
      · rcases h3 with h3 | ⟨h3, -⟩
        · rw [h3]; exact h6
        · cases h3
    · cases e
      obtain ⟨h1, h2, h3⟩ := h.stops _ _ rfl
      refine ⟨h1, h2, ?_⟩
      rcases h3 with h3 | ⟨-, h3⟩
      · rw [h3]; exact .inl rfl
      · exact .inr ⟨rfl, h3⟩
    · cases e
    · cases e
  · intro o s e
    unfold Tried.andThen at e
    split at e
    · rename_i a s1
      have h1 := sliceCount_prefix (h.grows _ _ rfl)
      have h3 := sliceCount_prefix ((hg a s1).grows _ _ e)
      intro hl
      rw [h.goes _ _ rfl fun i hi hi' => hl i hi (by omega)]
      exact (hg a s1).goes _ _ e fun i hi hi' => hl i (by omega) hi'
    · cases e
      intro hl
      rw [h.goes _ _ rfl hl]
      rfl
    · cases e
    · cases e
  · intro o s e
    unfold Tried.andThen at e
    split at e
    · rename_i a s1
      exact (h.grows _ _ rfl).trans ((hg a s1).grows _ _ e)
    · cases e
      exact h.grows _ _ rfl
    · cases e
    · cases e
  · intro o s e
    unfold Tried.andThen at e
    split at e
    · rename_i a s1
      obtain ⟨o', s', h1, h2⟩ := h.within _ _ rfl
      cases o' with
      | none => exact ⟨none, s', by rw [h1]; rfl, h2.trans ((hg a s1).grows _ _ e)⟩
      | some a' =>
        have h3 := h.value h1
        cases h3
        obtain ⟨o'', s'', h4, h5⟩ := (hg a s1).within _ _ e
        exact ⟨o'', s'', by rw [h1]; exact h4, h5⟩
    · cases e
      obtain ⟨o', s', h1, h2⟩ := h.within _ _ rfl
      cases o' with
      | none => exact ⟨none, s', by rw [h1]; rfl, h2⟩
      | some a' => have h3 := h.value h1; cases h3
    · cases e
    · cases e

/-- Instructions are shown at most. -/
def Instrs (a b : List (Obs τ)) : Prop := ∃ is : List Instr, b = a ++ is.map .instr

theorem sliceCount_instrs {σ : Type} (is : List Instr) : sliceCount (is.map (Obs.instr (σ := σ))) = 0 := by
  unfold sliceCount
  rw [List.countP_eq_zero]
  intro o ho
  obtain ⟨i, -, rfl⟩ := List.mem_map.1 ho
  simp

theorem Instrs.count {a b : List (Obs τ)} (h : Instrs a b) : sliceCount b = sliceCount a := by
  obtain ⟨is, rfl⟩ := h
  rw [sliceCount_append, sliceCount_instrs]
  rfl

theorem Instrs.refl {a : List (Obs τ)} : Instrs a a := ⟨[], by simp⟩

theorem Heeds.same {x : Tried σ α} (h : ∀ o s, x = .ok (o, s) → Instrs (l s0) (l s)) : Heeds late l s0 x x :=
  ⟨fun o s e => ⟨Nat.le_of_eq (h o s e).count.symm, fun i hi hi' => by have := (h o s e).count; omega, .inl e⟩, fun o s e _ => e,
    fun o s e => by obtain ⟨is, h⟩ := h o s e; rw [h]; exact List.prefix_append _ _, fun o s e => ⟨o, s, e, List.prefix_refl _⟩⟩

theorem Heeds.ok {o : Option α} {s : σ} (h : Instrs (l s0) (l s)) : Heeds late l s0 (.ok (o, s)) (.ok (o, s)) := .same fun o s e => by cases e; exact h

theorem Heeds.from {s1 : σ} (h : l s1 = l s0) {x y : Tried σ α} (hy : Heeds late l s1 x y) : Heeds late l s0 x y :=
  ⟨by rw [← h]; exact hy.stops, by rw [← h]; exact hy.goes, by rw [← h]; exact hy.grows, hy.within⟩

theorem Heeds.look {s s' : σ} {m : τ} {x : Outcome α} (h : Instrs (l s0) (l s)) (h' : l s' = l s ++ [.slice m]) :
    Heeds late l s0 (look false s s' x) (look (late (sliceCount (l s))) s s' x) := by
  have hx : ∀ o t, (Tried.look false s s' x = .ok (o, t)) → t = s' := by
    intro o t e
    cases x with
    | ok a => cases e; rfl
    | throws => cases e; rfl
    | ub => cases e
  have hc := h.count
  have hc' : sliceCount (l s') = sliceCount (l s) + 1 := by rw [h', sliceCount_append]; rfl
  constructor
  · intro o t e
    cases hl : late (sliceCount (l s)) with
    | true =>
      rw [hl] at e
      cases e
      exact ⟨by omega, fun i _ _ => by omega, .inr ⟨rfl, hl⟩⟩
    | false =>
      rw [hl] at e
      have := hx _ _ e
      subst this
      refine ⟨by omega, fun i hi hi' => ?_, .inl e⟩
      obtain rfl : i = sliceCount (l s) := by omega
      exact hl
  · intro o t e hl
    have := hx _ _ e
    subst this
    rw [hl _ (by omega) (by omega)]
    exact e
  · intro o t e
    have := hx _ _ e
    subst this
    obtain ⟨is, h⟩ := h
    rw [h', h]
    exact (List.prefix_append _ _).trans (List.prefix_append _ _)
  · intro o t e
    have := hx _ _ e
    subst this
    cases hl : late (sliceCount (l s)) with
    | true => exact ⟨none, s, rfl, by rw [h']; exact List.prefix_append _ _⟩
    | false => exact ⟨o, t, e, List.prefix_refl _⟩

end

/-- Nothing comes late. -/
abbrev never : Nat → Bool := fun _ => false

end Tried

open Tried

namespace Wave

section
variable {σ : Type} {env : Env σ}

/-- The value is of no interest. -/
abbrev plain {σ : Type} (_ : Unit) (s : σ) : σ := s

theorem applyTo_follows (st : St σ) (id : Nat) : Follows (applyTo env st id) Prod.mk (applyToT env st id) := by
  unfold applyTo applyToT
  split
  · exact .attempt fun a _ => .ok rfl
  · exact .ub

/-- The two versions of a recursive call agree. -/
def Same (rec : Rec σ) (recT : RecT σ) : Prop := ∀ st id prox, Follows (rec st id prox) Prod.mk (recT st id prox)

variable {rec : Rec σ} {recT : RecT σ}

theorem release_follows (h : Same rec recT) (st : St σ) (j : Nat) (prox : Bool) : Follows (release rec st j prox) plain (releaseT recT st j prox) := by
  unfold release releaseT
  split
  · exact .attempt fun a _ => .ok rfl
  · exact (h st j prox).bind fun a s => .ok rfl

theorem oneDep_follows (h : Same rec recT) (st : St σ) (j : Nat) (prox : Bool) : Follows (oneDep rec st j prox) plain (oneDepT recT st j prox) := by
  unfold oneDep oneDepT
  dsimp only
  split
  · exact release_follows h _ _ _
  · exact .ok rfl

theorem depLoop_follows (h : Same rec recT) {prox : Bool} {n0 : Nat} : ∀ (js : List Nat) (st : St σ), Follows (depLoop env rec prox n0 st js) plain (depLoopT env recT prox n0 st js)
  | [], st => .ok rfl
  | j :: js, st => by
    unfold depLoop depLoopT
    split
    · exact .ub
    · split
      · exact .ub
      · exact (oneDep_follows h st j prox).bind fun _ s => depLoop_follows h js s

theorem followLoop_follows (h : Same rec recT) {prox : Bool} {n0 : Nat} {deps : List Nat} {origin : Nat} : ∀ (fs : List Instr) (st : St σ),
    Follows (followLoop env rec prox n0 deps origin st fs) plain (followLoopT env recT prox n0 deps origin st fs)
  | [], st => .ok rfl
  | f :: fs, st => by
    unfold followLoop followLoopT
    split
    · exact .ub
    · exact (h _ _ _).bind fun _ s => followLoop_follows h fs _

theorem notify_follows (h : Same rec recT) (st : St σ) (id : Nat) (fs : List Instr) (prox : Bool) : Follows (notify env rec st id fs prox) plain (notifyT env recT st id fs prox) := by
  unfold notify notifyT
  cases fs with
  | nil => exact depLoop_follows h _ _
  | cons f fs => exact followLoop_follows h _ _

theorem tryImm_follows : ∀ d, Same (tryImm env d) (tryImmT env d)
  | 0 => fun _ _ _ => .ub
  | d + 1 => by
    intro st id prox
    unfold tryImm tryImmT
    split
    · exact .ub
    · refine .attempt fun imm _ => ?_
      dsimp only
      split
      · exact .ok rfl
      · refine (applyTo_follows st id).bind fun r s => ?_
        dsimp only
        split
        · split <;> exact .ok rfl
        · split
          · exact .ok rfl
          · exact (notify_follows (tryImm_follows d) _ _ _ _).bind fun _ s => .ok rfl

theorem schedOne_follows (h : Same rec recT) (prox deferred : Bool) (st : St σ) (id : Nat) : Follows (schedOne env rec prox deferred st id) plain (schedOneT env recT prox deferred st id) := by
  unfold schedOne schedOneT
  refine (applyTo_follows st id).bind fun r s => ?_
  dsimp only
  split
  · split
    · exact .ok rfl
    · exact notify_follows h _ _ _ _
  · split
    · exact .ok rfl
    · split
      · exact .ok rfl
      · split
        · exact .throws
        · split
          · exact .throws
          · exact .ok rfl

theorem schedList_follows (h : Same rec recT) (prox deferred : Bool) : ∀ (ids : List Nat) (st : St σ), Follows (schedList env rec prox deferred st ids) plain (schedListT env recT prox deferred st ids)
  | [], st => .ok rfl
  | id :: ids, st => (schedOne_follows h prox deferred st id).bind fun _ s => schedList_follows h prox deferred ids s

theorem rounds_follows (h : Same rec recT) (st : St σ) : Follows (rounds env rec st) plain (roundsT env recT st) := by
  unfold rounds roundsT
  split
  · exact (schedList_follows h false true _ _).bind fun _ s => .attempt fun a _ => schedList_follows h false true _ _
  · exact .ok rfl

theorem scheduleWave_follows (depth : Nat) (st : St σ) : Follows (scheduleWave env depth st) plain (scheduleWaveT env depth st) := by
  unfold scheduleWave scheduleWaveT
  exact (schedList_follows (tryImm_follows depth) _ _ _ _).bind fun _ s => (schedList_follows (tryImm_follows depth) _ _ _ _).bind fun _ s =>
    (rounds_follows (tryImm_follows depth) _).bind fun _ s => .ok rfl

/-! What the visitor has been shown stays shown. -/

def Longer (a b : St σ) : Prop := a.log <+: b.log

theorem longer_trans (a b c : St σ) (h : Longer a b) (h' : Longer b c) : Longer a c := List.IsPrefix.trans h h'

theorem longer_same {a b : St σ} (h : a.log = b.log) : Longer a b := by unfold Longer; rw [h]; exact List.prefix_refl _

theorem applyTo_longer (st : St σ) (id : Nat) : Leads Longer st (applyToT env st id) := by
  unfold applyToT
  split
  · exact .attempt longer_trans (longer_same rfl) fun a _ => .ok (longer_same rfl)
  · exact .ub

def Shows (recT : RecT σ) : Prop := ∀ st id prox, Leads Longer st (recT st id prox)

theorem release_longer (h : Shows recT) (st : St σ) (j : Nat) (prox : Bool) : Leads Longer st (releaseT recT st j prox) := by
  unfold releaseT
  split
  · refine .attempt longer_trans (longer_same rfl) fun a _ => .ok (longer_same ?_)
    split <;> rfl
  · refine .andThen longer_trans (h _ _ _) fun a s => .ok (longer_same ?_)
    split <;> rfl

theorem oneDep_longer (h : Shows recT) (st : St σ) (j : Nat) (prox : Bool) : Leads Longer st (oneDepT recT st j prox) := by
  unfold oneDepT
  dsimp only
  split
  · exact .from longer_trans (longer_same rfl) (release_longer h _ _ _)
  · exact .ok (longer_same rfl)

theorem depLoop_longer (h : Shows recT) {prox : Bool} {n0 : Nat} : ∀ (js : List Nat) (st : St σ), Leads Longer st (depLoopT env recT prox n0 st js)
  | [], st => .ok (longer_same rfl)
  | j :: js, st => by
    unfold depLoopT
    split
    · exact .ub
    · split
      · exact .ub
      · exact .andThen longer_trans (oneDep_longer h st j prox) fun _ s => depLoop_longer h js s

theorem followLoop_longer (h : Shows recT) {prox : Bool} {n0 : Nat} {deps : List Nat} {origin : Nat} : ∀ (fs : List Instr) (st : St σ),
    Leads Longer st (followLoopT env recT prox n0 deps origin st fs)
  | [], st => .ok (longer_same rfl)
  | f :: fs, st => by
    unfold followLoopT
    split
    · exact .ub
    · refine .from longer_trans (longer_same rfl) (.andThen longer_trans (h _ _ _) fun b s => .from longer_trans (longer_same ?_) (followLoop_longer h fs _))
      split <;> rfl

theorem addDelta_log (n : Nat) : ∀ (js : List Nat) (st : St σ), (addDelta st n js).log = st.log
  | [], _ => rfl
  | _ :: js, _ => addDelta_log n js _

theorem notify_longer (h : Shows recT) (st : St σ) (id : Nat) (fs : List Instr) (prox : Bool) : Leads Longer st (notifyT env recT st id fs prox) := by
  unfold notifyT
  cases fs with
  | nil => exact depLoop_longer h _ _
  | cons f fs =>
    refine .from longer_trans (longer_same ?_) (followLoop_longer h _ _)
    split
    · exact (addDelta_log _ _ _).symm
    · rfl

theorem visit_longer (st : St σ) (id : Nat) (r : Res σ) : Longer st (visit st id r) := List.prefix_append _ _

theorem tryImm_longer : ∀ d, Shows (tryImmT env d)
  | 0 => fun _ _ _ => .ub
  | d + 1 => by
    intro st id prox
    unfold tryImmT
    split
    · exact .ub
    · refine .attempt longer_trans (longer_same rfl) fun imm _ => ?_
      split
      · exact .ok (longer_same rfl)
      · refine .andThen longer_trans (applyTo_longer st id) fun r s => ?_
        split
        · split <;> exact .ok (longer_same rfl)
        · split
          · exact .ok (longer_trans _ _ _ (visit_longer s id r) (longer_same rfl))
          · exact .from longer_trans (visit_longer s id r) (.andThen longer_trans (notify_longer (tryImm_longer d) _ _ _ _) fun _ s => .ok (longer_same rfl))

theorem schedOne_longer (h : Shows recT) (prox deferred : Bool) (st : St σ) (id : Nat) : Leads Longer st (schedOneT env recT prox deferred st id) := by
  unfold schedOneT
  refine .andThen longer_trans (applyTo_longer st id) fun r s => ?_
  split
  · split
    · exact .ok (longer_trans _ _ _ (visit_longer s id r) (longer_same rfl))
    · exact .from longer_trans (visit_longer s id r) (notify_longer h _ _ _ _)
  · split
    · exact .ok (longer_same rfl)
    · split
      · exact .ok (longer_same rfl)
      · split
        · exact .ok (longer_same rfl)
        · split
          · exact .ok (longer_same rfl)
          · exact .ok (longer_same rfl)

theorem schedList_longer (h : Shows recT) (prox deferred : Bool) : ∀ (ids : List Nat) (st : St σ), Leads Longer st (schedListT env recT prox deferred st ids)
  | [], st => .ok (longer_same rfl)
  | id :: ids, st => .andThen longer_trans (schedOne_longer h prox deferred st id) fun _ s => schedList_longer h prox deferred ids s

theorem rounds_longer (h : Shows recT) (st : St σ) : Leads Longer st (roundsT env recT st) := by
  unfold roundsT
  split
  · exact .andThen longer_trans (schedList_longer h false true _ _) fun _ s =>
      .attempt longer_trans (longer_same rfl) fun a _ => .from longer_trans (longer_same rfl) (schedList_longer h false true _ _)
  · exact .ok (longer_same rfl)

theorem scheduleWave_longer (depth : Nat) (st : St σ) : Leads Longer st (scheduleWaveT env depth st) := by
  unfold scheduleWaveT
  exact .andThen longer_trans (schedList_longer (tryImm_longer depth) _ _ _ _) fun _ s => .andThen longer_trans (schedList_longer (tryImm_longer depth) _ _ _ _) fun _ s =>
    .andThen longer_trans (rounds_longer (tryImm_longer depth) _) fun _ s => .ok (longer_same rfl)

end

end Wave

namespace Pipe

open Verif.Wave (Res Env)

section
variable {σ : Type} {env : Env σ}

/-! ### Streamed -/

theorem react_follows (st : SSt σ) (it : Item) (r : Res σ) : Follows (react env st it r) Prod.mk (reactT env never st it r) := by
  unfold react reactT
  dsimp only
  split
  · exact .attempt fun a _ => .ok rfl
  · split
    · split
      · exact .ok rfl
      · exact .attempt fun a _ => .ok rfl
    · exact .ok rfl

variable {late : Nat → Bool}

/-- What has been shown. -/
abbrev SSt.obs {σ : Type} (st : SSt σ) : List (Obs σ) := st.events.filterMap Ev.obs

theorem react_heeds (st : SSt σ) (it : Item) (r : Res σ) : Heeds late SSt.obs st (reactT env never st it r) (reactT env late st it r) := by
  have hb : Instrs st.obs (SSt.obs { st with slice := r.slice, events := st.events ++ ([Ev.attempt it r.err r.followups] ++ (if r.err then [] else [Ev.instr it.tag r.instr])) }) := by
    cases r.err
    · exact ⟨[r.instr], by simp [SSt.obs]; rfl⟩
    · exact ⟨[], by simp [SSt.obs]; rfl⟩
  have ha : SSt.obs { st with slice := r.slice, events := st.events ++ ([Ev.attempt it r.err r.followups] ++ (if r.err then [] else [Ev.instr it.tag r.instr])) ++ [.slice r.slice] } =
      SSt.obs { st with slice := r.slice, events := st.events ++ ([Ev.attempt it r.err r.followups] ++ (if r.err then [] else [Ev.instr it.tag r.instr])) } ++ [.slice r.slice] := by
    unfold SSt.obs
    dsimp only
    rw [List.filterMap_append]
    rfl
  unfold reactT
  dsimp only
  split
  · exact .andThen (.look hb ha) fun a s => .ok .refl
  · cases he : r.err with
    | true =>
      rw [he] at ha hb
      rw [if_pos rfl, if_pos rfl]
      split
      · exact .andThen (.look hb ha) fun a s => .ok .refl
      · exact .andThen (.look hb ha) fun a s => .ok .refl
    | false =>
      rw [he] at hb
      rw [if_neg (by simp), if_neg (by simp)]
      exact .ok hb

theorem takeNext_same {st s : SSt σ} {it : Item} (h : takeNext st = some (it, s)) : s.count = st.count ∧ s.events = st.events := by
  unfold takeNext at h
  split at h
  · cases h; exact ⟨rfl, rfl⟩
  · split at h
    · cases h; exact ⟨rfl, rfl⟩
    · cases h

theorem sstep_heeds (st : SSt σ) : Heeds late SSt.obs st (sstepT env never st) (sstepT env late st) := by
  unfold sstepT
  cases h : takeNext st with
  | none =>
    refine .andThen (.look (m := st.slice) .refl ?_) fun a s => .ok .refl
    unfold SSt.obs
    dsimp only
    rw [List.filterMap_append]
    rfl
  | some x =>
    have hc : x.2.obs = st.obs := by unfold SSt.obs; rw [(takeNext_same (it := x.1) (s := x.2) h).2]
    refine .andThen (.same fun o s e => ?_) fun a s => react_heeds _ _ _
    cases ha : env.apply x.2.slice x.1.instr with
    | ok a => rw [ha] at e; cases e; exact hc ▸ .refl
    | throws => rw [ha] at e; cases e; exact hc ▸ .refl
    | ub => rw [ha] at e; cases e

theorem srun_heeds : ∀ (n : Nat) (st : SSt σ), Heeds late SSt.obs st (srunT env never n st) (srunT env late n st)
  | 0, st => .ok .refl
  | n + 1, st => by
    unfold srunT
    refine .andThen (sstep_heeds st) fun c s => ?_
    split
    · exact srun_heeds n s
    · exact .ok .refl

theorem sstep_follows (st : SSt σ) : Follows (sstep env st) Prod.mk (sstepT env never st) := by
  unfold sstep sstepT
  cases h : takeNext st with
  | none => exact .ok rfl
  | some x => exact .attempt fun a _ => react_follows _ _ _

theorem srun_follows : ∀ (n : Nat) (st : SSt σ), Follows (srun env n st) Prod.mk (srunT env never n st)
  | 0, st => .ok rfl
  | n + 1, st => by
    unfold srun srunT
    refine (sstep_follows st).bind fun c s => ?_
    dsimp only
    split
    · exact srun_follows n s
    · exact .ok rfl

/-- What is shown in a round that is not finished: instructions, and possibly the slice. -/
def Unfinished {σ : Type} (l : List (Obs σ)) : Prop := ∃ is : List Instr, l = is.map .instr ∨ ∃ s, l = is.map .instr ++ [.slice s]

theorem unfinished_nil : Unfinished ([] : List (Obs σ)) := ⟨[], .inl rfl⟩

/-- The exception came in the round after `k` others. -/
theorem srun_caught : ∀ {n : Nat} {st st' : SSt σ}, srunT env late n st = .ok (none, st') →
    ∃ k st1, srun env k st = .ok (.go, st1) ∧ st'.count = st1.count ∧ ∃ l, st'.events.filterMap Ev.obs = st1.events.filterMap Ev.obs ++ l ∧ Unfinished l
  | 0, st, st', h => by cases h
  | n + 1, st, st', h => by
    unfold srunT at h
    have hf := sstep_follows (env := env) st
    unfold Tried.andThen at h
    split at h
    · rename_i c s e
      dsimp only at h
      split at h
      · rename_i hc
        subst hc
        obtain ⟨k, st1, h1, h2⟩ := srun_caught h
        refine ⟨k + 1, st1, ?_, h2⟩
        unfold srun
        rw [hf.value ((sstep_heeds st).value e)]
        simpa using h1
      · cases h
    · rename_i s e
      obtain rfl : s = st' := by cases h; rfl
      refine ⟨0, st, rfl, ?_⟩
      unfold sstepT at e
      split at e
      · cases hl : late st.sliceCount with
        | true => rw [hl] at e; cases e; exact ⟨rfl, [], by simp, unfinished_nil⟩
        | false => rw [hl] at e; cases e
      · rename_i it s0 ht
        have h0 := takeNext_same ht
        cases ha : env.apply s0.slice it.instr with
        | throws =>
          rw [ha] at e
          cases e
          exact ⟨h0.1, [], by rw [h0.2]; simp, unfinished_nil⟩
        | ub => rw [ha] at e; cases e
        | ok r =>
          rw [ha] at e
          have e : reactT env late s0 it r = .ok (none, s) := e
          have key : ∀ {α : Type} {b : Bool} {x : Outcome α} {g : α → SSt σ → Tried (SSt σ) Ctl}, (∀ a b, ∃ c d, g a b = .ok (some c, d)) →
              Tried.andThen (look b { s0 with slice := r.slice, events := s0.events ++ ([Ev.attempt it r.err r.followups] ++ (if r.err then [] else [Ev.instr it.tag r.instr])) }
                { s0 with slice := r.slice, events := s0.events ++ ([Ev.attempt it r.err r.followups] ++ (if r.err then [] else [Ev.instr it.tag r.instr])) ++ [.slice r.slice] } x) g = .ok (none, s) →
              s.count = st.count ∧ ∃ l, s.events.filterMap Ev.obs = st.events.filterMap Ev.obs ++ l ∧ Unfinished l := by
            intro α b x g hg e
            cases b with
            | true =>
              cases e
              refine ⟨h0.1, (if r.err then [] else [.instr r.instr]), ?_, ?_⟩
              · dsimp only
                rw [h0.2]
                cases r.err <;> simp <;> rfl
              · cases r.err
                · exact ⟨[r.instr], .inl rfl⟩
                · exact ⟨[], .inl rfl⟩
            | false =>
              cases x with
              | ok a =>
                obtain ⟨c, d, hg⟩ := hg a { s0 with slice := r.slice, events := s0.events ++ ([Ev.attempt it r.err r.followups] ++ (if r.err then [] else [Ev.instr it.tag r.instr])) ++ [.slice r.slice] }
                have e : g a _ = .ok (none, s) := e
                rw [hg] at e
                cases e
              | ub => cases e
              | throws =>
                cases e
                refine ⟨h0.1, (if r.err then [] else [.instr r.instr]) ++ [.slice r.slice], ?_, ?_⟩
                · dsimp only
                  rw [h0.2]
                  cases r.err <;> simp <;> rfl
                · cases r.err
                  · exact ⟨[r.instr], .inr ⟨r.slice, rfl⟩⟩
                  · exact ⟨[], .inr ⟨r.slice, rfl⟩⟩
          unfold reactT at e
          dsimp only at e
          split at e
          · exact key (fun a b => ⟨_, _, rfl⟩) e
          · split at e
            · rename_i hr
              rw [hr] at key e
              split at e
              · exact key (fun a b => ⟨_, _, rfl⟩) e
              · exact key (fun a b => ⟨_, _, rfl⟩) e
            · cases e
    · cases h
    · cases h

/-! ### DAG -/

theorem dapply_follows (st : DSt σ) (l : Nat) : Follows (dapply env st l) Prod.mk (dapplyT env st l) := by
  unfold dapply dapplyT
  cases h : st.run.dag.instr l with
  | none => exact .throws
  | some i => exact .attempt fun a _ => .ok rfl

theorem proxLoop_follows : ∀ (ls : List Nat) (st : DSt σ), Follows (proxLoop env st ls) Wave.plain (proxLoopT env st ls)
  | [], st => .ok rfl
  | l :: ls, st => by
    unfold proxLoop proxLoopT
    refine (dapply_follows st l).bind fun r s => ?_
    dsimp only
    split
    · exact .throws
    · unfold settleT
      cases hh : handle s.run l r.followups with
      | ok run => exact proxLoop_follows ls _
      | throws => exact .throws
      | ub => exact .ub

theorem headLoop_follows : ∀ (ls : List Nat) (st : DSt σ), Follows (headLoop env st ls) Wave.plain (headLoopT env st ls)
  | [], st => .ok rfl
  | l :: ls, st => by
    unfold headLoop headLoopT
    refine (dapply_follows st l).bind fun r s => ?_
    dsimp only
    split
    · exact .attempt fun a _ => headLoop_follows ls _
    · unfold settleT
      cases hh : handle s.run l r.followups with
      | ok run => exact headLoop_follows ls _
      | throws => exact .throws
      | ub => exact .ub

theorem dround_follows (st : DSt σ) : Follows (dround env st) Wave.plain (droundT env never st) := by
  unfold dround droundT
  exact (proxLoop_follows _ _).bind fun _ s => (headLoop_follows _ _).bind fun _ s => .attempt fun a _ => .ok rfl

theorem drun_follows : ∀ (n : Nat) (st : DSt σ), Follows (drun env n st) Prod.mk (drunT env never n st)
  | 0, st => .ok rfl
  | n + 1, st => by
    unfold drun drunT
    split
    · exact .ok rfl
    · exact (dround_follows st).bind fun _ s => drun_follows n s

/-- Instructions are shown and nothing is counted. -/
def Adds (a b : DSt σ) : Prop := b.count = a.count ∧ ∃ is : List Instr, b.obs = a.obs ++ is.map .instr

theorem adds_trans (a b c : DSt σ) (h : Adds a b) (h' : Adds b c) : Adds a c := by
  obtain ⟨h1, i1, h2⟩ := h
  obtain ⟨h3, i2, h4⟩ := h'
  exact ⟨h3.trans h1, i1 ++ i2, by rw [h4, h2]; simp⟩

theorem adds_same {a b : DSt σ} (h : b.count = a.count) (h' : b.obs = a.obs) : Adds a b := ⟨h, [], by simp [h']⟩

theorem dapply_adds (st : DSt σ) (l : Nat) : Leads Adds st (dapplyT env st l) := by
  unfold dapplyT
  split
  · exact .ok (adds_same rfl rfl)
  · exact .attempt adds_trans (adds_same rfl rfl) fun a _ => .ok (adds_same rfl rfl)

theorem settle_adds (st : DSt σ) (l : Nat) (r : Res σ) : Leads Adds st (settleT st l r) := by
  have h : Adds st { st with shown := st.shown ++ [(l, r.instr, st.slices)], obs := st.obs ++ [.instr r.instr] } := ⟨rfl, [r.instr], rfl⟩
  unfold settleT
  exact .attempt adds_trans h fun _ _ => .ok (adds_same rfl rfl)

theorem proxLoop_adds : ∀ (ls : List Nat) (st : DSt σ), Leads Adds st (proxLoopT env st ls)
  | [], st => .ok (adds_same rfl rfl)
  | l :: ls, st => by
    unfold proxLoopT
    refine .andThen adds_trans (dapply_adds st l) fun r s => ?_
    split
    · exact .ok (adds_same rfl rfl)
    · exact .andThen adds_trans (settle_adds s l r) fun _ s => proxLoop_adds ls s

theorem headLoop_adds : ∀ (ls : List Nat) (st : DSt σ), Leads Adds st (headLoopT env st ls)
  | [], st => .ok (adds_same rfl rfl)
  | l :: ls, st => by
    unfold headLoopT
    refine .andThen adds_trans (dapply_adds st l) fun r s => ?_
    split
    · refine .attempt adds_trans (adds_same rfl rfl) fun s' hn => .from adds_trans ?_ (headLoop_adds ls s')
      unfold noteFailure at hn
      split at hn
      · cases hn
      · cases hn; exact adds_same rfl rfl
    · exact .andThen adds_trans (settle_adds s l r) fun _ s => headLoop_adds ls s

theorem dround_heeds (st : DSt σ) : Heeds late DSt.obs st (droundT env never st) (droundT env late st) := by
  unfold droundT
  refine .andThen (.same fun o s e => (proxLoop_adds _ _ _ _ e).2) fun _ s => .andThen (.same fun o s e => (headLoop_adds _ _ _ _ e).2) fun _ s => ?_
  exact .andThen (.look .refl rfl) fun a s => .ok .refl

theorem drun_heeds : ∀ (n : Nat) (st : DSt σ), Heeds late DSt.obs st (drunT env never n st) (drunT env late n st)
  | 0, st => .ok .refl
  | n + 1, st => by
    unfold drunT
    split
    · exact .ok .refl
    · exact .andThen (dround_heeds st) fun _ s => drun_heeds n s

theorem dround_caught {st st' : DSt σ} (h : droundT env late st = .ok (none, st')) : st'.count = st.count ∧ ∃ l, st'.obs = st.obs ++ l ∧ Unfinished l := by
  have part : ∀ {a b : DSt σ}, Adds a b → b.count = a.count ∧ ∃ l, b.obs = a.obs ++ l ∧ Unfinished l :=
    fun ⟨h1, is, h2⟩ => ⟨h1, _, h2, is, .inl rfl⟩
  unfold droundT Tried.andThen at h
  split at h
  · rename_i s1 e1
    have a1 := proxLoop_adds (env := env) _ _ _ _ e1
    dsimp only at h
    split at h
    · rename_i s2 e2
      have a2 := adds_trans _ _ _ a1 (headLoop_adds (env := env) _ _ _ _ e2)
      cases hl : late (sliceCount s2.obs) with
      | true =>
        rw [hl] at h
        cases h
        exact part a2
      | false =>
      rw [hl] at h
      cases hx : env.advance s2.slice with
      | ok a => rw [hx] at h; cases h
      | ub => rw [hx] at h; cases h
      | throws =>
        rw [hx] at h
        cases h
        obtain ⟨h1, is, h2⟩ := a2
        exact ⟨h1, is.map .instr ++ [.slice s2.slice], by show s2.obs ++ _ = _; rw [h2]; simp, is, .inr ⟨_, rfl⟩⟩
    · rename_i s2 e2
      cases h
      exact part (adds_trans _ _ _ a1 (headLoop_adds (env := env) _ _ _ _ e2))
    · cases h
    · cases h
  · rename_i s1 e1
    cases h
    exact part (proxLoop_adds (env := env) _ _ _ _ e1)
  · cases h
  · cases h

/-- The exception came in the round after `k` others. -/
theorem drun_caught : ∀ {n : Nat} {st st' : DSt σ}, drunT env late n st = .ok (none, st') →
    ∃ k st1, drun env k st = .ok (false, st1) ∧ st'.count = st1.count ∧ ∃ l, st'.obs = st1.obs ++ l ∧ Unfinished l
  | 0, st, st', h => by cases h
  | n + 1, st, st', h => by
    unfold drunT at h
    split at h
    · cases h
    · rename_i hne
      unfold Tried.andThen at h
      split at h
      · rename_i s e
        obtain ⟨k, st1, h1, h2⟩ := drun_caught h
        refine ⟨k + 1, st1, ?_, h2⟩
        unfold drun
        rw [if_neg hne, (dround_follows st).value ((dround_heeds st).value e)]
        exact h1
      · rename_i s e
        cases h
        refine ⟨0, st, ?_, dround_caught e⟩
        unfold drun
        simp only [Bool.not_eq_true] at hne
        rw [hne]
      · cases h
      · cases h

/-! ### Waves -/

theorem since_instrs (n : Nat) (st : Wave.St σ) : since n st = ((st.log.drop n).map (·.instr)).map .instr := by unfold since; rw [List.map_map]; rfl

theorem wave_count {depth : Nat} {w w' : WSt σ} {o : Option Unit} (h : waveT env depth w = .ok (o, w')) :
    w'.count = w.count ∧ w.st.log <+: w'.st.log ∧ ∃ is : List Instr, w'.obs = w.obs ++ is.map .instr := by
  unfold waveT at h
  split at h
  · rename_i e
    cases h
    exact ⟨rfl, Wave.scheduleWave_longer _ _ _ _ e, _, congrArg _ (since_instrs _ _)⟩
  · cases h
  · cases h

theorem wrun_follows (depth : Nat) : ∀ (n : Nat) (w : WSt σ), Follows (wrun env depth n w) Prod.mk (wrunT env never depth n w)
  | 0, w => .ok rfl
  | n + 1, w => by
    unfold wrun wrunT
    split
    · exact .ok rfl
    · have hf := Wave.scheduleWave_follows (env := env) depth w.st
      unfold waveT
      cases hx : Wave.scheduleWave env depth w.st with
      | ok st =>
        obtain ⟨_, s, rfl, e⟩ := hf.of_ok hx
        rw [e, Outcome.bind_ok]
        exact .attempt fun a _ => wrun_follows depth n _
      | throws =>
        obtain ⟨s, e⟩ := hf.of_throws hx
        rw [e]
        exact .throws
      | ub =>
        rw [hx] at hf
        have hf : Wave.scheduleWaveT env depth w.st = .ub := hf
        rw [hf]
        exact .ub

theorem wrun_heeds (depth : Nat) : ∀ (n : Nat) (w : WSt σ), Heeds late WSt.obs w (wrunT env never depth n w) (wrunT env late depth n w)
  | 0, w => .ok .refl
  | n + 1, w => by
    unfold wrunT
    split
    · exact .ok .refl
    · exact .andThen (.same fun o s e => (wave_count e).2.2) fun _ s => .andThen (.look .refl rfl) fun a s => by
        have hs : WSt.obs { s with st := { s.st with slice := a }, count := s.count + 1 } = s.obs := rfl
        exact Heeds.from hs (wrun_heeds depth n _)

theorem wrun_caught {depth : Nat} : ∀ {n : Nat} {w w' : WSt σ}, wrunT env late depth n w = .ok (none, w') →
    ∃ k w1, wrun env depth k w = .ok (false, w1) ∧ w1.st.log <+: w'.st.log ∧ w'.count = w1.count ∧ ∃ l, w'.obs = w1.obs ++ l ∧ Unfinished l
  | 0, w, w', h => by cases h
  | n + 1, w, w', h => by
    unfold wrunT at h
    split at h
    · cases h
    · rename_i hne
      have h0 : wrun env depth 0 w = .ok (false, w) := by
        unfold wrun
        simp only [Bool.not_eq_true] at hne
        rw [hne]
      unfold Tried.andThen at h
      split at h
      · rename_i w2 e
        obtain ⟨c1, c2, is, c3⟩ := wave_count e
        cases hl : late (sliceCount w2.obs) with
        | true =>
          dsimp only at h
          rw [hl] at h
          cases h
          exact ⟨0, w, h0, c2, c1, _, c3, is, .inl rfl⟩
        | false =>
        dsimp only at h
        rw [hl] at h
        cases hx : env.advance w2.st.slice with
        | ok s =>
          rw [hx] at h
          obtain ⟨k, w1, h1, h2⟩ := wrun_caught (show wrunT env late depth n _ = .ok (none, w') from h)
          refine ⟨k + 1, w1, ?_, h2⟩
          unfold waveT at e
          unfold wrun
          split at e
          · rename_i st e'
            cases e
            rw [if_neg hne, (Wave.scheduleWave_follows depth w.st).value e']
            show (env.advance st.slice >>= _) = _
            rw [hx]
            exact h1
          · cases e
          · cases e
        | ub => rw [hx] at h; cases h
        | throws =>
          rw [hx] at h
          cases h
          exact ⟨0, w, h0, c2, c1, is.map .instr ++ [.slice w2.st.slice], by show w2.obs ++ _ = _; rw [c3]; simp, is, .inr ⟨_, rfl⟩⟩
      · rename_i w2 e
        cases h
        obtain ⟨c1, c2, is, c3⟩ := wave_count e
        exact ⟨0, w, h0, c2, c1, _, c3, is, .inl rfl⟩
      · cases h
      · cases h

end

end Pipe

end Verif
