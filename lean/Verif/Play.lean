import Verif.RealEnv

/-! # What the visitors see: lemmas on the wave scheduler -/

namespace Verif.Pipe

open Verif.Wave

section
variable {σ : Type} {env : Env σ}

/-- From one slice to another by attempts and resets, with the instructions that succeeded as shown. -/
inductive Att (env : Env σ) (s : σ) : List Instr → σ → Prop
  | nil : Att env s [] s
  | done {is : List Instr} {t : σ} (h : Att env s is t) {i : Instr} {r : Res σ} (ha : env.apply t i = .ok r) (he : r.err = false) : Att env s (is ++ [r.instr]) r.slice
  | refused {is : List Instr} {t : σ} (h : Att env s is t) {i : Instr} {r : Res σ} (ha : env.apply t i = .ok r) (he : r.err = true) : Att env s is r.slice
  | reset {is : List Instr} {t u : σ} (h : Att env s is t) (hd : env.edpc = true) (ha : env.reset t = .ok u) : Att env s is u

theorem Att.trans {s t u : σ} {is js : List Instr} (h1 : Att env s is t) (h2 : Att env t js u) : Att env s (is ++ js) u := by
  induction h2 with
  | nil => simpa using h1
  | done _ ha he ih => rw [← List.append_assoc]; exact ih.done ha he
  | refused _ ha he ih => exact ih.refused ha he
  | reset _ hd ha ih => exact ih.reset hd ha

/-- The scheduler has come from one state to another by attempts and resets; it has logged those that succeeded. -/
def Grown (env : Env σ) (st st' : St σ) : Prop := ∃ es, st'.log = st.log ++ es ∧ Att env st.slice (es.map (fun e => e.instr)) st'.slice

theorem Grown.refl (st : St σ) : Grown env st st := ⟨[], by simp, .nil⟩

theorem Grown.same {st st' : St σ} (h1 : st'.log = st.log) (h2 : st'.slice = st.slice) : Grown env st st' := ⟨[], by simp [h1], by rw [h2]; exact .nil⟩

theorem Grown.trans {a b c : St σ} (h1 : Grown env a b) (h2 : Grown env b c) : Grown env a c := by
  obtain ⟨es, e1, a1⟩ := h1
  obtain ⟨fs, e2, a2⟩ := h2
  exact ⟨es ++ fs, by rw [e2, e1, List.append_assoc], by rw [List.map_append]; exact a1.trans a2⟩

/-- An attempt that succeeded, with the entry in the log. -/
theorem applyTo_done {st st' : St σ} {id : Nat} {r : Res σ} (h : applyTo env st id = .ok (r, st')) (he : r.err = false) : Grown env st (visit st' id r) := by
  unfold applyTo at h
  split at h
  · obtain ⟨x, h1, h⟩ := Outcome.bind_eq_ok.1 h
    cases h
    exact ⟨[⟨id, r.instr, r.followups⟩], rfl, Att.nil.done h1 he⟩
  · cases h

theorem applyTo_refused {st st' : St σ} {id : Nat} {r : Res σ} (h : applyTo env st id = .ok (r, st')) (he : r.err = true) : Grown env st st' := by
  unfold applyTo at h
  split at h
  · obtain ⟨x, h1, h⟩ := Outcome.bind_eq_ok.1 h
    cases h
    exact ⟨[], by simp, Att.nil.refused h1 he⟩
  · cases h

def RecGrown (env : Env σ) (f : Rec σ) : Prop := ∀ st id prox b st', f st id prox = .ok (b, st') → Grown env st st'

theorem release_grown {f : Rec σ} (hf : RecGrown env f) {st st' : St σ} {j : Nat} {prox : Bool} (h : release f st j prox = .ok st') : Grown env st st' := by
  unfold release at h
  split at h
  · obtain ⟨imm, -, h⟩ := Outcome.bind_eq_ok.1 h
    cases h
    cases imm <;> exact .same rfl rfl
  · obtain ⟨⟨b, s⟩, h1, h⟩ := Outcome.bind_eq_ok.1 h
    cases h
    cases b
    · exact (hf _ _ _ _ _ h1).trans (.same rfl rfl)
    · exact hf _ _ _ _ _ h1

theorem depLoop_grown {f : Rec σ} (hf : RecGrown env f) {prox : Bool} {n0 : Nat} : ∀ {js : List Nat} {st st' : St σ}, depLoop env f prox n0 st js = .ok st' → Grown env st st'
  | [], _, _, h => by cases h; exact .refl _
  | j :: js, st, st', h => by
    rw [depLoop] at h
    split at h
    · cases h
    · split at h
      · cases h
      · obtain ⟨s, h3, h⟩ := Outcome.bind_eq_ok.1 h
        refine Grown.trans ?_ (depLoop_grown hf h)
        unfold oneDep at h3
        dsimp only at h3
        split at h3
        · refine Grown.trans ?_ (release_grown hf h3)
          exact .same rfl rfl
        · cases h3; exact .same rfl rfl

theorem followLoop_grown {f : Rec σ} (hf : RecGrown env f) {prox : Bool} {n0 : Nat} {deps : List Nat} {o : Nat} :
    ∀ {fs : List Instr} {st st' : St σ}, followLoop env f prox n0 deps o st fs = .ok st' → Grown env st st'
  | [], _, _, h => by cases h; exact .refl _
  | i :: fs, st, st', h => by
    rw [followLoop] at h
    split at h
    · cases h
    · obtain ⟨⟨b, s⟩, h3, h⟩ := Outcome.bind_eq_ok.1 h
      refine Grown.trans ?_ (followLoop_grown hf h)
      have h4 := hf _ _ _ _ _ h3
      cases b
      · refine Grown.trans ?_ (Grown.trans h4 (.same rfl rfl))
        exact .same rfl rfl
      · refine Grown.trans ?_ h4
        exact .same rfl rfl

theorem addDelta_same (delta : Nat) : ∀ (js : List Nat) (st : St σ), (addDelta st delta js).log = st.log ∧ (addDelta st delta js).slice = st.slice
  | [], _ => ⟨rfl, rfl⟩
  | j :: js, st => by
    rw [addDelta]
    exact addDelta_same delta js _

theorem notify_grown {f : Rec σ} (hf : RecGrown env f) {st st' : St σ} {id : Nat} {fs : List Instr} {prox : Bool} (h : notify env f st id fs prox = .ok st') : Grown env st st' := by
  unfold notify at h
  cases fs with
  | nil => exact depLoop_grown hf h
  | cons a fs =>
    dsimp only at h
    refine Grown.trans ?_ (followLoop_grown hf h)
    split
    · exact .same (addDelta_same _ _ _).1 (addDelta_same _ _ _).2
    · exact .refl _

theorem tryImm_grown : ∀ d, RecGrown env (tryImm env d)
  | 0, _, _, _, _, _, h => by cases h
  | d + 1, st, id, prox, b, st', h => by
    rw [tryImm] at h
    split at h
    · cases h
    · obtain ⟨imm, h2, h⟩ := Outcome.bind_eq_ok.1 h
      split at h
      · cases h; exact .refl _
      · obtain ⟨⟨r, s⟩, h4, h⟩ := Outcome.bind_eq_ok.1 h
        dsimp only at h
        split at h
        · rename_i he
          split at h
          · cases h; exact (applyTo_refused h4 he).trans (.same rfl rfl)
          · cases h; exact applyTo_refused h4 he
        · rename_i he
          have h5 := applyTo_done h4 (by simpa using he)
          split at h
          · cases h; exact h5.trans (.same rfl rfl)
          · obtain ⟨z, h7, h⟩ := Outcome.bind_eq_ok.1 h
            cases h
            exact h5.trans (notify_grown (tryImm_grown d) h7)

theorem schedOne_grown {f : Rec σ} (hf : RecGrown env f) {prox df : Bool} {st st' : St σ} {id : Nat} (h : schedOne env f prox df st id = .ok st') : Grown env st st' := by
  unfold schedOne at h
  obtain ⟨⟨r, s⟩, h4, h⟩ := Outcome.bind_eq_ok.1 h
  dsimp only at h
  split at h
  · rename_i he
    have h5 := applyTo_done h4 (by simpa using he)
    split at h
    · cases h; exact h5.trans (.same rfl rfl)
    · exact h5.trans (notify_grown hf h)
  · rename_i he
    have h5 := applyTo_refused h4 (by simpa using he)
    split at h
    · cases h; exact h5.trans (.same rfl rfl)
    · split at h
      · cases h; exact h5
      · split at h
        · cases h
        · split at h
          · cases h
          · cases h; exact h5.trans (.same rfl rfl)

theorem schedList_grown {f : Rec σ} (hf : RecGrown env f) {prox df : Bool} : ∀ {ids : List Nat} {st st' : St σ}, schedList env f prox df st ids = .ok st' → Grown env st st'
  | [], _, _, h => by cases h; exact .refl _
  | id :: ids, st, st', h => by
    rw [schedList] at h
    obtain ⟨s, h1, h⟩ := Outcome.bind_eq_ok.1 h
    exact (schedOne_grown hf h1).trans (schedList_grown hf h)

theorem scheduleWave_grown {depth : Nat} {st st' : St σ} (h : scheduleWave env depth st = .ok st') : Grown env st st' := by
  have hf := tryImm_grown (env := env) depth
  unfold scheduleWave at h
  obtain ⟨s1, h1, h⟩ := Outcome.bind_eq_ok.1 h
  obtain ⟨s2, h2, h⟩ := Outcome.bind_eq_ok.1 h
  obtain ⟨s3, h3, h⟩ := Outcome.bind_eq_ok.1 h
  cases h
  refine Grown.trans ((schedList_grown hf h1).trans (schedList_grown hf h2)) (Grown.trans (b := s3) ?_ (.same rfl rfl))
  unfold rounds at h3
  split at h3
  · rename_i hd
    obtain ⟨s4, h5, h3⟩ := Outcome.bind_eq_ok.1 h3
    obtain ⟨sl, h6, h3⟩ := Outcome.bind_eq_ok.1 h3
    refine ((schedList_grown hf h5).trans (b := s4) ?_).trans (schedList_grown hf h3)
    exact ⟨[], by simp, Att.nil.reset hd h6⟩
  · cases h3; exact .refl _

end

end Verif.Pipe
