import Verif.PipelineAmbient
import Verif.PlayProps

/-! # What every single step keeps, whatever the order, holds throughout every pipeline (lemmas) -/

namespace Verif.Pipe

open Verif.Wave

/-- A statement about the slice, and one about each single instruction given the slice, kept by every step. -/
structure Keeps {σ : Type} (env : Env σ) (J : σ → Prop) (Q : σ → Instr → Prop) : Prop where
  apply : ∀ {s i r}, J s → Q s i → env.apply s i = .ok r → J r.slice ∧ Q r.slice r.instr ∧ (∀ f ∈ r.followups, Q r.slice f) ∧ ∀ j, Q s j → Q r.slice j
  waits : ∀ {s i} (k : Nat), Q s i → Q s { i with wait := k }
  advance : ∀ {s s'}, J s → env.advance s = .ok s' → J s' ∧ ∀ j, Q s j → Q s' j
  reset : ∀ {s s'}, J s → env.reset s = .ok s' → J s' ∧ ∀ j, Q s j → Q s' j

section
variable {σ : Type} {env : Env σ} {J : σ → Prop} {Q : σ → Instr → Prop}

theorem Keeps.ambient (h : Keeps env J Q) (P : List Instr) : Ambient env P (fun s w => J s ∧ ∀ x ∈ w, Q s x.2) where
  perm g hp := ⟨g.1, fun x hx => g.2 x (hp.mem_iff.2 hx)⟩
  apply := by
    intro s o i w r g _ hr
    obtain ⟨h1, h2, h3, h4⟩ := h.apply g.1 (g.2 (o, i) (by simp)) hr
    refine ⟨h1, fun x hx => ?_⟩
    rcases List.mem_append.1 hx with hx | hx
    · obtain ⟨j, hj, rfl⟩ := List.mem_map.1 hx
      unfold left at hj
      split at hj
      · rw [List.mem_singleton.1 hj]; exact h2
      · exact h3 j hj
    · exact h4 _ (g.2 x (List.mem_cons_of_mem _ hx))
  waits := by
    intro s o i w k g
    refine ⟨g.1, fun x hx => ?_⟩
    rcases List.mem_cons.1 hx with rfl | hx
    · exact h.waits k (g.2 (o, i) (by simp))
    · exact g.2 x (List.mem_cons_of_mem _ hx)
  advance g ha := by
    obtain ⟨h1, h2⟩ := h.advance g.1 ha
    exact ⟨h1, fun x hx => h2 _ (g.2 x hx)⟩
  reset g ha := by
    obtain ⟨h1, h2⟩ := h.reset g.1 ha
    exact ⟨h1, fun x hx => h2 _ (g.2 x hx)⟩

/-! ### Waves -/

/-- What is kept holds of the slice and of all instructions recorded. -/
def KSt (J : σ → Prop) (Q : σ → Instr → Prop) (st : St σ) : Prop := J st.slice ∧ ∀ k, k < st.size → Q st.slice (st.instr k)

theorem kst_cong {st st' : St σ} (h : KSt J Q st) (h1 : st'.slice = st.slice) (h2 : st'.size = st.size) (h3 : st'.instr = st.instr) : KSt J Q st' := by
  unfold KSt at *
  rw [h1, h2, h3]; exact h

theorem kst_applyTo (hK : Keeps env J Q) {st st' : St σ} {id : Nat} {r : Res σ} (h : KSt J Q st) (e : applyTo env st id = .ok (r, st')) :
    KSt J Q st' ∧ ∀ f ∈ r.followups, Q st'.slice f := by
  unfold applyTo at e
  split at e
  · rename_i hid
    obtain ⟨r0, h1, e⟩ := Outcome.bind_eq_ok.1 e
    cases e
    obtain ⟨g1, g2, g3, g4⟩ := hK.apply h.1 (h.2 id hid) h1
    refine ⟨⟨g1, fun k hk => ?_⟩, g3⟩
    dsimp only at hk ⊢
    by_cases e : k = id
    · rw [e, upd_same]; exact g2
    · rw [upd_other _ _ e]; exact g4 _ (h.2 k hk)
  · cases e

/-- What is said of the slice is kept, and whatever was said of an instruction still is. -/
def Onward (J : σ → Prop) (Q : σ → Instr → Prop) (st st' : St σ) : Prop := KSt J Q st' ∧ ∀ j, Q st.slice j → Q st'.slice j

theorem onward_trans {a b c : St σ} (h : Onward J Q a b) (h' : Onward J Q b c) : Onward J Q a c := ⟨h'.1, fun j hj => h'.2 j (h.2 j hj)⟩

theorem onward_cong {a b b' : St σ} (h : Onward J Q a b) (h1 : b'.slice = b.slice) (h2 : b'.size = b.size) (h3 : b'.instr = b.instr) : Onward J Q a b' :=
  ⟨kst_cong h.1 h1 h2 h3, fun j hj => by rw [h1]; exact h.2 j hj⟩

theorem onward_refl {a : St σ} (h : KSt J Q a) : Onward J Q a a := ⟨h, fun _ hj => hj⟩

theorem onward_applyTo (hK : Keeps env J Q) {st st' : St σ} {id : Nat} {r : Res σ} (h : KSt J Q st) (e : applyTo env st id = .ok (r, st')) : Onward J Q st st' := by
  refine ⟨(kst_applyTo hK h e).1, ?_⟩
  unfold applyTo at e
  split at e
  · rename_i hid
    obtain ⟨r0, h1, e⟩ := Outcome.bind_eq_ok.1 e
    cases e
    exact (hK.apply h.1 (h.2 id hid) h1).2.2.2
  · cases e

/-- The calls of `try_schedule_immediately` keep it. -/
def KRec (J : σ → Prop) (Q : σ → Instr → Prop) (rec : Rec σ) : Prop := ∀ st id prox b st', KSt J Q st → rec st id prox = .ok (b, st') → Onward J Q st st'

section
variable {rec : Rec σ} (hR : KRec J Q rec)
include hR

theorem onward_oneDep {st st' : St σ} {j : Nat} {prox : Bool} (h : KSt J Q st) (e : oneDep rec st j prox = .ok st') : Onward J Q st st' := by
  unfold oneDep at e
  dsimp only at e
  have h0 : Onward J Q st { st with count := upd st.count j ((st.count j + 255) % 256) } := onward_cong (onward_refl h) rfl rfl rfl
  split at e
  · unfold release at e
    split at e
    · obtain ⟨imm, -, e⟩ := Outcome.bind_eq_ok.1 e
      cases e
      refine onward_trans h0 ?_
      split
      · exact onward_cong (onward_refl h0.1) rfl rfl rfl
      · exact onward_cong (onward_refl h0.1) rfl rfl rfl
    · obtain ⟨⟨b, s1⟩, h1, e⟩ := Outcome.bind_eq_ok.1 e
      cases e
      refine onward_trans h0 ?_
      have := hR _ _ _ _ _ h0.1 h1
      split
      · exact this
      · exact onward_cong this rfl rfl rfl
  · cases e; exact h0

theorem onward_depLoop {prox : Bool} {n0 : Nat} : ∀ {js : List Nat} {st st' : St σ}, KSt J Q st → depLoop env rec prox n0 st js = .ok st' → Onward J Q st st'
  | [], st, st', h, e => by cases e; exact onward_refl h
  | j :: js, st, st', h, e => by
    rw [depLoop] at e
    split at e
    · cases e
    · split at e
      · cases e
      · obtain ⟨s1, h1, e⟩ := Outcome.bind_eq_ok.1 e
        have g := onward_oneDep hR h h1
        exact onward_trans g (onward_depLoop g.1 e)

theorem onward_followLoop {prox : Bool} {n0 origin : Nat} {deps : List Nat} : ∀ {fs : List Instr} {st st' : St σ}, KSt J Q st → (∀ f ∈ fs, Q st.slice f) →
    followLoop env rec prox n0 deps origin st fs = .ok st' → Onward J Q st st'
  | [], st, st', h, _, e => by cases e; exact onward_refl h
  | f :: fs, st, st', h, hf, e => by
    rw [followLoop] at e
    split at e
    · cases e
    · dsimp only at e
      obtain ⟨⟨b, s1⟩, h1, e⟩ := Outcome.bind_eq_ok.1 e
      have h0 : KSt J Q { st with size := st.size + 1, instr := upd st.instr st.size f, deps := upd st.deps st.size deps, count := upd st.count st.size 0, origin := upd st.origin st.size origin } := by
        refine ⟨h.1, fun k hk => ?_⟩
        dsimp only at hk ⊢
        by_cases e : k = st.size
        · rw [e, upd_same]; exact hf f (by simp)
        · rw [upd_other _ _ e]; exact h.2 k (by omega)
      have g : Onward J Q st s1 := ⟨(hR _ _ _ _ _ h0 h1).1, (hR _ _ _ _ _ h0 h1).2⟩
      dsimp only at e
      have g' : Onward J Q st (if b then s1 else pushNextProx s1 st.size) := by
        split
        · exact g
        · exact onward_cong g rfl rfl rfl
      exact onward_trans g' (onward_followLoop g'.1 (fun f' hf' => g'.2 _ (hf f' (List.mem_cons_of_mem _ hf'))) e)

omit hR in
theorem addDelta_core (st : St σ) (d : Nat) (js : List Nat) : (addDelta st d js).slice = st.slice ∧ (addDelta st d js).size = st.size ∧ (addDelta st d js).instr = st.instr := by
  induction js generalizing st with
  | nil => exact ⟨rfl, rfl, rfl⟩
  | cons j js ih => rw [addDelta]; exact ih _

theorem onward_notify {st st' : St σ} {id : Nat} {fs : List Instr} {prox : Bool} (h : KSt J Q st) (hf : ∀ f ∈ fs, Q st.slice f)
    (e : notify env rec st id fs prox = .ok st') : Onward J Q st st' := by
  unfold notify at e
  dsimp only at e
  split at e
  · exact onward_depLoop hR h e
  · rename_i f fs
    have g : Onward J Q st (if fs.length ≠ 0 then addDelta st fs.length (st.deps id) else st) := by
      split
      · obtain ⟨a, b, c⟩ := addDelta_core st fs.length (st.deps id)
        exact onward_cong (onward_refl h) a b c
      · exact onward_refl h
    exact onward_trans g (onward_followLoop hR g.1 (fun f' hf' => g.2 _ (hf f' hf')) e)

end

theorem krec_tryImm (hK : Keeps env J Q) : ∀ d, KRec J Q (tryImm env d)
  | 0 => by intro st id prox b st' _ e; cases e
  | d + 1 => by
    intro st id prox b st' h e
    rw [tryImm] at e
    split at e
    · cases e
    · obtain ⟨imm, -, e⟩ := Outcome.bind_eq_ok.1 e
      split at e
      · cases e; exact onward_refl h
      · obtain ⟨⟨r, s1⟩, h1, e⟩ := Outcome.bind_eq_ok.1 e
        have g := onward_applyTo hK h h1
        have gf := (kst_applyTo hK h h1).2
        dsimp only at e
        split at e
        · split at e
          · cases e; exact onward_cong g rfl rfl rfl
          · cases e; exact g
        · have gv : Onward J Q st (visit s1 id r) := onward_cong g rfl rfl rfl
          split at e
          · cases e; exact onward_cong g rfl rfl rfl
          · obtain ⟨s2, h2, e⟩ := Outcome.bind_eq_ok.1 e
            cases e
            exact onward_trans gv (onward_notify (krec_tryImm hK d) gv.1 gf h2)

section
variable {rec : Rec σ} (hK : Keeps env J Q) (hR : KRec J Q rec)
include hK hR

theorem kst_schedOne {prox deferred : Bool} {st st' : St σ} {id : Nat} (h : KSt J Q st) (e : schedOne env rec prox deferred st id = .ok st') : KSt J Q st' := by
  unfold schedOne at e
  obtain ⟨⟨r, s1⟩, h1, e⟩ := Outcome.bind_eq_ok.1 e
  obtain ⟨g, gf⟩ := kst_applyTo hK h h1
  dsimp only at e
  split at e
  · split at e
    · cases e; exact kst_cong g rfl rfl rfl
    · exact (onward_notify hR (st := visit s1 id r) (kst_cong g rfl rfl rfl) gf e).1
  · split at e
    · cases e; exact kst_cong g rfl rfl rfl
    · split at e
      · cases e; exact g
      · split at e
        · cases e
        · split at e
          · cases e
          · cases e
            refine ⟨g.1, fun k hk => ?_⟩
            have hr : s1.instr id = r.instr ∧ id < s1.size := by
              unfold applyTo at h1
              split at h1
              · obtain ⟨r0, -, h1⟩ := Outcome.bind_eq_ok.1 h1
                cases h1
                exact ⟨upd_same _ _ _, by assumption⟩
              · cases h1
            dsimp only [pushNextHead] at hk ⊢
            by_cases e : k = id
            · rw [e, upd_same]
              refine hK.waits _ ?_
              rw [← hr.1]; exact g.2 id hr.2
            · rw [upd_other _ _ e]; exact g.2 k hk

theorem kst_schedList {prox deferred : Bool} : ∀ {ids : List Nat} {st st' : St σ}, KSt J Q st → schedList env rec prox deferred st ids = .ok st' → KSt J Q st'
  | [], st, st', h, e => by cases e; exact h
  | id :: ids, st, st', h, e => by
    rw [schedList] at e
    obtain ⟨s1, h1, e⟩ := Outcome.bind_eq_ok.1 e
    exact kst_schedList (kst_schedOne hK hR h h1) e

end

theorem kst_scheduleWave (hK : Keeps env J Q) {depth : Nat} {st st' : St σ} (h : KSt J Q st) (e : scheduleWave env depth st = .ok st') : KSt J Q st' := by
  unfold scheduleWave at e
  dsimp only at e
  have hR := krec_tryImm hK depth
  obtain ⟨s1, h1, e⟩ := Outcome.bind_eq_ok.1 e
  obtain ⟨s2, h2, e⟩ := Outcome.bind_eq_ok.1 e
  obtain ⟨s3, h3, e⟩ := Outcome.bind_eq_ok.1 e
  cases e
  have g2 := kst_schedList hK hR (kst_schedList hK hR h h1) h2
  refine kst_cong (st := s3) ?_ rfl rfl rfl
  unfold rounds at h3
  split at h3
  · obtain ⟨s4, h4, h3⟩ := Outcome.bind_eq_ok.1 h3
    obtain ⟨sl, h5, h3⟩ := Outcome.bind_eq_ok.1 h3
    have g4 := kst_schedList hK hR g2 h4
    obtain ⟨k1, k2⟩ := hK.reset g4.1 h5
    exact kst_schedList hK hR (st := { s4 with slice := sl }) ⟨k1, fun k hk => k2 _ (g4.2 k hk)⟩ h3
  · cases h3; exact g2

theorem kst_wrun (hK : Keeps env J Q) {depth : Nat} (n : Nat) : ∀ {w w' : WSt σ} {b : Bool}, KSt J Q w.st → (∀ s ∈ w.shown, J s) → wrun env depth n w = .ok (b, w') → ∀ s ∈ w'.shown, J s := by
  induction n with
  | zero => intro w w' b _ h e; cases e; exact h
  | succ n ih =>
    intro w w' b hk h e
    rw [wrun] at e
    split at e
    · cases e; exact h
    · obtain ⟨s1, h1, e⟩ := Outcome.bind_eq_ok.1 e
      obtain ⟨sl, h2, e⟩ := Outcome.bind_eq_ok.1 e
      have g := kst_scheduleWave hK hk h1
      obtain ⟨k1, k2⟩ := hK.advance g.1 h2
      refine ih ⟨k1, fun k hk => k2 _ (g.2 k hk)⟩ ?_ e
      intro s hs
      rcases List.mem_append.1 hs with hs | hs
      · exact h s hs
      · rw [List.mem_singleton.1 hs]; exact g.1

theorem kst_addAll : ∀ {P : List Instr} {st : St σ} {last : Nat → Option Nat}, KSt J Q st → (∀ i ∈ P, Q st.slice i) → KSt J Q (addAll st last P)
  | [], st, last, h, _ => h
  | i :: is, st, last, h, hi => by
    rw [addAll]
    refine kst_addAll ?_ ?_
    · refine ⟨h.1, fun k hk => ?_⟩
      dsimp only [addInstr] at hk ⊢
      by_cases e : k = st.size
      · rw [e, upd_same]; exact hi i (by simp)
      · rw [upd_other _ _ e]; exact h.2 k (by omega)
    · exact fun j hj => hi j (List.mem_cons_of_mem _ hj)

theorem kst_start {P : List Instr} {s : σ} (h : J s) (hi : ∀ i ∈ P, Q s i) : KSt J Q (start s P) :=
  kst_addAll ⟨h, fun _ hk => absurd hk (Nat.not_lt_zero _)⟩ hi

end

end Verif.Pipe
