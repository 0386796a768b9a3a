import Verif.EndsProps
import Verif.BellProps
import Verif.QuantumBell

/-! # CNOTs made of Bell pairs are done in two steps: lemmas (C69) -/

namespace Verif.Ends

open Verif Apply DSlice Verif.Wave Verif.Pipe Verif.Real Verif.Quantum Verif.Slices.Spec

namespace Spec

/-- The cell holds a patch with which nothing is being done. -/
def Still (s : DSlice) (c : Cell) : Prop := ∃ p, s.cells c = some p ∧ p.isActive = false

end Spec

open Spec

/-- The cell holds a patch that will be idle in the next slice. -/
def Resting (s : DSlice) (c : Cell) : Prop := ∃ p, s.cells c = some p ∧ p.activity = .none

theorem still_resting {s : DSlice} {c : Cell} (h : Still s c) : Resting s c := by
  obtain ⟨p, h1, h2⟩ := h
  refine ⟨p, h1, ?_⟩
  unfold DensePatch.isActive at h2
  split at h2
  · cases h2
  · rename_i h; simpa using h

theorem resting_core {s s' : DSlice} (h : SameCore s s') {c : Cell} (hc : Resting s c) : Resting s' c := by
  obtain ⟨p, h1, h2⟩ := hc
  obtain ⟨q, h3, h4⟩ := h.get h1
  exact ⟨q, h3, by rw [h4]; exact h2⟩

/-! ### The next slice -/

/-- What is idle stays so. -/
def Calmly (s s' : DSlice) : Prop := ∀ c, Still s c → Still s' c

theorem Calmly.refl (s : DSlice) : Calmly s s := fun _ h => h

theorem Calmly.trans {a b c : DSlice} (h : Calmly a b) (h' : Calmly b c) : Calmly a c := fun x hx => h' x (h x hx)

theorem calmly_put {s s' : DSlice} {c : Cell} {p : DensePatch} (hp : p.isActive = false ∨ s.cells c = none) (h : s'.cells = upd s.cells c (some p)) : Calmly s s' := by
  intro x hx
  by_cases e : x = c
  · subst e
    rcases hp with hp | hp
    · exact ⟨p, by rw [h, upd_same], hp⟩
    · obtain ⟨q, h1, -⟩ := hx
      rw [hp] at h1; cases h1
  · unfold Still; rw [h, upd_other _ _ e]; exact hx

theorem calmly_spawn {s s' : DSlice} {c : Cell} (h : s.spawn c = .ok s') : Calmly s s' := by
  rw [spawn_ok h]
  exact calmly_put (p := magicPatch) (.inl rfl) rfl

theorem calmly_respawn {L : Layout} : ∀ {cs : List Cell} {i : Nat} {s s' : DSlice}, respawn L cs i s = .ok s' → Calmly s s'
  | [], _, s, s', h => by cases h; exact .refl _
  | c :: cs, i, s, s', h => by
    rw [respawn] at h
    obtain ⟨s1, h1, h⟩ := Outcome.bind_eq_ok.1 h
    obtain ⟨s2, h2, h⟩ := Outcome.bind_eq_ok.1 h
    have g1 : Calmly s s1 := by
      unfold respawnCount at h1
      obtain ⟨p, h0, h1⟩ := Outcome.bind_eq_ok.1 h1
      obtain ⟨-, h0⟩ := patchAt_ok h0
      split at h1
      · split at h1
        · cases h1
          exact calmly_put (p := distillationPatch (.all ⟨.connected, false⟩)) (.inr h0) rfl
        · cases h1
      · split at h1
        · split at h1
          · cases h1; exact fun _ h => h
          · cases h1
        · cases h1; exact .refl _
    have g2 : Calmly s1 s2 := by
      unfold respawnPlace at h2
      split at h2
      · split at h2
        · exact calmly_spawn h2
        · cases h2; exact .refl _
      · cases h2
    exact (g1.trans g2).trans (calmly_respawn h)

theorem calmly_deliver {L : Layout} {s s' : DSlice} {i : Nat} (h : deliver L s i = .ok s') : Calmly s s' := by
  unfold deliver at h
  split at h
  · obtain ⟨o, -, h⟩ := Outcome.bind_eq_ok.1 h
    split at h
    · obtain ⟨s1, h1, h⟩ := Outcome.bind_eq_ok.1 h
      cases h
      have := calmly_spawn h1
      exact fun c => this c
    · cases h; exact fun _ h => h
  · cases h

theorem calmly_factories {L : Layout} : ∀ {n i : Nat} {s s' : DSlice}, factories L n i s = .ok s' → Calmly s s'
  | 0, _, s, s', h => by cases h; exact .refl _
  | n + 1, i, s, s', h => by
    rw [factories] at h
    have d0 : Calmly s { s with times := s.times.set i (dec32 (s.times.getD i 0)) } := fun _ h => h
    split at h
    · obtain ⟨s1, h1, h⟩ := Outcome.bind_eq_ok.1 h
      exact (d0.trans (calmly_deliver h1)).trans (calmly_factories h)
    · exact d0.trans (calmly_factories h)

theorem resting_advance {L : Layout} {s s' : DSlice} (h : s.advance L = .ok s') {c : Cell} (hc : Resting s c) : Still s' c := by
  obtain ⟨p, h1, h2⟩ := hc
  have h3 : Still s.ageAll c := by
    have hm : ¬ (p.activity = .measurement ∨ p.activity = .multiPatchMeasurement) := by rw [h2]; simp
    cases ha : age p with
    | none => exact absurd ((age_ok p).1.1 ha) hm
    | some q =>
      obtain ⟨-, -, -, -, -, b6, b7⟩ := (age_ok p).2 q ha
      refine ⟨q, by simp [ageAll, h1, ha], ?_⟩
      unfold DensePatch.isActive
      rw [b6, h2]
      simpa using b7 (by rw [h2]; simp) (by rw [h2]; simp) (by rw [h2]; simp)
  have h4 : Calmly s.ageAll s' := by
    unfold DSlice.advance at h
    dsimp only at h
    split at h
    · obtain ⟨s1, h5, h⟩ := Outcome.bind_eq_ok.1 h
      cases h
      have := calmly_respawn h5
      exact fun c => this c
    · obtain ⟨s1, h5, h⟩ := Outcome.bind_eq_ok.1 h
      cases h
      have := calmly_factories h5
      exact fun c => this c
  exact h4 c h3

/-! ### Local operations -/

theorem activate_other {s s' : DSlice} {a b : Cell} (h : s.activateOrFail a b = .ok s') {c : Cell} (hc : c ≠ a) : s'.cells c = s.cells c := by
  unfold activateOrFail at h
  obtain ⟨d, -, h⟩ := Outcome.bind_eq_ok.1 h
  cases d with
  | none => cases h
  | some d =>
    cases h
    unfold setSide
    split
    · rfl
    · rw [put_cells, upd_other _ _ hc]

/-- An operation of the first round that can be done: it makes a Bell pair, or splits a patch. -/
def Starts (s : DSlice) : LocalInstr → Prop
  | .bellPrepare _ _ u v => s.cells u = none ∧ s.cells v = none
  | .extendSplit _ u v => Still s u ∧ s.cells v = none
  | _ => False

/-- An operation of the second round: it measures a pair, or merges two patches. -/
def Closes : LocalInstr → Prop
  | .bellMeasure _ _ => True
  | .mergeContract _ _ => True
  | _ => False

theorem square_resting {s : DSlice} {c : Cell} {id : Option Nat} {l : Option String} {r : DSlice × Cell} (h : s.placeSingle (basicSquare c id l) false = .ok r) :
    Resting r.1 c ∧ ∀ x, x ≠ c → r.1.cells x = s.cells x := by
  obtain ⟨-, -, rfl⟩ := placeSingle_ok rfl h
  exact ⟨⟨_, by simp; rfl, rfl⟩, fun x hx => by simp only [put_cells]; rw [upd_other _ _ hx]⟩

theorem starts_local {s : DSlice} {o : LocalInstr} {r : DSlice × Bool} (ho : Starts s o) (h : applyLocal false s o = .ok r) :
    r.2 = false ∧ (∀ c ∈ touched o, Resting r.1 c) ∧ ∀ c, c ∉ touched o → r.1.cells c = s.cells c := by
  cases o with
  | bellPrepare p q u v =>
    obtain ⟨h1, h2⟩ := ho
    simp only [applyLocal, bellPrepare, available, vacate, Bool.false_eq_true, if_false] at h
    obtain ⟨b1, e1, h⟩ := Outcome.bind_eq_ok.1 h
    have := (isFree_ok e1).2.2 h1
    subst this
    simp only [Bool.not_true, Bool.false_eq_true, if_false] at h
    obtain ⟨b2, e2, h⟩ := Outcome.bind_eq_ok.1 h
    have := (isFree_ok e2).2.2 h2
    subst this
    simp only [Bool.not_true, Bool.false_eq_true, if_false] at h
    obtain ⟨s1, e3, h⟩ := Outcome.bind_eq_ok.1 h
    cases h
    unfold bellPlace at e3
    obtain ⟨r1, e4, e3⟩ := Outcome.bind_eq_ok.1 e3
    obtain ⟨r2, e5, e3⟩ := Outcome.bind_eq_ok.1 e3
    obtain ⟨s2, e6, e3⟩ := Outcome.bind_eq_ok.1 e3
    obtain ⟨a1, a2⟩ := square_resting e4
    obtain ⟨a3, a4⟩ := square_resting e5
    have e7 := (activateOrFail_same e6).trans (activateOrFail_same e3)
    have a5 : Resting r2.1 u := by
      by_cases e : u = v
      · rw [e]; exact a3
      · unfold Resting; rw [a4 u e]; exact a1
    refine ⟨rfl, fun c hc => ?_, fun c hc => ?_⟩
    · simp only [touched, List.mem_cons, List.not_mem_nil, or_false] at hc
      rcases hc with rfl | rfl
      · exact resting_core e7 a5
      · exact resting_core e7 a3
    · simp only [touched, List.mem_cons, List.not_mem_nil, or_false, not_or] at hc
      dsimp only
      rw [activate_other e3 hc.2, activate_other e6 hc.1, a4 c hc.2, a2 c hc.1]
  | extendSplit n u v =>
    obtain ⟨h1, h2⟩ := ho
    simp only [applyLocal, extendSplit, available, vacate, Bool.false_eq_true, if_false] at h
    obtain ⟨b1, e1, h⟩ := Outcome.bind_eq_ok.1 h
    have : b1 = true := by
      unfold idleAt at e1
      obtain ⟨o, e0, e1⟩ := Outcome.bind_eq_ok.1 e1
      obtain ⟨-, rfl⟩ := patchAt_ok e0
      obtain ⟨p, h3, h4⟩ := h1
      rw [h3] at e1
      cases e1
      simp [h4]
    subst this
    simp only [Bool.not_true, Bool.false_eq_true, if_false] at h
    obtain ⟨b2, e2, h⟩ := Outcome.bind_eq_ok.1 h
    have := (isFree_ok e2).2.2 h2
    subst this
    simp only [Bool.not_true, Bool.false_eq_true, if_false] at h
    obtain ⟨r1, e4, h⟩ := Outcome.bind_eq_ok.1 h
    obtain ⟨s1, e5, h⟩ := Outcome.bind_eq_ok.1 h
    obtain ⟨s2, e6, h⟩ := Outcome.bind_eq_ok.1 h
    cases h
    obtain ⟨a1, a2⟩ := square_resting e4
    have e7 := (activateOrFail_same e5).trans (activateOrFail_same e6)
    have hne : u ≠ v := by
      rintro rfl
      obtain ⟨p, h3, -⟩ := h1
      rw [h3] at h2; cases h2
    have a5 : Resting r1.1 u := by unfold Resting; rw [a2 u hne]; exact still_resting h1
    refine ⟨rfl, fun c hc => ?_, fun c hc => ?_⟩
    · simp only [touched, List.mem_cons, List.not_mem_nil, or_false] at hc
      rcases hc with rfl | rfl
      · exact resting_core e7 a5
      · exact resting_core e7 a1
    · simp only [touched, List.mem_cons, List.not_mem_nil, or_false, not_or] at hc
      dsimp only
      rw [activate_other e6 hc.1, activate_other e5 hc.2, a2 c hc.2]
  | _ => exact ho.elim

theorem modPatch_other {s : DSlice} {a c : Cell} {f : DensePatch → DensePatch} (hc : c ≠ a) : (s.modPatch a f).cells c = s.cells c := by
  unfold modPatch
  rw [put_cells, upd_other _ _ hc]

theorem bothIdle_still {s : DSlice} {a b : Cell} {x : Bool} (ha : Still s a) (hb : Still s b) (h : bothIdle s a b = .ok x) : x = true := by
  obtain ⟨p, h1, h2⟩ := ha
  obtain ⟨q, h3, h4⟩ := hb
  unfold bothIdle at h
  obtain ⟨o, e0, h⟩ := Outcome.bind_eq_ok.1 h
  obtain ⟨-, rfl⟩ := patchAt_ok e0
  rw [h1] at h
  dsimp only at h
  obtain ⟨o, e0, h⟩ := Outcome.bind_eq_ok.1 h
  obtain ⟨-, rfl⟩ := patchAt_ok e0
  rw [h3] at h
  cases h
  simp [h2, h4]

theorem closes_local {s : DSlice} {o : LocalInstr} {r : DSlice × Bool} (ho : Closes o) (h : applyLocal false s o = .ok r) :
    ((∀ c ∈ touched o, Still s c) → r.2 = false) ∧ (r.2 = true → r.1 = s) ∧ ∀ c, c ∉ touched o → r.1.cells c = s.cells c := by
  cases o with
  | bellMeasure u v =>
    simp only [applyLocal, bellMeasure] at h
    obtain ⟨b1, e1, h⟩ := Outcome.bind_eq_ok.1 h
    cases b1 with
    | false =>
      cases h
      exact ⟨fun hs => (Bool.false_ne_true (bothIdle_still (hs u (by simp [touched])) (hs v (by simp [touched])) e1)).elim, fun _ => rfl, fun _ _ => rfl⟩
    | true =>
      simp only [Bool.not_true, Bool.false_eq_true, if_false] at h
      obtain ⟨s1, e5, h⟩ := Outcome.bind_eq_ok.1 h
      obtain ⟨s2, e6, h⟩ := Outcome.bind_eq_ok.1 h
      cases h
      refine ⟨fun _ => rfl, fun h => (nomatch h), fun c hc => ?_⟩
      simp only [touched, List.mem_cons, List.not_mem_nil, or_false, not_or] at hc
      dsimp only [setActivity]
      rw [modPatch_other hc.2, modPatch_other hc.1, activate_other e6 hc.2, activate_other e5 hc.1]
  | mergeContract u v =>
    simp only [applyLocal, mergeContract] at h
    obtain ⟨b1, e1, h⟩ := Outcome.bind_eq_ok.1 h
    cases b1 with
    | false =>
      cases h
      exact ⟨fun hs => (Bool.false_ne_true (bothIdle_still (hs u (by simp [touched])) (hs v (by simp [touched])) e1)).elim, fun _ => rfl, fun _ _ => rfl⟩
    | true =>
      simp only [Bool.not_true, Bool.false_eq_true, if_false] at h
      obtain ⟨s1, e5, h⟩ := Outcome.bind_eq_ok.1 h
      obtain ⟨s2, e6, h⟩ := Outcome.bind_eq_ok.1 h
      cases h
      refine ⟨fun _ => rfl, fun h => (nomatch h), fun c hc => ?_⟩
      simp only [touched, List.mem_cons, List.not_mem_nil, or_false, not_or] at hc
      dsimp only [setActivity]
      rw [modPatch_other hc.2, activate_other e6 hc.2, activate_other e5 hc.1]
  | _ => exact ho.elim

/-! ### Rounds of local operations -/

theorem starts_cells {s s' : DSlice} {o : LocalInstr} (h : ∀ c ∈ touched o, s'.cells c = s.cells c) (ho : Starts s o) : Starts s' o := by
  cases o with
  | bellPrepare p q u v => exact ⟨by rw [h u (by simp [touched])]; exact ho.1, by rw [h v (by simp [touched])]; exact ho.2⟩
  | extendSplit n u v => exact ⟨by unfold Still; rw [h u (by simp [touched])]; exact ho.1, by rw [h v (by simp [touched])]; exact ho.2⟩
  | _ => exact ho.elim

/-- All operations of the first round are done. -/
theorem first_round : ∀ {ls : List LocalInstr} {s : DSlice} {x : DSlice × Nat × Bool}, Parallel ls → (∀ o ∈ ls, Starts s o) → runLocals false ls s = .ok x →
    x.2.2 = true ∧ (∀ c ∈ ls.flatMap touched, Resting x.1 c) ∧ ∀ c, c ∉ ls.flatMap touched → x.1.cells c = s.cells c
  | [], s, x, _, _, h => by cases h; exact ⟨rfl, by simp, fun _ _ => rfl⟩
  | o :: ls, s, x, hp, ho, h => by
    unfold Parallel at hp
    rw [List.flatMap_cons, List.nodup_append] at hp
    obtain ⟨-, hp, hd⟩ := hp
    rw [runLocals] at h
    obtain ⟨r, h1, h⟩ := Outcome.bind_eq_ok.1 h
    obtain ⟨a1, a2, a3⟩ := starts_local (ho o (by simp)) h1
    rw [a1] at h
    simp only [Bool.false_eq_true, if_false] at h
    obtain ⟨y, h2, h⟩ := Outcome.bind_eq_ok.1 h
    cases h
    obtain ⟨b1, b2, b3⟩ := first_round hp (fun o' ho' => starts_cells (fun c hc => a3 c fun hm => hd c hm c (List.mem_flatMap.2 ⟨o', ho', hc⟩) rfl) (ho o' (by simp [ho']))) h2
    refine ⟨b1, fun c hc => ?_, fun c hc => ?_⟩
    · rw [List.flatMap_cons, List.mem_append] at hc
      by_cases hm : c ∈ ls.flatMap touched
      · exact b2 c hm
      · unfold Resting
        dsimp only
        rw [b3 c hm]
        exact a2 c (hc.resolve_right hm)
    · rw [List.flatMap_cons, List.mem_append, not_or] at hc
      dsimp only
      rw [b3 c hc.2, a3 c hc.1]

/-- The operations of the second round that are left have found nothing changed. -/
theorem second_round : ∀ {ls : List LocalInstr} {s : DSlice} {x : DSlice × Nat × Bool}, Parallel ls → (∀ o ∈ ls, Closes o) → runLocals false ls s = .ok x →
    ((∀ c ∈ ls.flatMap touched, Still s c) → x.2.2 = true) ∧ ∀ c ∈ (ls.drop x.2.1).flatMap touched, x.1.cells c = s.cells c
  | [], s, x, _, _, h => by cases h; exact ⟨fun _ => rfl, fun _ _ => rfl⟩
  | o :: ls, s, x, hp, ho, h => by
    unfold Parallel at hp
    rw [List.flatMap_cons, List.nodup_append] at hp
    obtain ⟨-, hp, hd⟩ := hp
    rw [runLocals] at h
    obtain ⟨r, h1, h⟩ := Outcome.bind_eq_ok.1 h
    obtain ⟨a1, a2, a3⟩ := closes_local (ho o (by simp)) h1
    cases hr : r.2 with
    | true =>
      rw [hr] at h
      cases h
      refine ⟨fun hs => ?_, fun c _ => by dsimp only; rw [a2 hr]⟩
      rw [a1 fun c hc => hs c (by simp [hc])] at hr
      cases hr
    | false =>
      rw [hr] at h
      simp only [Bool.false_eq_true, if_false] at h
      obtain ⟨y, h2, h⟩ := Outcome.bind_eq_ok.1 h
      cases h
      obtain ⟨b1, b2⟩ := second_round hp (fun o' ho' => ho o' (by simp [ho'])) h2
      refine ⟨fun hs => b1 fun c hc => ?_, fun c hc => ?_⟩
      · unfold Still
        rw [a3 c fun hm => hd c hm c hc rfl]
        exact hs c (by rw [List.flatMap_cons, List.mem_append]; exact .inr hc)
      · simp only [List.drop_succ_cons] at hc
        dsimp only
        rw [b2 c hc]
        obtain ⟨o', h3, h4⟩ := List.mem_flatMap.1 hc
        exact a3 c fun hm => hd c hm c (List.mem_flatMap.2 ⟨o', List.mem_of_mem_drop h3, h4⟩) rfl

theorem runLocals_append {e : Bool} : ∀ {a b : List LocalInstr} {s : DSlice} {x : DSlice × Nat × Bool}, runLocals e (a ++ b) s = .ok x →
    ∃ y, runLocals e a s = .ok y ∧ (y.2.2 = true → ∃ z, runLocals e b y.1 = .ok z ∧ x = (z.1, a.length + z.2.1, z.2.2))
  | [], b, s, x, h => ⟨(s, 0, true), rfl, fun _ => ⟨x, h, by simp⟩⟩
  | o :: a, b, s, x, h => by
    rw [List.cons_append, runLocals] at h
    obtain ⟨r, h1, h⟩ := Outcome.bind_eq_ok.1 h
    cases hr : r.2 with
    | true =>
      rw [hr] at h
      cases h
      exact ⟨(r.1, 0, false), by rw [runLocals, h1, Outcome.bind_ok, hr]; rfl, fun h => (nomatch h)⟩
    | false =>
      rw [hr] at h
      simp only [Bool.false_eq_true, if_false] at h
      obtain ⟨y, h2, h⟩ := Outcome.bind_eq_ok.1 h
      cases h
      obtain ⟨y', h3, h4⟩ := runLocals_append h2
      refine ⟨(y'.1, y'.2.1 + 1, y'.2.2), by rw [runLocals, h1, Outcome.bind_ok, hr, if_neg (by simp), h3, Outcome.bind_ok], fun h => ?_⟩
      obtain ⟨z, h5, rfl⟩ := h4 h
      exact ⟨z, h5, by simp; omega⟩

/-! ### The two rounds of a CNOT -/

theorem placed_along {route : List Cell} {F : Nat → Spot} {t : Nat} {ks : List Nat} {is : List LocalInstr} (h : Placed route F t ks is) : Along route ks is := by
  induction h with
  | nil => exact .nil
  | cons h1 _ _ ih =>
    obtain ⟨u, v, a1, a2, a3⟩ := h1
    exact .cons ⟨u, v, a1, a2, touched_of_roles a3⟩ ih

theorem placed_mem {route : List Cell} {F : Nat → Spot} {t : Nat} {ks : List Nat} {is : List LocalInstr} (h : Placed route F t ks is) {o : LocalInstr} (ho : o ∈ is) :
    ∃ k ∈ ks, Fits route (fun k => (F k).lo) (fun k => (F k).hi) k o := by
  induction h with
  | nil => cases ho
  | cons h1 _ _ ih =>
    rcases List.mem_cons.1 ho with rfl | ho
    · exact ⟨_, by simp, h1⟩
    · obtain ⟨k, h3, h4⟩ := ih ho
      exact ⟨k, by simp [h3], h4⟩

theorem placed_touched {route : List Cell} {F : Nat → Spot} {t : Nat} {ks : List Nat} {is : List LocalInstr} (h : Placed route F t ks is) {k : Nat} (hk : k ∈ ks) {c : Cell}
    (hc : route[k]? = some c ∨ route[k + 1]? = some c) : c ∈ is.flatMap touched := by
  induction h with
  | nil => cases hk
  | cons h1 _ _ ih =>
    rw [List.flatMap_cons, List.mem_append]
    rcases List.mem_cons.1 hk with rfl | hk
    · left
      obtain ⟨u, v, a1, a2, a3⟩ := h1
      have := touched_of_roles a3
      rw [a1, a2] at hc
      simp only [Option.some.injEq] at hc
      rcases this with e | e <;> rw [e] <;> rcases hc with rfl | rfl <;> simp
    · exact .inr (ih hk)

theorem edges_apart {a e p : Nat} {ks : List Nat} (h : Edges a e p ks) : Apart ks := by
  refine List.Pairwise.imp_of_mem ?_ h.1
  intro x y hx hy hne
  have h1 := (h.2 x).1 hx
  have h2 := (h.2 y).1 hy
  omega

/-- The operations of a CNOT over free cells between idle ends: those of the first round can be done, and then those of the second round in the next slice. -/
theorem cnot_rounds {c : BellCNOT} {a b : Cell} {mid : List Cell} {s : DSlice} {l : Layers} (hn : (b :: mid ++ [a]).Nodup) (hm : 2 ≤ mid.length) (ha : Still s a) (hb : Still s b)
    (hf : ∀ x ∈ mid, s.cells x = none) (h : compileWhole c (b :: mid ++ [a]) {} = .ok l) :
    Parallel l.l1 ∧ Parallel l.l2 ∧ (∀ o ∈ l.l1, Starts s o) ∧ (∀ o ∈ l.l2, Closes o) ∧
      ∀ x ∈ l.l2.flatMap touched, x ∈ l.l1.flatMap touched ∨ Still s x := by
  generalize hroute : b :: mid ++ [a] = route at *
  have hlen : route.length = mid.length + 2 := by rw [← hroute]; simp
  obtain ⟨l', k1, k2, e1, ⟨⟨x1, e2, p1⟩, ⟨x2, e3, p2⟩⟩, d1, d2⟩ := compileWhole_lays (c := c) (l := {}) hn (by omega) 0
  rw [h] at e1
  cases e1
  have e2 : l.l1 = x1 := by simpa using e2
  have e3 : l.l2 = x2 := by simpa using e3
  subst e2 e3
  have first : route[0]? = some b := by rw [← hroute]; rfl
  have last : route[route.length - 1]? = some a := by
    rw [← hroute]
    simp
  have inner : ∀ k u, 0 < k → k < route.length - 1 → route[k]? = some u → s.cells u = none := by
    intro k u h1 h2 h3
    refine hf u ?_
    rw [← hroute] at h3
    rw [hlen] at h2
    obtain ⟨j, rfl⟩ : ∃ j, k = j + 1 := ⟨k - 1, by omega⟩
    rw [List.cons_append, List.getElem?_cons_succ, List.getElem?_append_left (by omega)] at h3
    exact List.mem_of_getElem? h3
  refine ⟨along_parallel hn (placed_along p1) (edges_apart d1), along_parallel hn (placed_along p2) (edges_apart d2), fun o ho => ?_, fun o ho => ?_, fun x hx => ?_⟩
  · obtain ⟨k, hk, u, v, a1, a2, a3⟩ := placed_mem p1 ho
    obtain ⟨-, g1, g2⟩ := (d1.2 k).1 hk
    have hu := inner k u (by omega) (by omega) a1
    unfold wholeSpot at a3
    dsimp only at a3
    rw [if_neg (by omega : ¬ k = 0), if_pos (by omega : k % 2 = 1)] at a3
    by_cases hl : k + 1 = route.length - 1
    · rw [if_pos hl] at a3
      obtain ⟨n, rfl⟩ := a3
      rw [hl, last] at a2
      cases a2
      exact ⟨ha, hu⟩
    · rw [if_neg hl] at a3
      have hv := inner (k + 1) v (by omega) (by omega) a2
      obtain ⟨p, q, rfl | rfl⟩ := a3
      · exact ⟨hu, hv⟩
      · exact ⟨hv, hu⟩
  · obtain ⟨k, hk, u, v, a1, a2, a3⟩ := placed_mem p2 ho
    obtain ⟨-, g1, g2⟩ := (d2.2 k).1 hk
    unfold wholeSpot at a3
    dsimp only at a3
    rw [if_neg (by omega : ¬ k % 2 = 1)] at a3
    by_cases h0 : k = 0 <;> by_cases hl : k + 1 = route.length - 1
    · omega
    all_goals
      first | rw [if_pos h0] at a3 | rw [if_neg h0] at a3
      first | rw [if_pos hl] at a3 | rw [if_neg hl] at a3
      simp only [HasRoles] at a3
    · subst a3; trivial
    · subst a3; trivial
    · rcases a3 with rfl | rfl <;> trivial
  · obtain ⟨k, hk, hx⟩ := along_mem (placed_along p2) hx
    obtain ⟨-, g1, g2⟩ := (d2.2 k).1 hk
    have key : ∀ j, j < route.length → route[j]? = some x → x ∈ l.l1.flatMap touched ∨ Still s x := by
      intro j hj hx
      by_cases h0 : j = 0
      · subst h0; rw [first] at hx; cases hx; exact .inr hb
      by_cases hl : j = route.length - 1
      · subst hl; rw [last] at hx; cases hx; exact .inr ha
      left
      by_cases hp : j % 2 = 1
      · exact placed_touched p1 ((d1.2 j).2 (by omega)) (.inl hx)
      · exact placed_touched p1 ((d1.2 (j - 1)).2 (by omega)) (.inr (by rw [show j - 1 + 1 = j by omega]; exact hx))
    rcases hx with hx | hx
    · exact key k (by omega) hx
    · exact key (k + 1) (by omega) hx

/-! ### Attempts -/

namespace Spec

/-- The router looks for routes between different patches of slices of this size over free cells, no cell twice. -/
def Clear {ρ : Type} (router : RouterI ρ) (R K : Nat) : Prop :=
  router.edpc = false ∧ ∀ rs s a b r rs', s.rows = R → s.cols = K → a ≠ b → router.find rs s a .Z b .X = .ok (some r, rs') →
    ∀ x y, s.cellById a = some x → s.cellById b = some y → (y :: r.cells.map (·.cell) ++ [x]).Nodup ∧ ∀ c ∈ r.cells.map (·.cell), s.cells c = none

end Spec

/-- The rest of a CNOT can be done at once. -/
def Ready (s : DSlice) (i : Instr) : Prop :=
  ∀ c, i.op = .bellCnot c → c.counterPairs = none ∨
    ∃ w k ps ls rest, c.counterPairs = some ((w, k) :: ps) ∧ c.localSets = some (ls :: rest) ∧ Parallel (ls.drop k) ∧ (∀ o ∈ ls.drop k, Closes o) ∧
      ∀ x ∈ (ls.drop k).flatMap touched, Still s x

section
variable {ρ : Type} {ctx : Ctx ρ} {m : Mach ρ} {i : Instr} {r : Res (Mach ρ)} {c : BellCNOT}

theorem ready_advance {L : Layout} {s s' : DSlice} (h : s.advance L = .ok s') (hr : ∀ c, i.op = .bellCnot c → c.counterPairs = none ∨
    ∃ w k ps ls rest, c.counterPairs = some ((w, k) :: ps) ∧ c.localSets = some (ls :: rest) ∧ Parallel (ls.drop k) ∧ (∀ o ∈ ls.drop k, Closes o) ∧
      ∀ x ∈ (ls.drop k).flatMap touched, Resting s x) : Ready s' i := by
  intro c hc
  rcases hr c hc with e | ⟨w, k, ps, ls, rest, h1, h2, h3, h4, h5⟩
  · exact .inl e
  · exact .inr ⟨w, k, ps, ls, rest, h1, h2, h3, h4, fun x hx => resting_advance h (h5 x hx)⟩

theorem ready_kept {L : Layout} {s s' : DSlice} (h : s.advance L = .ok s') (hr : Ready s i) : Ready s' i := by
  refine ready_advance h fun c hc => ?_
  rcases hr c hc with e | ⟨w, k, ps, ls, rest, h1, h2, h3, h4, h5⟩
  · exact .inl e
  · exact .inr ⟨w, k, ps, ls, rest, h1, h2, h3, h4, fun x hx => still_resting (h5 x hx)⟩

/-- A CNOT that has been started is completed by any attempt that does not fail, and a failing one changes nothing. -/
theorem ready_apply (hd : ctx.router.edpc = false) (hi : i.op = .bellCnot c) (hc : c.counterPairs ≠ none) (hr : Ready m.slice i) (h : Apply.apply ctx m i = .ok r) :
    r.err = false ∧ r.followups = [] ∨ r.err = true ∧ r.instr = i ∧ r.slice = m := by
  unfold Apply.apply at h
  rw [hi] at h
  dsimp only at h
  unfold applyCnot at h
  split at h
  · cases h
  split at h
  · split at h
    · cases h; exact .inr ⟨rfl, rfl, rfl⟩
    · rw [if_neg (by simp [hd])] at h
      rcases hr c hi with e | ⟨w, k, ps, ls, rest, h1, h2, h3, h4, h5⟩
      · exact absurd e hc
      · unfold applyCnotPlain at h
        rw [h1] at h
        dsimp only at h
        rw [h2] at h
        dsimp only at h
        unfold cnotRun at h
        dsimp only at h
        obtain ⟨x, hx, h⟩ := Outcome.bind_eq_ok.1 h
        rw [hd] at hx
        rw [if_pos ((second_round h3 h4 hx).1 h5)] at h
        cases h
        exact .inl ⟨rfl, rfl⟩
  · cases h; exact .inr ⟨rfl, rfl, rfl⟩

/-- The first attempt at a CNOT that has not been started fails and leaves the slice as it is, or does at least all of the first round. -/
theorem fresh_apply {R K : Nat} (hR : Clear ctx.router R K) (h1 : m.slice.rows = R) (h2 : m.slice.cols = K) (hi : i.op = .bellCnot c) (hc : c.counterPairs = none) (hne : c.control ≠ c.target)
    (h : Apply.apply ctx m i = .ok r) :
    r.err = true ∧ r.instr = i ∧ r.slice.slice = m.slice ∨ r.err = false ∧ r.followups = [] ∨ r.err = false ∧ r.followups = [r.instr] ∧
      ∀ L s', r.slice.slice.advance L = .ok s' → Ready s' r.instr := by
  unfold Apply.apply at h
  rw [hi] at h
  dsimp only at h
  unfold applyCnot at h
  split at h
  · cases h
  split at h
  · rename_i pc pt hpc hpt
    split at h
    · cases h; exact .inl ⟨rfl, rfl, rfl⟩
    · rename_i hidle
      rw [if_neg (by simp [hR.1])] at h
      unfold applyCnotPlain at h
      rw [hc] at h
      dsimp only at h
      obtain ⟨⟨o, rs⟩, hf, h⟩ := Outcome.bind_eq_ok.1 h
      dsimp only at h
      cases o with
      | none => cases h; exact .inl ⟨rfl, rfl, rfl⟩
      | some region =>
        dsimp only at h
        split at h
        · cases h
        · rename_i hlen
          obtain ⟨region', hw, h'⟩ := Outcome.bind_eq_ok.1 h
          clear h
          obtain ⟨l, hl, h⟩ := Outcome.bind_eq_ok.1 h'
          clear h'
          unfold withEnds at hw
          split at hw
          · rename_i a b ea eb
            cases hw
            obtain ⟨hn, hfree⟩ := hR.2 _ _ _ _ _ _ h1 h2 hne hf a b ea eb
            have sa : Still m.slice a := ⟨pc, by unfold patchById at hpc; rw [ea] at hpc; exact hpc, by
              cases e : pc.isActive with
              | false => rfl
              | true => rw [e] at hidle; simp at hidle⟩
            have sb : Still m.slice b := ⟨pt, by unfold patchById at hpt; rw [eb] at hpt; exact hpt, by
              cases e : pt.isActive with
              | false => rfl
              | true => rw [e] at hidle; simp at hidle⟩
            have hmap : (bareCell b :: region.cells ++ [bareCell a]).map (·.cell) = b :: region.cells.map (·.cell) ++ [a] := by simp [bareCell]
            rw [hmap] at hl
            obtain ⟨g1, g2, g3, g4, g5⟩ := cnot_rounds hn (by simp; omega) sa sb hfree hl
            unfold cnotRun at h
            dsimp only at h
            obtain ⟨x, hx, h⟩ := Outcome.bind_eq_ok.1 h
            rw [hR.1, List.drop_zero] at hx
            obtain ⟨y, hy, hx⟩ := runLocals_append hx
            obtain ⟨y1, y2, y3⟩ := first_round g1 g3 hy
            obtain ⟨z, hz, rfl⟩ := hx y1
            obtain ⟨-, z2⟩ := second_round g2 g4 hz
            dsimp only at h
            split at h
            · cases h; exact .inr (.inl ⟨rfl, rfl⟩)
            · cases h
              refine .inr (.inr ⟨rfl, rfl, fun L s' hs => ready_advance hs fun c' hc' => ?_⟩)
              cases hc'
              refine .inr ⟨_, _, _, _, _, rfl, rfl, ?_⟩
              rw [Nat.zero_add, List.drop_append, List.drop_eq_nil_of_le (by omega), List.nil_append, Nat.add_sub_cancel_left]
              refine ⟨?_, fun o ho => g4 o (List.mem_of_mem_drop ho), fun q hq => ?_⟩
              · unfold Parallel at g2 ⊢
                rw [← List.take_append_drop z.2.1 l.l2, List.flatMap_append, List.nodup_append] at g2
                exact g2.2.1
              · obtain ⟨o, ho, ho'⟩ := List.mem_flatMap.1 hq
                unfold Resting
                dsimp only
                rw [z2 q hq]
                by_cases hm : q ∈ l.l1.flatMap touched
                · exact y2 q hm
                · rw [y3 q hm]
                  exact still_resting ((g5 q (List.mem_flatMap.2 ⟨o, List.mem_of_mem_drop ho, ho'⟩)).resolve_left hm)
          · cases hw
  · cases h; exact .inl ⟨rfl, rfl, rfl⟩

end

end Verif.Ends
