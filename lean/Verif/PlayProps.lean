import Verif.Play
import Verif.RealProps

/-! # What the visitors see (C57)

The calls of the instruction visitor and of the slice visitor, in order, are a faithful account of the run: an instruction is
shown exactly when an attempt on it has succeeded, and between a slice shown and the next attempt lies exactly one advance.
-/

namespace Verif.Pipe.Spec

open Verif.Wave Verif.Pipe

section
variable {σ : Type}

/-- An account of a run that starts with slice `s` and is now at another slice; `resets` tells whether it may reset the sides
marked by EDPC. -/
inductive Play (env : Env σ) (resets : Bool) (s : σ) : List (Obs σ) → σ → Prop
  /-- Nothing has happened. -/
  | start : Play env resets s [] s
  /-- An attempt succeeds and is shown. -/
  | done {L : List (Obs σ)} {t : σ} (h : Play env resets s L t) {i : Instr} {r : Res σ} (ha : env.apply t i = .ok r) (he : r.err = false) :
      Play env resets s (L ++ [.instr r.instr]) r.slice
  /-- An attempt fails and is not shown. -/
  | refused {L : List (Obs σ)} {t : σ} (h : Play env resets s L t) {i : Instr} {r : Res σ} (ha : env.apply t i = .ok r) (he : r.err = true) : Play env resets s L r.slice
  /-- The marked sides are reset. -/
  | reset {L : List (Obs σ)} {t u : σ} (h : Play env resets s L t) (hd : resets = true) (ha : env.reset t = .ok u) : Play env resets s L u
  /-- The slice is shown, and then advanced. -/
  | next {L : List (Obs σ)} {t u : σ} (h : Play env resets s L t) (ha : env.advance t = .ok u) : Play env resets s (L ++ [.slice t]) u

variable {env : Env σ}

/-- The instructions of an account. -/
def instrs (L : List (Obs σ)) : List Instr := L.filterMap (fun o => match o with | .instr i => some i | .slice _ => none)

/-- The slices of an account. -/
def slices (L : List (Obs σ)) : List σ := L.filterMap (fun o => match o with | .slice s => some s | .instr _ => none)

theorem instrs_append (L M : List (Obs σ)) : instrs (L ++ M) = instrs L ++ instrs M := List.filterMap_append
theorem slices_append (L M : List (Obs σ)) : slices (L ++ M) = slices L ++ slices M := List.filterMap_append

theorem instrs_map (es : List Entry) : instrs (es.map (fun e => (Obs.instr e.instr : Obs σ))) = es.map (fun e => e.instr) := by
  induction es with
  | nil => rfl
  | cons e es ih => rw [List.map_cons, List.map_cons, ← ih]; rfl

theorem slices_map (es : List Entry) : slices (es.map (fun e => (Obs.instr e.instr : Obs σ))) = [] := by
  induction es with
  | nil => rfl
  | cons e es ih => exact ih

/-! ### Streamed -/

/-- The account of the streamed pipeline; the last slice is shown and not advanced. -/
def SPlay (env : Env σ) (s : σ) (c : Ctl) (st : SSt σ) : Prop :=
  if c = .go then Play env false s (st.events.filterMap Ev.obs) st.slice
  else ∃ L, st.events.filterMap Ev.obs = L ++ [.slice st.slice] ∧ Play env false s L st.slice

theorem sstep_play {s : σ} {st st' : SSt σ} {c : Ctl} (h : sstep env st = .ok (c, st')) (hp : Play env false s (st.events.filterMap Ev.obs) st.slice) : SPlay env s c st' := by
  unfold sstep at h
  cases ht : takeNext st with
  | none =>
    rw [ht] at h
    cases h
    refine ⟨_, by rw [List.filterMap_append]; rfl, hp⟩
  | some x =>
    obtain ⟨it, st1⟩ := x
    have hs : st1.events = st.events ∧ st1.slice = st.slice := by
      unfold takeNext at ht
      split at ht
      · cases ht; exact ⟨rfl, rfl⟩
      · split at ht
        · cases ht; exact ⟨rfl, rfl⟩
        · cases ht
    rw [ht] at h
    dsimp only at h
    rw [← hs.1, ← hs.2] at hp
    obtain ⟨r, hr, h⟩ := Outcome.bind_eq_ok.1 h
    have hq : Play env false s ((st1.events ++ ([Ev.attempt it r.err r.followups] ++ (if r.err then [] else [Ev.instr it.tag r.instr]))).filterMap Ev.obs) r.slice := by
      rw [List.filterMap_append]
      cases he : r.err with
      | true => exact (List.append_nil _).symm ▸ hp.refused hr he
      | false => exact hp.done hr he
    unfold react at h
    dsimp only at h
    generalize [Ev.attempt it r.err r.followups] ++ (if r.err then [] else [Ev.instr it.tag r.instr]) = ev at h hq
    split at h
    · obtain ⟨t, h1, h⟩ := Outcome.bind_eq_ok.1 h
      cases h
      unfold SPlay
      rw [if_pos rfl, List.filterMap_append]
      exact hq.next h1
    · split at h
      · split at h
        · cases h
          unfold SPlay
          rw [if_neg (by decide)]
          exact ⟨_, by rw [List.filterMap_append]; rfl, hq⟩
        · obtain ⟨t, h1, h⟩ := Outcome.bind_eq_ok.1 h
          cases h
          unfold SPlay
          rw [if_pos rfl, List.filterMap_append]
          exact hq.next h1
      · cases h
        unfold SPlay
        rw [if_pos rfl]
        exact hq

theorem srun_play {s : σ} (n : Nat) : ∀ {st st' : SSt σ} {c : Ctl}, srun env n st = .ok (c, st') → Play env false s (st.events.filterMap Ev.obs) st.slice → SPlay env s c st' := by
  induction n with
  | zero =>
    intro st st' c h hp
    cases h
    unfold SPlay
    rw [if_pos rfl]; exact hp
  | succ n ih =>
    intro st st' c h hp
    rw [srun] at h
    obtain ⟨⟨c1, s1⟩, h1, h⟩ := Outcome.bind_eq_ok.1 h
    have h2 := sstep_play h1 hp
    dsimp only at h
    split at h
    · rename_i e
      unfold SPlay at h2
      rw [if_pos e] at h2
      exact ih h h2
    · cases h; exact h2

/-- C57, streamed pipeline. While it runs, its account is one of attempts and advances from the first slice to the current
one; when it has ended, the current slice is shown last. -/
theorem c57_streamed (slice : σ) (P : List Instr) (n : Nat) (c : Ctl) (st : SSt σ) (h : srun env n (sstart slice P) = .ok (c, st)) :
    (c = .go → Play env false slice (st.events.filterMap Ev.obs) st.slice) ∧
    (c ≠ .go → ∃ L, st.events.filterMap Ev.obs = L ++ [.slice st.slice] ∧ Play env false slice L st.slice) := by
  have h1 := srun_play (s := slice) n h .start
  unfold SPlay at h1
  refine ⟨fun e => ?_, fun e => ?_⟩
  · rwa [if_pos e] at h1
  · rwa [if_neg e] at h1

/-! ### DAG -/

theorem dapply_slice {st st' : DSt σ} {l : Nat} {r : Res σ} (h : dapply env st l = .ok (r, st')) :
    st'.obs = st.obs ∧ st'.slice = r.slice ∧ st'.shown = st.shown ∧ st'.seen = st.seen ∧ ∃ i, env.apply st.slice i = .ok r := by
  unfold dapply at h
  split at h
  · cases h
  · obtain ⟨x, h1, h⟩ := Outcome.bind_eq_ok.1 h
    cases h
    exact ⟨rfl, rfl, rfl, rfl, _, h1⟩

/-- The account of the DAG pipeline, with the other records of the model. -/
structure DPlay (env : Env σ) (s : σ) (st : DSt σ) : Prop where
  play : Play env false s st.obs st.slice
  shown : instrs st.obs = st.shown.map (fun x => x.2.1)
  seen : slices st.obs = st.seen

theorem proxLoop_play {s : σ} : ∀ {ls : List Nat} {st st' : DSt σ}, DPlay env s st → proxLoop env st ls = .ok st' → DPlay env s st'
  | [], _, _, hp, h => by cases h; exact hp
  | l :: ls, st, st', hp, h => by
    rw [proxLoop] at h
    obtain ⟨⟨r, s1⟩, h1, h⟩ := Outcome.bind_eq_ok.1 h
    obtain ⟨e1, e2, e3, e4, i, ha⟩ := dapply_slice h1
    dsimp only at h
    split at h
    · cases h
    · rename_i he
      obtain ⟨run, -, h⟩ := Outcome.bind_eq_ok.1 h
      refine proxLoop_play ?_ h
      refine ⟨?_, ?_, ?_⟩ <;> dsimp only
      · rw [e1, e2]; exact hp.play.done ha (by simpa using he)
      · rw [instrs_append, List.map_append, e1, e3, hp.shown]; rfl
      · rw [slices_append, e1, e4, hp.seen]; exact List.append_nil _

theorem headLoop_play {s : σ} : ∀ {ls : List Nat} {st st' : DSt σ}, DPlay env s st → headLoop env st ls = .ok st' → DPlay env s st'
  | [], _, _, hp, h => by cases h; exact hp
  | l :: ls, st, st', hp, h => by
    rw [headLoop] at h
    obtain ⟨⟨r, s1⟩, h1, h⟩ := Outcome.bind_eq_ok.1 h
    obtain ⟨e1, e2, e3, e4, i, ha⟩ := dapply_slice h1
    dsimp only at h
    split at h
    · rename_i he
      obtain ⟨s2, h2, h⟩ := Outcome.bind_eq_ok.1 h
      refine headLoop_play ?_ h
      unfold noteFailure at h2
      split at h2
      · cases h2
      · cases h2
        refine ⟨?_, ?_, ?_⟩ <;> dsimp only
        · rw [e1, e2]; exact hp.play.refused ha he
        · rw [e1, e3, hp.shown]
        · rw [e1, e4, hp.seen]
    · rename_i he
      obtain ⟨run, -, h⟩ := Outcome.bind_eq_ok.1 h
      refine headLoop_play ?_ h
      refine ⟨?_, ?_, ?_⟩ <;> dsimp only
      · rw [e1, e2]; exact hp.play.done ha (by simpa using he)
      · rw [instrs_append, List.map_append, e1, e3, hp.shown]; rfl
      · rw [slices_append, e1, e4, hp.seen]; exact List.append_nil _

theorem drun_play {s : σ} (n : Nat) : ∀ {st st' : DSt σ} {b : Bool}, DPlay env s st → drun env n st = .ok (b, st') → DPlay env s st' := by
  induction n with
  | zero => intro st st' b hp h; cases h; exact hp
  | succ n ih =>
    intro st st' b hp h
    rw [drun] at h
    split at h
    · cases h; exact hp
    · obtain ⟨s1, h1, h⟩ := Outcome.bind_eq_ok.1 h
      refine ih ?_ h
      unfold dround at h1
      obtain ⟨s2, h2, h1⟩ := Outcome.bind_eq_ok.1 h1
      obtain ⟨s3, h3, h1⟩ := Outcome.bind_eq_ok.1 h1
      obtain ⟨s4, h4, h1⟩ := Outcome.bind_eq_ok.1 h1
      cases h1
      have hq := headLoop_play (proxLoop_play hp h2) h3
      refine ⟨hq.play.next h4, ?_, ?_⟩ <;> dsimp only
      · rw [instrs_append, hq.shown]; exact List.append_nil _
      · rw [slices_append, hq.seen]; rfl

/-- C57, DAG pipeline; the account agrees with the lists the theorems of C51 and C56 speak of. -/
theorem c57_dag (slice : σ) (P : List Instr) (n : Nat) (b : Bool) (st0 st : DSt σ) (h0 : dstart slice P = .ok st0) (h : drun env n st0 = .ok (b, st)) :
    Play env false slice st.obs st.slice ∧ instrs st.obs = st.shown.map (fun x => x.2.1) ∧ slices st.obs = st.seen := by
  suffices hs : DPlay env slice st from ⟨hs.play, hs.shown, hs.seen⟩
  refine drun_play n ?_ h
  unfold dstart at h0
  obtain ⟨d, -, h0⟩ := Outcome.bind_eq_ok.1 h0
  cases h0
  exact ⟨.start, rfl, rfl⟩

/-! ### Waves -/

theorem Play.att {s t u : σ} {L : List (Obs σ)} {is : List Instr} (h : Play env env.edpc s L t) (h2 : Verif.Pipe.Att env t is u) : Play env env.edpc s (L ++ is.map .instr) u := by
  induction h2 with
  | nil => simpa using h
  | done _ ha he ih => rw [List.map_append, ← List.append_assoc]; exact ih.done ha he
  | refused _ ha he ih => exact ih.refused ha he
  | reset _ hd ha ih => exact ih.reset hd ha

/-- The account of the wave pipeline, with the other records of the model. -/
structure WPlay (env : Env σ) (s : σ) (w : WSt σ) : Prop where
  play : Play env env.edpc s w.obs w.st.slice
  shown : instrs w.obs = w.st.log.map (fun e => e.instr)
  seen : slices w.obs = w.shown

theorem wrun_play {s : σ} {depth : Nat} (n : Nat) : ∀ {w w' : WSt σ} {b : Bool}, WPlay env s w → wrun env depth n w = .ok (b, w') → WPlay env s w' := by
  induction n with
  | zero => intro w w' b hp h; cases h; exact hp
  | succ n ih =>
    intro w w' b hp h
    rw [wrun] at h
    split at h
    · cases h; exact hp
    · obtain ⟨s1, h1, h⟩ := Outcome.bind_eq_ok.1 h
      obtain ⟨s2, h2, h⟩ := Outcome.bind_eq_ok.1 h
      refine ih ?_ h
      obtain ⟨es, e1, a1⟩ := scheduleWave_grown h1
      refine ⟨?_, ?_, ?_⟩ <;> dsimp only <;> rw [e1, List.drop_left]
      · have := (hp.play.att a1).next h2
        rwa [List.map_map] at this
      · rw [instrs_append, instrs_append, instrs_map, hp.shown, List.map_append]
        exact List.append_nil _
      · rw [slices_append, slices_append, slices_map, hp.seen, List.append_nil]
        rfl

theorem start_log (slice : σ) (P : List Instr) : (start slice P).log = [] := by
  unfold start
  have key : ∀ (is : List Instr) (st : St σ) (last : Nat → Option Nat), (addAll st last is).log = st.log := by
    intro is
    induction is with
    | nil => intro st last; rfl
    | cons i is ih => intro st last; rw [addAll, ih]; rfl
  exact key P _ _

/-- C57, wave pipeline; the account agrees with the lists the theorems of C22 to C24 and C56 speak of. -/
theorem c57_wave (slice : σ) (P : List Instr) (depth n : Nat) (b : Bool) (w : WSt σ) (h : wrun env depth n { st := start slice P } = .ok (b, w)) :
    Play env env.edpc slice w.obs w.st.slice ∧ instrs w.obs = w.st.log.map (fun e => e.instr) ∧ slices w.obs = w.shown := by
  suffices hs : WPlay env slice w from ⟨hs.play, hs.shown, hs.seen⟩
  refine wrun_play n ⟨?_, ?_, rfl⟩ h
  · dsimp only; rw [start_slice]; exact .start
  · dsimp only; rw [start_log]; rfl

end

/-! ### Examples -/

open Verif.Real.Spec Verif.Real Verif.Apply Verif.Slices.Spec

/-- An account in short: the kind of each instruction, and each slice by the cells of 7 and 8. -/
def short (L : List (Obs (Mach Unit))) : List (Option Nat × List (Option Cell)) :=
  L.map (fun o => match o with | .instr i => (some (i.op.ids.headD 0), []) | .slice m => (none, [m.slice.cellById 7, m.slice.cellById 8]))


/-- The account of the streamed pipeline for a merge, a rotation and two gates; the patch that is being rotated has no cell. -/
example : view (do let m ← exMach; srun (env exCtx (fun _ => false)) 30 (sstart m exProg)) (fun x => (x.1, short (x.2.events.filterMap Ev.obs))) =
    some (.finished, [(some 7, []), (some 7, []), (none, [none, some ⟨0, 3⟩]), (some 7, []), (none, [none, some ⟨0, 3⟩]), (some 7, []), (none, [none, some ⟨0, 3⟩]),
      (some 7, []), (some 8, []), (some 8, []), (none, [some ⟨0, 0⟩, some ⟨0, 3⟩])]) := by decide +kernel

/-- The DAG pipeline. -/
example : view (do let m ← exMach; let s ← dstart m exProg; drun (env exCtx (fun _ => false)) 30 s) (fun x => (x.1, short x.2.obs)) =
    some (true, [(some 7, []), (none, [some ⟨0, 0⟩, some ⟨0, 3⟩]), (some 7, []), (some 8, []), (none, [none, some ⟨0, 3⟩]), (some 7, []), (some 8, []), (some 7, []),
      (none, [none, some ⟨0, 3⟩]), (some 7, []), (none, [some ⟨0, 0⟩, some ⟨0, 3⟩])]) := by decide +kernel

/-- The wave pipeline. -/
example : view (do let m ← exMach; wrun (env exCtx (fun _ => false)) 10 20 { st := start m exProg }) (fun x => (x.1, short x.2.obs)) =
    some (true, [(some 7, []), (some 7, []), (none, [none, some ⟨0, 3⟩]), (some 7, []), (some 8, []), (some 8, []), (none, [none, some ⟨0, 3⟩]), (some 7, []),
      (none, [none, some ⟨0, 3⟩]), (some 7, []), (none, [some ⟨0, 0⟩, some ⟨0, 3⟩])]) := by decide +kernel

end Verif.Pipe.Spec
