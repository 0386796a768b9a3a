import Verif.Pipeline

/-! # A run with a richer state projects to the run: lemmas

An environment whose state carries more than another, with the same behaviour on what both have, gives the same runs. It is
used with states that carry what has been shown so far.
-/

namespace Verif.Pipe

open Verif.Wave Verif.Dag

section
variable {σ τ : Type} {f : τ → σ} {e : Env σ} {e' : Env τ}

def omap {α β : Type} (f : α → β) : Outcome α → Outcome β
  | .ok a => .ok (f a)
  | .throws => .throws
  | .ub => .ub

theorem omap_bind {α β γ : Type} (g : β → γ) (x : Outcome α) (k : α → Outcome β) : omap g (x >>= k) = x >>= fun a => omap g (k a) := by cases x <;> rfl

theorem bind_omap {α β γ : Type} (g : α → β) (x : Outcome α) (k : β → Outcome γ) : (omap g x >>= k) = x >>= fun a => k (g a) := by cases x <;> rfl

theorem omap_ite {α β : Type} (g : α → β) (c : Prop) [Decidable c] (x y : Outcome α) : omap g (if c then x else y) = if c then omap g x else omap g y := by
  split <;> rfl

theorem bind_congr' {α β : Type} {x : Outcome α} {k k' : α → Outcome β} (h : ∀ a, k a = k' a) : (x >>= k) = (x >>= k') := by rw [funext h]

theorem ite2 {α : Type} {c : Prop} [Decidable c] {x x' y y' : α} (h1 : c → x = x') (h2 : ¬ c → y = y') : (if c then x else y) = if c then x' else y' := by
  by_cases h : c
  · rw [if_pos h, if_pos h, h1 h]
  · rw [if_neg h, if_neg h, h2 h]

theorem omap_eq_ok {α β : Type} {g : α → β} {x : Outcome α} {b : β} (h : omap g x = .ok b) : ∃ a, x = .ok a ∧ g a = b := by
  cases x with
  | ok a => cases h; exact ⟨a, rfl, rfl⟩
  | throws => cases h
  | ub => cases h

def mapRes (f : τ → σ) (r : Res τ) : Res σ := ⟨f r.slice, r.instr, r.err, r.followups⟩

/-- The first environment is the second one with more in its state. -/
structure Over (f : τ → σ) (e' : Env τ) (e : Env σ) : Prop where
  apply : ∀ s i, e.apply (f s) i = omap (mapRes f) (e'.apply s i)
  advance : ∀ s, e.advance (f s) = omap f (e'.advance s)
  reset : ∀ s, e.reset (f s) = omap f (e'.reset s)
  edpc : e.edpc = e'.edpc
  realloc : e.realloc = e'.realloc

def mapObs (f : τ → σ) : Obs τ → Obs σ
  | .instr i => .instr i
  | .slice s => .slice (f s)

def mapEv (f : τ → σ) : Ev τ → Ev σ
  | .attempt it b fs => .attempt it b fs
  | .instr t i => .instr t i
  | .slice s => .slice (f s)

/-! ### Streamed -/

def mapS (f : τ → σ) (st : SSt τ) : SSt σ := ⟨f st.slice, st.stream, st.read, st.future, st.count, st.events.map (mapEv f)⟩

theorem takeNext_over (st : SSt τ) : takeNext (mapS f st) = (takeNext st).map (fun x => (x.1, mapS f x.2)) := by
  unfold takeNext
  rcases st with ⟨s, stream, read, future, count, events⟩
  cases future with
  | cons a l => rfl
  | nil => cases stream <;> rfl

theorem react_over (h : Over f e' e) (st : SSt τ) (it : Item) (r : Res τ) :
    react e (mapS f st) it (mapRes f r) = omap (fun x => (x.1, mapS f x.2)) (react e' st it r) := by
  unfold react
  have hev : ([Ev.attempt it (mapRes f r).err (mapRes f r).followups] ++ if (mapRes f r).err then [] else [Ev.instr it.tag (mapRes f r).instr]) =
      ([Ev.attempt it r.err r.followups] ++ if r.err then [] else [Ev.instr it.tag r.instr]).map (mapEv f) := by
    obtain ⟨sl, i, err, fs⟩ := r
    cases err <;> rfl
  dsimp only
  rw [hev]
  generalize ([Ev.attempt it r.err r.followups] ++ if r.err then [] else [Ev.instr it.tag r.instr]) = ev
  simp only [mapRes, mapS]
  rw [omap_ite, omap_ite, omap_ite]
  refine ite2 (fun _ => ?_) (fun _ => ite2 (fun _ => ite2 (fun _ => ?_) (fun _ => ?_)) (fun _ => ?_))
  · rw [h.advance, bind_omap, omap_bind]
    refine bind_congr' fun a => ?_
    simp [omap, mapS, mapEv]
  · simp [omap, mapS, mapEv]
  · rw [h.advance, bind_omap, omap_bind]
    refine bind_congr' fun a => ?_
    simp [omap, mapS, mapEv]
  · simp [omap, mapS]

theorem sstep_over (h : Over f e' e) (st : SSt τ) : sstep e (mapS f st) = omap (fun x => (x.1, mapS f x.2)) (sstep e' st) := by
  unfold sstep
  rw [takeNext_over]
  cases takeNext st with
  | none => simp [omap, mapS, mapEv]
  | some x =>
    obtain ⟨it, s1⟩ := x
    simp only [Option.map_some]
    show (e.apply (f s1.slice) it.instr >>= _) = _
    rw [h.apply, bind_omap, omap_bind]
    exact bind_congr' fun r => react_over h s1 it r

theorem srun_over (h : Over f e' e) : ∀ (n : Nat) (st : SSt τ), srun e n (mapS f st) = omap (fun x => (x.1, mapS f x.2)) (srun e' n st)
  | 0, _ => rfl
  | n + 1, st => by
    rw [srun, srun, sstep_over h, bind_omap, omap_bind]
    refine bind_congr' fun x => ?_
    dsimp only
    rw [omap_ite, srun_over h n]
    rfl

theorem sstart_over (s : τ) (P : List Instr) : sstart (f s) P = mapS f (sstart s P) := rfl

/-! ### DAG -/

def mapD (f : τ → σ) (st : DSt τ) : DSt σ := ⟨f st.slice, st.run, st.fails, st.count, st.slices, st.shown, st.seen.map f, st.obs.map (mapObs f)⟩

theorem dapply_over (h : Over f e' e) (st : DSt τ) (l : Nat) : dapply e (mapD f st) l = omap (fun x => (mapRes f x.1, mapD f x.2)) (dapply e' st l) := by
  unfold dapply
  show (match st.run.dag.instr l with | none => _ | some i => _) = _
  cases st.run.dag.instr l with
  | none => rfl
  | some i =>
    dsimp only
    show (e.apply (f st.slice) i >>= _) = _
    rw [h.apply, bind_omap, omap_bind]
    exact bind_congr' fun r => rfl

theorem proxLoop_over (h : Over f e' e) : ∀ (ls : List Nat) (st : DSt τ), proxLoop e (mapD f st) ls = omap (mapD f) (proxLoop e' st ls)
  | [], _ => rfl
  | l :: ls, st => by
    rw [proxLoop, proxLoop, dapply_over h, bind_omap, omap_bind]
    refine bind_congr' fun x => ?_
    obtain ⟨r, s1⟩ := x
    dsimp only
    rw [omap_ite, omap_bind]
    show (if r.err = true then _ else (handle s1.run l r.followups >>= _)) = _
    refine ite2 (fun _ => ?_) (fun _ => ?_)
    · rfl
    · refine bind_congr' fun run => ?_
      rw [← proxLoop_over h]
      congr 1
      simp [mapD, mapRes, mapObs]

theorem headLoop_over (h : Over f e' e) : ∀ (ls : List Nat) (st : DSt τ), headLoop e (mapD f st) ls = omap (mapD f) (headLoop e' st ls)
  | [], _ => rfl
  | l :: ls, st => by
    rw [headLoop, headLoop, dapply_over h, bind_omap, omap_bind]
    refine bind_congr' fun x => ?_
    obtain ⟨r, s1⟩ := x
    dsimp only
    rw [omap_ite, omap_bind, omap_bind]
    show (if r.err = true then _ else (handle s1.run l r.followups >>= _)) = _
    refine ite2 (fun _ => ?_) (fun _ => ?_)
    · unfold noteFailure
      by_cases hm : s1.fails l + 1 > maxRetries
      · have hm' : (mapD f s1).fails l + 1 > maxRetries := hm
        rw [if_pos hm, if_pos hm']
        rfl
      · have hm' : ¬ (mapD f s1).fails l + 1 > maxRetries := hm
        rw [if_neg hm, if_neg hm', Outcome.bind_ok, Outcome.bind_ok, ← headLoop_over h]
        rfl
    · refine bind_congr' fun run => ?_
      rw [← headLoop_over h]
      congr 1
      simp [mapD, mapRes, mapObs]

theorem dround_over (h : Over f e' e) (st : DSt τ) : dround e (mapD f st) = omap (mapD f) (dround e' st) := by
  unfold dround
  rw [omap_bind]
  show (proxLoop e (mapD f st) st.run.dag.proxHeads >>= _) = _
  rw [proxLoop_over h, bind_omap]
  refine bind_congr' fun s1 => ?_
  show (headLoop e (mapD f s1) s1.run.dag.applicable >>= _) = _
  rw [headLoop_over h, bind_omap, omap_bind]
  refine bind_congr' fun s2 => ?_
  show (e.advance (f s2.slice) >>= _) = _
  rw [h.advance, bind_omap, omap_bind]
  refine bind_congr' fun s3 => ?_
  simp [mapD, mapObs, omap]

theorem drun_over (h : Over f e' e) : ∀ (n : Nat) (st : DSt τ), drun e n (mapD f st) = omap (fun x => (x.1, mapD f x.2)) (drun e' n st)
  | 0, _ => rfl
  | n + 1, st => by
    rw [drun, drun, omap_ite, omap_bind, dround_over h, bind_omap]
    show (if st.run.dag.graph.nodes.isEmpty = true then _ else _) = _
    refine ite2 (fun _ => ?_) (fun _ => ?_)
    · rfl
    · exact bind_congr' fun s => drun_over h n s

theorem dstart_over (s : τ) (P : List Instr) : dstart (f s) P = omap (mapD f) (dstart s P) := by
  unfold dstart
  rw [omap_bind]
  rfl

/-! ### Waves -/

def mapW (f : τ → σ) (st : St τ) : St σ := ⟨f st.slice, st.size, st.instr, st.deps, st.count, st.origin, st.cur, st.nxt, st.log⟩

theorem applyTo_over (h : Over f e' e) (st : St τ) (id : Nat) : applyTo e (mapW f st) id = omap (fun x => (mapRes f x.1, mapW f x.2)) (applyTo e' st id) := by
  unfold applyTo
  rw [omap_ite, omap_bind]
  show (if id < st.size then (e.apply (f st.slice) (st.instr id) >>= _) else _) = _
  refine ite2 (fun _ => ?_) (fun _ => ?_)
  · rw [h.apply, bind_omap]
    exact bind_congr' fun r => rfl
  · rfl

def RecOver (f : τ → σ) (g : Rec σ) (g' : Rec τ) : Prop := ∀ st id prox, g (mapW f st) id prox = omap (fun x => (x.1, mapW f x.2)) (g' st id prox)

variable {g : Rec σ} {g' : Rec τ}

theorem release_over (hg : RecOver f g g') (st : St τ) (j : Nat) (prox : Bool) : release g (mapW f st) j prox = omap (mapW f) (release g' st j prox) := by
  unfold release
  rw [omap_ite, omap_bind, omap_bind]
  refine ite2 (fun _ => ?_) (fun _ => ?_)
  · refine bind_congr' fun b => ?_
    cases b <;> rfl
  · rw [hg, bind_omap]
    refine bind_congr' fun x => ?_
    obtain ⟨b, s⟩ := x
    cases b <;> rfl

theorem oneDep_over (hg : RecOver f g g') (st : St τ) (j : Nat) (prox : Bool) : oneDep g (mapW f st) j prox = omap (mapW f) (oneDep g' st j prox) := by
  unfold oneDep
  dsimp only
  rw [omap_ite, ← release_over hg]
  rfl

theorem depLoop_over (h : Over f e' e) (hg : RecOver f g g') (prox : Bool) (n0 : Nat) : ∀ (js : List Nat) (st : St τ),
    depLoop e g prox n0 (mapW f st) js = omap (mapW f) (depLoop e' g' prox n0 st js)
  | [], _ => rfl
  | j :: js, st => by
    rw [depLoop, depLoop, omap_ite, omap_ite, omap_bind, oneDep_over hg, bind_omap, h.realloc]
    show (if moved e'.realloc n0 st.size = true then _ else if st.size ≤ j then _ else _) = _
    refine ite2 (fun _ => ?_) (fun _ => ?_)
    · rfl
    · refine ite2 (fun _ => ?_) (fun _ => ?_)
      · rfl
      · exact bind_congr' fun s => depLoop_over h hg prox n0 js s

theorem addDelta_over (d : Nat) : ∀ (js : List Nat) (st : St τ), addDelta (mapW f st) d js = mapW f (addDelta st d js)
  | [], _ => rfl
  | j :: js, st => by
    rw [addDelta, addDelta, ← addDelta_over d js]
    rfl

theorem followLoop_over (h : Over f e' e) (hg : RecOver f g g') (prox : Bool) (n0 : Nat) (deps : List Nat) (o : Nat) : ∀ (fs : List Instr) (st : St τ),
    followLoop e g prox n0 deps o (mapW f st) fs = omap (mapW f) (followLoop e' g' prox n0 deps o st fs)
  | [], _ => rfl
  | i :: fs, st => by
    rw [followLoop, followLoop, omap_ite, omap_bind, h.realloc]
    let s2 : St τ := { st with size := st.size + 1, instr := upd st.instr st.size i, deps := upd st.deps st.size deps, count := upd st.count st.size 0, origin := upd st.origin st.size o }
    show (if moved e'.realloc n0 st.size = true then _ else (g (mapW f s2) st.size prox >>= _)) = _
    refine ite2 (fun _ => ?_) (fun _ => ?_)
    · rfl
    · rw [hg, bind_omap]
      refine bind_congr' fun x => ?_
      obtain ⟨b, s⟩ := x
      dsimp only
      rw [← followLoop_over h hg]
      cases b <;> rfl

theorem notify_over (h : Over f e' e) (hg : RecOver f g g') (st : St τ) (id : Nat) (fs : List Instr) (prox : Bool) :
    notify e g (mapW f st) id fs prox = omap (mapW f) (notify e' g' st id fs prox) := by
  unfold notify
  cases fs with
  | nil => exact depLoop_over h hg prox _ _ st
  | cons a fs =>
    dsimp only
    by_cases hf : fs.length ≠ 0
    · rw [if_pos hf, if_pos hf, ← followLoop_over h hg, addDelta_over]
      rfl
    · rw [if_neg hf, if_neg hf, ← followLoop_over h hg]
      rfl

theorem tryImm_over (h : Over f e' e) : ∀ d, RecOver f (tryImm e d) (tryImm e' d)
  | 0, _, _, _ => rfl
  | d + 1, st, id, prox => by
    rw [tryImm, tryImm, omap_ite, omap_bind]
    show (if st.size ≤ id then _ else (isImmediate (st.instr id) >>= _)) = _
    refine ite2 (fun _ => ?_) (fun _ => ?_)
    · rfl
    · refine bind_congr' fun b => ?_
      rw [omap_ite, omap_bind, applyTo_over h, bind_omap]
      refine ite2 (fun _ => ?_) (fun _ => ?_)
      · rfl
      · refine bind_congr' fun x => ?_
        obtain ⟨r, s⟩ := x
        dsimp only
        rw [omap_ite, omap_ite, omap_ite, omap_bind]
        show (if r.err = true then (if selfResult r = true then _ else _) else (if selfResult r = true then _ else (notify e (tryImm e d) (mapW f (visit s id r)) id r.followups prox >>= _))) = _
        rw [notify_over h (tryImm_over h d), bind_omap]
        rfl

theorem schedOne_over (h : Over f e' e) (hg : RecOver f g g') (prox df : Bool) (st : St τ) (id : Nat) :
    schedOne e g prox df (mapW f st) id = omap (mapW f) (schedOne e' g' prox df st id) := by
  unfold schedOne
  rw [omap_bind, applyTo_over h, bind_omap]
  refine bind_congr' fun x => ?_
  obtain ⟨r, s⟩ := x
  dsimp only
  rw [omap_ite, omap_ite, omap_ite, omap_ite, omap_ite, omap_ite, ← notify_over h hg]
  rfl

theorem schedList_over (h : Over f e' e) (hg : RecOver f g g') (prox df : Bool) : ∀ (ids : List Nat) (st : St τ),
    schedList e g prox df (mapW f st) ids = omap (mapW f) (schedList e' g' prox df st ids)
  | [], _ => rfl
  | id :: ids, st => by
    rw [schedList, schedList, omap_bind, schedOne_over h hg, bind_omap]
    exact bind_congr' fun s => schedList_over h hg prox df ids s

theorem rounds_over (h : Over f e' e) (hg : RecOver f g g') (st : St τ) : rounds e g (mapW f st) = omap (mapW f) (rounds e' g' st) := by
  unfold rounds
  rw [omap_ite, omap_bind, h.edpc]
  show (if e'.edpc = true then (schedList e g false true (mapW f st) st.cur.deferred >>= _) else _) = _
  rw [schedList_over h hg, bind_omap]
  refine ite2 (fun _ => ?_) (fun _ => ?_)
  · refine bind_congr' fun s => ?_
    show (e.reset (f s.slice) >>= _) = _
    rw [h.reset, bind_omap, omap_bind]
    refine bind_congr' fun t => ?_
    rw [← schedList_over h hg]
    rfl
  · rfl

theorem scheduleWave_over (h : Over f e' e) (depth : Nat) (st : St τ) : scheduleWave e depth (mapW f st) = omap (mapW f) (scheduleWave e' depth st) := by
  have hg := tryImm_over h depth
  unfold scheduleWave
  dsimp only
  rw [omap_bind]
  show (schedList e _ true false (mapW f st) st.cur.prox >>= _) = _
  rw [schedList_over h hg, bind_omap]
  refine bind_congr' fun s1 => ?_
  rw [omap_bind]
  show (schedList e _ false false (mapW f s1) s1.cur.heads >>= _) = _
  rw [schedList_over h hg, bind_omap]
  refine bind_congr' fun s2 => ?_
  rw [omap_bind, rounds_over h hg, bind_omap]
  rfl

def mapWSt (f : τ → σ) (w : WSt τ) : WSt σ := ⟨mapW f w.st, w.count, w.shown.map f, w.obs.map (mapObs f)⟩

theorem wrun_over (h : Over f e' e) (depth : Nat) : ∀ (n : Nat) (w : WSt τ), wrun e depth n (mapWSt f w) = omap (fun x => (x.1, mapWSt f x.2)) (wrun e' depth n w)
  | 0, _ => rfl
  | n + 1, w => by
    rw [wrun, wrun, omap_ite, omap_bind]
    show (if done w.st = true then _ else (scheduleWave e depth (mapW f w.st) >>= _)) = _
    rw [scheduleWave_over h, bind_omap]
    refine ite2 (fun _ => ?_) (fun _ => ?_)
    · rfl
    · refine bind_congr' fun s1 => ?_
      rw [omap_bind]
      show (e.advance (f s1.slice) >>= _) = _
      rw [h.advance, bind_omap]
      refine bind_congr' fun s2 => ?_
      rw [← wrun_over h depth n]
      congr 1
      simp only [mapWSt, mapW, List.map_append, List.map_map, List.map_cons, List.map_nil, mapObs]
      rfl

theorem start_over (s : τ) (P : List Instr) : start (f s) P = mapW f (start s P) := by
  unfold start
  have key : ∀ (is : List Instr) (st : St τ) (last : Nat → Option Nat), addAll (mapW f st) last is = mapW f (addAll st last is) := by
    intro is
    induction is with
    | nil => intro st last; rfl
    | cons i is ih =>
      intro st last
      rw [addAll, addAll, ← ih]
      rfl
  exact key P { slice := s, size := 0, instr := fun _ => { op := .declare [] }, deps := fun _ => [], count := fun _ => 0, origin := fun _ => 0 } _

end

/-! ### What has been shown so far -/

section
variable {σ : Type}

/-- The environment with the instructions shown so far in its state. -/
def ghost (e : Env σ) : Env (σ × List Instr) where
  apply x i := do
    let r ← e.apply x.1 i
    .ok ⟨(r.slice, if r.err then x.2 else x.2 ++ [r.instr]), r.instr, r.err, r.followups⟩
  advance x := do
    let s ← e.advance x.1
    .ok (s, x.2)
  reset x := do
    let s ← e.reset x.1
    .ok (s, x.2)
  edpc := e.edpc
  realloc := e.realloc

theorem ghost_over (e : Env σ) : Over Prod.fst (ghost e) e where
  apply s i := by
    unfold ghost
    dsimp only
    rw [omap_bind]
    cases e.apply s.1 i <;> rfl
  advance s := by
    unfold ghost
    dsimp only
    rw [omap_bind]
    cases e.advance s.1 <;> rfl
  reset s := by
    unfold ghost
    dsimp only
    rw [omap_bind]
    cases e.reset s.1 <;> rfl
  edpc := rfl
  realloc := rfl

theorem ghost_apply {e : Env σ} {x : σ × List Instr} {i : Instr} {r : Res (σ × List Instr)} (h : (ghost e).apply x i = .ok r) :
    ∃ r0, e.apply x.1 i = .ok r0 ∧ r = ⟨(r0.slice, if r0.err then x.2 else x.2 ++ [r0.instr]), r0.instr, r0.err, r0.followups⟩ := by
  unfold ghost at h
  dsimp only at h
  obtain ⟨r0, h1, h⟩ := Outcome.bind_eq_ok.1 h
  cases h
  exact ⟨r0, h1, rfl⟩

end

end Verif.Pipe
