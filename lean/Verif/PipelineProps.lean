import Verif.PipelineStream
import Verif.PipelineDag

/-! # DAG and wave pipelines: properties (C25, C27, C51, C52) -/

namespace Verif.Pipe.Spec

open Verif.Pipe Verif.Wave Verif.Dag

/-! ### C51 -/

section
variable {σ : Type} {env : Env σ}

/-- C51 (order): for every program and every behaviour of the slices (with at most one follow-up per application), after
any number of rounds of the DAG pipeline: if source instruction `i` comes before `j` and the two do not commute,
nothing stemming from `i` is executed after something stemming from `j`. -/
theorem c51_order (ho : OneFollowup env) (P : List Instr) (slice : σ) (st0 st : DSt σ) (n : Nat) (b : Bool) (h0 : dstart slice P = .ok st0)
    (h : drun env n st0 = .ok (b, st)) (i j : Nat) (x y : Instr) (hi : P[i]? = some x) (hj : P[j]? = some y) (hij : i < j) (hc : Instr.canCommute x y = false)
    (l1 l2 : List (Nat × Instr × Nat)) (e : Nat × Instr × Nat) (hs : st.shown = l1 ++ e :: l2) (he : st.run.origin e.1 = j) :
    ∀ f ∈ l2, st.run.origin f.1 ≠ i := by
  obtain ⟨st1, h1, hinv⟩ := dinv_start (slice := slice) (P := P)
  rw [h1] at h0; cases h0
  have hf := drun_fine ho n hinv
  rw [h] at hf
  intro f hfm hfo
  have := hf.1.order
  rw [hs, List.pairwise_append] at this
  have h3 := (List.pairwise_cons.1 this.2.1).1 f hfm
  exact h3 ⟨by omega, x, y, by rw [hfo, hi], by rw [he, hj], hc⟩

/-- C51 (completeness): when the DAG pipeline ends, each source instruction has been taken out exactly once (itself or
the last of its chain of follow-ups), and everything taken out has been executed. -/
theorem c51_complete (ho : OneFollowup env) (P : List Instr) (slice : σ) (st0 st : DSt σ) (n : Nat) (h0 : dstart slice P = .ok st0)
    (h : drun env n st0 = .ok (true, st)) :
    (st.run.popped.map st.run.origin).Perm (List.range P.length) ∧ (∀ l ∈ st.run.popped, ∃ e ∈ st.shown, e.1 = l) ∧
    ∀ k, k < P.length → ∃ e ∈ st.shown, st.run.origin e.1 = k := by
  obtain ⟨st1, h1, hinv⟩ := dinv_start (slice := slice) (P := P)
  rw [h1] at h0; cases h0
  have hf := drun_fine ho n hinv
  rw [h] at hf
  have h2 := hf.2 rfl
  have h3 := hf.1.once
  rw [h2, List.nil_append] at h3
  refine ⟨h3, hf.1.pshown, ?_⟩
  intro k hk
  have := (h3.mem_iff (a := k)).2 (List.mem_range.2 hk)
  rw [List.mem_map] at this
  obtain ⟨l, hl, rfl⟩ := this
  obtain ⟨e, he, rfl⟩ := hf.1.pshown l hl
  exact ⟨e, he, rfl⟩

/-- C51 (no undefined behaviour): building the graph always succeeds, and no run reaches undefined behaviour unless applying
an instruction to a slice or advancing a slice does. -/
theorem c51_defined (ho : OneFollowup env) (hu : ∀ s i, env.apply s i ≠ .ub) (ha : ∀ s, env.advance s ≠ .ub) (P : List Instr) (slice : σ) (n : Nat) :
    ∃ st0, dstart slice P = .ok st0 ∧ drun env n st0 ≠ .ub := by
  obtain ⟨st0, h0, hinv⟩ := dinv_start (slice := slice) (P := P)
  refine ⟨st0, h0, fun e => ?_⟩
  have hf := drun_fine ho n hinv
  rw [e] at hf
  rcases hf with ⟨s, i, h⟩ | ⟨s, h⟩
  · exact hu s i h
  · exact ha s h

/-- C25 (DAG pipeline): the reported count is always one more than the number of slices shown, so the claim fails for
every program. -/
theorem c25_dag_wrong (ho : OneFollowup env) (P : List Instr) (slice : σ) (st0 st : DSt σ) (n : Nat) (b : Bool) (h0 : dstart slice P = .ok st0)
    (h : drun env n st0 = .ok (b, st)) : st.count = st.slices + 1 := by
  obtain ⟨st1, h1, hinv⟩ := dinv_start (slice := slice) (P := P)
  rw [h1] at h0; cases h0
  have hf := drun_fine ho n hinv
  rw [h] at hf
  exact hf.1.count

/-- C25 (wave pipeline): likewise. -/
theorem c25_wave_wrong (depth n : Nat) (w w' : WSt σ) (b : Bool) (hw : w.count = w.shown.length + 1) (h : wrun env depth n w = .ok (b, w')) :
    w'.count = w'.shown.length + 1 := by
  induction n generalizing w with
  | zero => simp only [wrun, Outcome.ok.injEq, Prod.mk.injEq] at h; rw [← h.2]; exact hw
  | succ n ih =>
    rw [wrun] at h
    split at h
    · simp only [Outcome.ok.injEq, Prod.mk.injEq] at h; rw [← h.2]; exact hw
    · obtain ⟨s, h1, h⟩ := Outcome.bind_eq_ok.1 h
      obtain ⟨sl, -, h⟩ := Outcome.bind_eq_ok.1 h
      exact ih _ (by simp [hw]) h

end

/-! ### C52 -/

section
variable {σ : Type} {env : Env σ}

/-- The attempts with the number of slices shown before each. -/
def stamped : Nat → List (Ev σ) → List (Att × Nat)
  | _, [] => []
  | k, .attempt it e f :: l => (⟨it, e, f⟩, k) :: stamped k l
  | k, .slice _ :: l => stamped (k + 1) l
  | k, .instr _ _ :: l => stamped k l

theorem stamped_append (k : Nat) (a b : List (Ev σ)) : stamped k (a ++ b) = stamped k a ++ stamped (k + slicesShown a) b := by
  induction a generalizing k with
  | nil => simp [stamped, slicesShown]
  | cons e a ih =>
    cases e with
    | attempt it er f => simp [stamped, slicesShown, ih]
    | instr t i => simp [stamped, slicesShown, ih]
    | slice s =>
      simp only [List.cons_append, stamped, slicesShown, ih]
      rw [show k + 1 + slicesShown a = k + (slicesShown a + 1) by omega]

structure Stamps (st : SSt σ) : Prop where
  le : ∀ a ∈ stamped 0 st.events, a.2 ≤ slicesShown st.events
  lt : ∀ a ∈ stamped 0 st.events, a.1.followups ≠ [] → a.2 < slicesShown st.events
  pw : (stamped 0 st.events).Pairwise (fun a b => a.1.followups ≠ [] → a.2 < b.2)

theorem stamps_add {st st' : SSt σ} (h : Stamps st) (a : Att) (evs : List (Ev σ)) (hev : st'.events = st.events ++ evs)
    (he : ∀ k, stamped k evs = [(a, k)]) (hs : a.followups ≠ [] → 0 < slicesShown evs) : Stamps st' := by
  have h1 : stamped 0 st'.events = stamped 0 st.events ++ [(a, slicesShown st.events)] := by
    rw [hev, stamped_append, he, Nat.zero_add]
  have h2 : slicesShown st'.events = slicesShown st.events + slicesShown evs := by rw [hev, slicesShown_append]
  refine ⟨?_, ?_, ?_⟩
  · intro x hx
    rw [h1, List.mem_append, List.mem_singleton] at hx
    rcases hx with hx | rfl
    · have := h.le x hx; omega
    · simp only; omega
  · intro x hx hf
    rw [h1, List.mem_append, List.mem_singleton] at hx
    rcases hx with hx | rfl
    · have := h.lt x hx hf; omega
    · have := hs hf; simp only; omega
  · rw [h1, List.pairwise_append]
    refine ⟨h.pw, by simp, ?_⟩
    intro x hx y hy hf
    rw [List.mem_singleton] at hy
    subst hy
    exact h.lt x hx hf

theorem stamps_react {st : SSt σ} (h : Stamps st) (it : Item) (r : Res σ) {c : Ctl} {st' : SSt σ} (e : react env st it r = .ok (c, st')) : Stamps st' := by
  have key : ∀ sl : List (Ev σ), (∀ k, stamped k sl = []) → ∀ k,
      stamped k ([Ev.attempt it r.err r.followups] ++ (if r.err then [] else [Ev.instr it.tag r.instr]) ++ sl) = [(⟨it, r.err, r.followups⟩, k)] := by
    intro sl hsl k
    rw [stamped_append, hsl]
    cases r.err <;> simp [stamped]
  have key2 : ∀ sl : List (Ev σ), slicesShown ([Ev.attempt it r.err r.followups] ++ (if r.err then [] else [Ev.instr it.tag r.instr]) ++ sl) = slicesShown sl := by
    intro sl
    rw [slicesShown_append]
    cases r.err <;> simp [slicesShown]
  unfold react at e
  by_cases hf : r.followups = []
  · rw [if_neg (by simp [hf])] at e
    by_cases he : r.err = true
    · rw [if_pos he] at e
      by_cases hz : r.instr.wait = 0
      · rw [if_pos hz] at e
        simp only [Outcome.ok.injEq, Prod.mk.injEq] at e
        rw [← e.2]
        exact stamps_add h _ _ (List.append_assoc _ _ _) (key [.slice r.slice] (fun _ => rfl)) (fun _ => by rw [key2]; simp [slicesShown])
      · rw [if_neg hz] at e
        obtain ⟨sl, -, e⟩ := Outcome.bind_eq_ok.1 e
        simp only [Outcome.ok.injEq, Prod.mk.injEq] at e
        rw [← e.2]
        exact stamps_add h _ _ (List.append_assoc _ _ _) (key [.slice r.slice] (fun _ => rfl)) (fun _ => by rw [key2]; simp [slicesShown])
    · rw [if_neg he] at e
      simp only [Outcome.ok.injEq, Prod.mk.injEq] at e
      rw [← e.2]
      exact stamps_add h ⟨it, r.err, r.followups⟩ _ rfl (fun k => by rw [← key [] (fun _ => rfl) k, List.append_nil]) (fun hc => absurd hf hc)
  · rw [if_pos hf] at e
    obtain ⟨sl, -, e⟩ := Outcome.bind_eq_ok.1 e
    simp only [Outcome.ok.injEq, Prod.mk.injEq] at e
    rw [← e.2]
    exact stamps_add h _ _ (List.append_assoc _ _ _) (key [.slice r.slice] (fun _ => rfl)) (fun _ => by rw [key2]; simp [slicesShown])

theorem stamps_run (n : Nat) : ∀ {st st' : SSt σ} {c : Ctl}, Stamps st → srun env n st = .ok (c, st') → Stamps st' := by
  induction n with
  | zero =>
    intro st st' c hi h
    simp only [srun, Outcome.ok.injEq, Prod.mk.injEq] at h
    rw [← h.2]; exact hi
  | succ n ih =>
    intro st st' c hi h
    rw [srun] at h
    obtain ⟨⟨c1, s1⟩, h1, h⟩ := Outcome.bind_eq_ok.1 h
    simp only at h
    have hs1 : Stamps s1 := by
      unfold sstep at h1
      split at h1
      · simp only [Outcome.ok.injEq, Prod.mk.injEq] at h1
        rw [← h1.2]
        have e1 : stamped 0 (st.events ++ [Ev.slice st.slice]) = stamped 0 st.events := by rw [stamped_append]; simp [stamped]
        have e2 : slicesShown (st.events ++ [Ev.slice st.slice]) = slicesShown st.events + 1 := by rw [slicesShown_append]; rfl
        refine ⟨?_, ?_, ?_⟩
        · simp only; rw [e1, e2]; intro a ha; have := hi.le a ha; omega
        · simp only; rw [e1, e2]; intro a ha hf; have := hi.lt a ha hf; omega
        · simp only; rw [e1]; exact hi.pw
      · rename_i it s0 ht
        obtain ⟨r, hr, h1⟩ := Outcome.bind_eq_ok.1 h1
        have hs0 : Stamps s0 := by
          unfold takeNext at ht
          split at ht
          · simp only [Option.some.injEq, Prod.mk.injEq] at ht
            rw [← ht.2]; exact ⟨hi.le, hi.lt, hi.pw⟩
          · split at ht
            · simp only [Option.some.injEq, Prod.mk.injEq] at ht
              rw [← ht.2]; exact ⟨hi.le, hi.lt, hi.pw⟩
            · cases ht
        exact stamps_react hs0 it r h1
    split at h
    · exact ih hs1 h
    · simp only [Outcome.ok.injEq, Prod.mk.injEq] at h
      rw [← h.2]; exact hs1

/-- C52 (streamed pipeline): a slice is shown between an application that produces follow-ups and whatever is attempted
after it, in particular its follow-ups. -/
theorem c52_streamed (prog : List Instr) (slice : σ) (n : Nat) (c : Ctl) (st : SSt σ) (h : srun env n (sstart slice prog) = .ok (c, st)) :
    (stamped 0 st.events).Pairwise (fun a b => a.1.followups ≠ [] → a.2 < b.2) :=
  (stamps_run n (st := sstart slice prog) ⟨by simp [sstart, stamped], by simp [sstart, stamped], by simp [sstart, stamped]⟩ h).pw

end

/-! ### Examples -/

/-- From a computed view of an outcome to the outcome. -/
theorem of_view {α β : Type} (o : Outcome α) (f : α → β) (v : β) (h : (match o with | .ok a => some (f a) | _ => none) = some v) : ∃ a, o = .ok a ∧ f a = v := by
  cases o with
  | ok a => exact ⟨a, rfl, by simpa using h⟩
  | throws => cases h
  | ub => cases h

/-- `demo` yields at most one follow-up. -/
theorem demo_one : OneFollowup demo := by
  intro s i r h
  obtain ⟨op, w, cl⟩ := i
  cases op with
  | busy rg n ps => simp only [demo, demoApply] at h; split at h <;> (simp only [Outcome.ok.injEq] at h; subst h; simp)
  | measure t o ng => cases o <;> (simp only [demo, demoApply, Outcome.ok.injEq] at h; subst h; simp)
  | _ => simp only [demo, demoApply, Outcome.ok.injEq] at h; subst h; simp

/-- A patch is rotated and then measured, another one is measured. -/
def dagProg : List Instr := [{ op := .rotate 1 }, { op := .measure 1 .Z false }, { op := .measure 3 .Y false, wait := 0 }]

def dagDemo : Outcome (Bool × DSt Nat) := do
  let st ← dstart 0 dagProg
  drun demo 20 st

/-- What is executed, with the slice and the source instruction it stems from; and the failed attempts for the last one. -/
example : (match dagDemo with
    | .ok (b, st) => (b, st.shown.map (fun e => (e.1, e.2.2, st.run.origin e.1)), st.count, st.slices, st.fails 2)
    | _ => (false, [], 0, 0, 0)) =
    (true, [(0, 0, 0), (3, 1, 0), (4, 1, 0), (5, 2, 0), (1, 2, 1), (2, 2, 2)], 4, 3, 2) := by decide +kernel

/-- C52, negation for the DAG pipeline: the busy region following the rotation (label 3) and the busy region following it
(label 4) are executed in the same slice, so three time steps of the region take two slices. -/
theorem c52_dag_wrong : ∃ st, dagDemo = .ok (true, st) ∧
    st.shown.map (fun e => (e.1, e.2.2)) = [(0, 0), (3, 1), (4, 1), (5, 2), (1, 2), (2, 2)] ∧
    st.shown[1]?.map (fun e => e.2.1.op) = some (.busy { cells := [] } 2 []) ∧ st.shown[2]?.map (fun e => e.2.1.op) = some (.busy { cells := [] } 1 []) := by
  obtain ⟨⟨b, st⟩, h, hv⟩ := of_view dagDemo (fun p => (p.1, p.2.shown.map (fun e => (e.1, e.2.2)), p.2.shown[1]?.map (fun e => e.2.1.op), p.2.shown[2]?.map (fun e => e.2.1.op)))
    (true, [(0, 0), (3, 1), (4, 1), (5, 2), (1, 2), (2, 2)], some (.busy { cells := [] } 2 []), some (.busy { cells := [] } 1 [])) (by decide +kernel)
  simp only [Prod.mk.injEq] at hv
  obtain ⟨rfl, h1, h2, h3⟩ := hv
  exact ⟨st, h, h1, h2, h3⟩

/-- C27, negation for the DAG pipeline: an instruction with budget 0 is attempted three times. -/
theorem c27_dag_ignored : ∃ st, dagDemo = .ok (true, st) ∧ (dagProg[2]?.map Instr.wait) = some 0 ∧ st.fails 2 = 2 := by
  obtain ⟨⟨b, st⟩, h, hv⟩ := of_view dagDemo (fun p => (p.1, p.2.fails 2)) (true, 2) (by decide +kernel)
  simp only [Prod.mk.injEq] at hv
  obtain ⟨rfl, h1⟩ := hv
  exact ⟨st, h, rfl, h1⟩

/-- As `demo`, with the rotation followed by a `Y` measurement with budget 7. -/
def demoLate : Env Nat := { demo with apply := fun t i =>
  match i.op with
  | .rotate p => .ok ⟨t, i, false, [{ op := .measure p .Y false, wait := 7 }]⟩
  | _ => demoApply t i }

/-- C27, negation for the DAG and the wave pipeline: a follow-up that does not succeed at once is an error, whatever its
budget. The streamed pipeline runs the same program. -/
theorem c27_followups_stop :
    (do let st ← dstart 0 [{ op := .rotate 1 }]; drun demoLate 20 st) = .throws ∧
    runWaves demoLate 10 20 (start 0 [{ op := .rotate 1 }]) = .throws ∧
    ∃ st, srun demoLate 20 (sstart 0 [{ op := .rotate 1 }]) = .ok (.finished, st) :=
  ⟨rfl, rfl, _, rfl⟩

/-- A machine whose state counts the attempts on `Y` measurements, the first of which fails. -/
def countApply (t : Nat) (i : Instr) : Outcome (Res Nat) :=
  match i.op with
  | .measure _ .Y _ => .ok ⟨t + 1, i, decide (t = 0), []⟩
  | _ => .ok ⟨t, i, false, []⟩

def counting : Env Nat := { apply := countApply, advance := .ok, reset := .ok, edpc := false, realloc := fun _ => false }

/-- C27, negation for the wave pipeline: an attempt made right after the instruction before it does not count against the
budget, so an instruction with budget 0 is attempted twice. -/
theorem c27_wave_more : ∃ st, runWaves counting 10 20 (start 0 [{ op := .sq 1 .X false }, { op := .measure 1 .Y false, wait := 0 }]) = .ok (st, 2) ∧
    done st = true ∧ st.slice = 2 :=
  ⟨_, rfl, rfl, rfl⟩

/-- The wave pipeline on the program of the streamed example. -/
example : (match wrun counting 10 20 ⟨start 0 [{ op := .sq 1 .X false }, { op := .measure 1 .Y false, wait := 0 }], 1, [], []⟩ with
    | .ok (b, w) => (b, w.count, w.shown.length)
    | _ => (false, 0, 0)) = (true, 3, 2) := by decide

end Verif.Pipe.Spec
