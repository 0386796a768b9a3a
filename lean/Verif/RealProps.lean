import Verif.RealEnv
import Verif.WaveProps
import Verif.PipelineProps
import Verif.SliceProps
import Verif.BellProps

/-! # The pipelines with the instruction application of the code: properties (C22–C27, C51)

The theorems on the pipelines hold for any function that applies instructions within stated assumptions. Here the
assumptions are discharged for the function of the code.
-/

namespace Verif.Real.Spec

open Verif Apply Verif.Wave Verif.Wave.Spec Verif.Pipe Verif.Pipe.Spec Verif.Slices.Spec

section
variable {ρ : Type} {ctx : Ctx ρ} {realloc : Nat → Bool}

/-- C22 without EDPC: what is shown for a source instruction and its follow-ups never comes before what is shown for an
earlier source instruction on a common patch and its follow-ups. Nothing is assumed of the slices, the layout or
the router. Missing: see `c22_order_partial`. -/
theorem c22_code_partial (hd : ctx.router.edpc = false) {prog : List Instr} (hp : Wave.Spec.Fits prog) {m : Mach ρ} {depth n k : Nat} {st : St (Mach ρ)}
    (h : runWaves (env ctx realloc) depth n (start m prog) = .ok (st, k))
    {a b p : Nat} (hb : b < prog.length) (hab : a < b) (hpa : Touches (prog[a]'(by omega)) p) (hpb : Touches prog[b] p)
    {x y : Nat} (hy : y < st.log.length) (hxy : x < y) :
    ¬ (st.origin (st.log[x]'(by omega)).id = b ∧ st.origin st.log[y].id = a) :=
  c22_order_partial (protocol_plain ctx realloc hd) hp (fun _ _ => rfl) h hb hab hpa hpb hy hxy

/-- C23 without EDPC: at the end every record is finished exactly once. -/
theorem c23_code_partial (hd : ctx.router.edpc = false) {prog : List Instr} (hp : Wave.Spec.Fits prog) {m : Mach ρ} {depth n k : Nat} {st : St (Mach ρ)}
    (h : runWaves (env ctx realloc) depth n (start m prog) = .ok (st, k)) (hdone : done st = true) :
    (∀ i, i < st.size → timesFinished st.log i = 1) ∧
    st.size = prog.length + ((st.log.filter (fun e => decide (e.followups ≠ [e.instr]))).map (fun e => e.followups.length)).sum :=
  c23_done_partial (protocol_plain ctx realloc hd) hp (fun _ _ => rfl) h hdone

/-- C24 without EDPC: no instruction ever asks to be deferred (fails and names itself as follow-up), whatever the slice. -/
theorem c24_code (hd : ctx.router.edpc = false) {m : Mach ρ} {i : Instr} {r : Res (Mach ρ)} (h : Apply.apply ctx m i = .ok r) (he : r.err = true) :
    r.followups = [] := by
  rcases (kept_apply h).shape with h1 | ⟨f, h1, h2, -⟩ | ⟨c, hi, hr, x, hx, h1, h2, h3⟩
  · exact h1
  · rw [h2] at he; cases he
  · rw [hd] at h3; cases h3

theorem plain_passed {i : Instr} (h : Plain i) : passed i.op = .plain := by
  unfold Plain at h
  unfold passed
  split
  · rename_i c e
    rw [e] at h
    simp only at h
    rw [h.1]
  · rfl

/-- C22 with EDPC, for runs in which no CNOT that has its route meets a busy or missing end patch. -/
theorem c22_edpc_partial (hd : ctx.router.edpc = true) {prog : List Instr} (hp : Wave.Spec.Fits prog) (hs : ∀ i ∈ prog, Plain i) {m : Mach ρ} {depth n k : Nat} {st : St (Mach ρ)}
    (h : runWaves (careful ctx realloc) depth n (start m prog) = .ok (st, k)) :
    runWaves (env ctx realloc) depth n (start m prog) = .ok (st, k) ∧
    ∀ {a b p : Nat} (hb : b < prog.length) (hab : a < b), Touches (prog[a]'(by omega)) p → Touches prog[b] p →
    ∀ {x y : Nat} (hy : y < st.log.length) (hxy : x < y), ¬ (st.origin (st.log[x]'(by omega)).id = b ∧ st.origin st.log[y].id = a) :=
  ⟨runWaves_below (careful_below ctx realloc) h, fun hb hab hpa hpb _ _ hy hxy =>
    c22_order_partial (protocol_edpc ctx realloc hd) hp (fun i hi => plain_passed (hs i hi)) h hb hab hpa hpb hy hxy⟩

/-- C23 with EDPC, for the same runs. -/
theorem c23_edpc_partial (hd : ctx.router.edpc = true) {prog : List Instr} (hp : Wave.Spec.Fits prog) (hs : ∀ i ∈ prog, Plain i) {m : Mach ρ} {depth n k : Nat} {st : St (Mach ρ)}
    (h : runWaves (careful ctx realloc) depth n (start m prog) = .ok (st, k)) (hdone : done st = true) :
    runWaves (env ctx realloc) depth n (start m prog) = .ok (st, k) ∧
    (∀ i, i < st.size → timesFinished st.log i = 1) ∧
    st.size = prog.length + ((st.log.filter (fun e => decide (e.followups ≠ [e.instr]))).map (fun e => e.followups.length)).sum :=
  ⟨runWaves_below (careful_below ctx realloc) h, c23_done_partial (protocol_edpc ctx realloc hd) hp (fun i hi => plain_passed (hs i hi)) h hdone⟩

/-- C24 with EDPC, for the same runs: what is deferred within a wave is queued for the next one. -/
theorem c24_edpc_partial (hd : ctx.router.edpc = true) {prog : List Instr} (hp : Wave.Spec.Fits prog) (hs : ∀ i ∈ prog, Plain i) {m : Mach ρ} {depth n k : Nat} {st st' : St (Mach ρ)}
    (h : runWaves (careful ctx realloc) depth n (start m prog) = .ok (st, k)) (hw : scheduleWave (careful ctx realloc) depth st = .ok st') :
    scheduleWave (env ctx realloc) depth st = .ok st' ∧
    ∃ s1 s2, schedList (careful ctx realloc) (tryImm (careful ctx realloc) depth) true false st st.cur.prox = .ok s1 ∧
      schedList (careful ctx realloc) (tryImm (careful ctx realloc) depth) false false s1 s1.cur.heads = .ok s2 ∧
      ∀ i ∈ s2.cur.deferred, i ∈ st'.cur.prox ∧ timesFinished st'.log i = 0 :=
  ⟨scheduleWave_below (careful_below ctx realloc) hw, c24_partial (protocol_edpc ctx realloc hd) hp (fun i hi => plain_passed (hs i hi)) h hw⟩

/-- C26 for the code: no assumption on the slices. -/
theorem c26_code (prog : List Instr) (m : Mach ρ) (n : Nat) (c : Ctl) (st : SSt (Mach ρ)) (h : srun (env ctx realloc) n (sstart m prog) = .ok (c, st)) :
    (attempts st.events).Pairwise (fun a b => a.it.tag ≤ b.it.tag) ∧ (shownTags st.events).Pairwise (· ≤ ·) ∧
    (∀ pre e post, attempts st.events = pre ++ e :: post → Origin prog pre e) ∧
    (c = .finished → ∀ k, k < prog.length → settled (attempts st.events) k = 1 + produced (attempts st.events) k) :=
  c26_order (keeps_budget ctx realloc) prog m n c st h

/-- C27 for the code, streamed pipeline. -/
theorem c27_code (prog : List Instr) (m : Mach ρ) (n : Nat) (c : Ctl) (st : SSt (Mach ρ)) (h : srun (env ctx realloc) n (sstart m prog) = .ok (c, st)) :
    (∀ a ∈ attempts st.events, a.it.tries ≤ a.it.budget) ∧
    (c = .failed → ∃ pre a, attempts st.events = pre ++ [a] ∧ a.waits = true ∧ a.it.tries = a.it.budget) ∧
    (∀ pre a post, attempts st.events = pre ++ a :: post → a.waits = true → a.it.tries = a.it.budget → c = .failed ∧ post = []) :=
  c27_streamed (keeps_budget ctx realloc) prog m n c st h

/-- C51 for the code: order in the DAG pipeline. -/
theorem c51_code_order (P : List Instr) (m : Mach ρ) (st0 st : DSt (Mach ρ)) (n : Nat) (b : Bool) (h0 : dstart m P = .ok st0)
    (h : drun (env ctx realloc) n st0 = .ok (b, st)) (i j : Nat) (x y : Instr) (hi : P[i]? = some x) (hj : P[j]? = some y) (hij : i < j) (hc : Instr.canCommute x y = false)
    (l1 l2 : List (Nat × Instr × Nat)) (e : Nat × Instr × Nat) (hs : st.shown = l1 ++ e :: l2) (he : st.run.origin e.1 = j) :
    ∀ f ∈ l2, st.run.origin f.1 ≠ i :=
  c51_order (one_followup ctx realloc) P m st0 st n b h0 h i j x y hi hj hij hc l1 l2 e hs he

/-- C51 for the code: completeness of the DAG pipeline. -/
theorem c51_code_complete (P : List Instr) (m : Mach ρ) (st0 st : DSt (Mach ρ)) (n : Nat) (h0 : dstart m P = .ok st0)
    (h : drun (env ctx realloc) n st0 = .ok (true, st)) :
    (st.run.popped.map st.run.origin).Perm (List.range P.length) ∧ (∀ l ∈ st.run.popped, ∃ e ∈ st.shown, e.1 = l) ∧
    ∀ k, k < P.length → ∃ e ∈ st.shown, st.run.origin e.1 = k :=
  c51_complete (one_followup ctx realloc) P m st0 st n h0 h

end

/-! ### Examples -/

def exProg : List Instr :=
  [{ op := .multi [(7, .X), (8, .X)] false none }, { op := .rotate 7 }, { op := .sq 8 .X false }, { op := .sq 8 .X false }]

def exMach : Outcome (Mach Unit) := do
  let s ← exStart
  .ok ⟨s, (), 1⟩

def view {α β : Type} (o : Outcome α) (f : α → β) : Option β := match o with | .ok a => some (f a) | _ => none

def isUb {α : Type} : Outcome α → Bool
  | .ub => true
  | _ => false

/-- The hypotheses of the theorems without EDPC are met; the run has follow-ups. -/
example : Wave.Spec.Fits exProg ∧ exCtx.router.edpc = false ∧
    view (do let m ← exMach; runWaves (env exCtx (fun _ => false)) 10 20 (start m exProg))
      (fun x => (done x.1, x.1.size, x.2, x.1.log.map (fun e => (e.id, x.1.origin e.id)))) =
    some (true, 7, 4, [(0, 0), (1, 1), (4, 1), (2, 2), (3, 3), (5, 1), (6, 1)]) := by
  refine ⟨?_, rfl, by decide +kernel⟩
  unfold Wave.Spec.Fits; decide

example : view (do let m ← exMach; srun (env exCtx (fun _ => false)) 30 (sstart m exProg)) (fun x => (x.1, shownTags x.2.events, x.2.count)) =
    some (.finished, [0, 1, 1, 1, 1, 2, 3], 4) := by decide +kernel

example : view (do let m ← exMach; let s ← dstart m exProg; drun (env exCtx (fun _ => false)) 30 s) (fun x => (x.1, x.2.shown.map (fun e => (e.1, e.2.2)), x.2.count)) =
    some (true, [(0, 0), (1, 1), (2, 1), (4, 2), (3, 2), (5, 2), (6, 3)], 5) := by decide +kernel

/-- A CNOT routed, compiled and placed under EDPC by `careful`, followed by an instruction that depends on it. -/
example : (∀ i ∈ [laneCnot, { op := .sq 8 .X false }], Plain i) ∧
    view (do let s ← DSlice.init laneLayout [7, 8]; runWaves (careful (laneCtx true) (fun _ => false)) 10 20 (start ⟨s, (), 1⟩ [laneCnot, { op := .sq 8 .X false }]))
      (fun x => (done x.1, x.1.size, x.2, x.1.log.map (fun e => (e.id, x.1.origin e.id)))) = some (true, 2, 3, [(0, 0), (0, 0), (1, 1)]) := by
  refine ⟨?_, by decide +kernel⟩
  intro i hi
  simp only [List.mem_cons, List.not_mem_nil, or_false] at hi
  rcases hi with rfl | rfl
  · exact ⟨rfl, rfl, rfl, rfl⟩
  · trivial

/-- C22, negation for the code with storage growing as in libstdc++: a joint measurement, then a rotation and a Pauli that
depend on it. Notifying the dependents uses a dangling reference. -/
theorem c22_code_dangling : (do let m ← exMach; runWaves (env exCtx powerOfTwo) 10 20 (start m exProg)) = .ub := by
  have h : isUb (do let m ← exMach; runWaves (env exCtx powerOfTwo) 10 20 (start m exProg)) = true := by decide +kernel
  revert h
  generalize (do let m ← exMach; runWaves (env exCtx powerOfTwo) 10 20 (start m exProg)) = o
  cases o <;> simp [isUb]

end Verif.Real.Spec
