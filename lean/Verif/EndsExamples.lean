import Verif.EndsForever
import Verif.CourseExamples
import Verif.SlicerWholeExamples

/-! # Runs that meet the hypotheses of C69 -/

namespace Verif.Ends.Spec

open Verif Apply Verif.Wave Verif.Wave.Spec Verif.Pipe Verif.Pipe.Spec Verif.Real Verif.Slices.Spec Verif.Course.Spec Verif.Slicer Verif.Slicer.Spec Verif.Gates

/-- A rotation, an S gate and a measurement. -/
def briefProg : List Instr := [{ op := .rotate 1 }, { op := .sq 1 .S false }, { op := .measure 5 .X false }]

theorem brief_easy : ∀ i ∈ briefProg, Plain i ∧ Brief i := by
  intro i hi
  simp only [briefProg, List.mem_cons, List.mem_nil_iff, or_false] at hi
  rcases hi with rfl | rfl | rfl <;> simp [Plain, Brief]

/-- The hypotheses of `c69_streamed_waits`: three rounds, the last of them in the middle of the rotation. -/
example : ∃ (s : DSlice) (st : SSt (Mach Unit)), flatCtx.router.edpc = false ∧ srun (env flatCtx (fun _ => false)) 3 (sstart ⟨s, (), 0⟩ briefProg) = .ok (.go, st) ∧ (instrs (st.events.filterMap Ev.obs)).length = 3 := by
  obtain ⟨⟨c, st⟩, h1, h2⟩ := of_view (do
      let s ← DSlice.init ringLayout (List.range 6)
      srun (env flatCtx (fun _ => false)) 3 (sstart ⟨s, (), 0⟩ briefProg))
    (fun x => (x.1, (instrs (x.2.events.filterMap Ev.obs)).length)) (Ctl.go, 3) (by decide +kernel)
  obtain ⟨s, -, h4⟩ := Outcome.bind_eq_ok.1 h1
  simp only [Prod.mk.injEq] at h2
  obtain ⟨rfl, h5⟩ := h2
  exact ⟨s, st, rfl, h4, h5⟩

/-- The hypotheses of `c69_streamed_partial`, for every number of rounds from 20 on. -/
example (n : Nat) (hn : 20 ≤ n) : ∃ (s : DSlice) (st : SSt (Mach Unit)), (∀ i ∈ briefProg, Plain i ∧ Brief i) ∧ flatCtx.router.edpc = false ∧
    srun (env flatCtx (fun _ => false)) n (sstart ⟨s, (), 0⟩ briefProg) = .ok (.finished, st) := by
  obtain ⟨⟨c, st⟩, h1, h2⟩ := of_view (do
      let s ← DSlice.init ringLayout (List.range 6)
      srun (env flatCtx (fun _ => false)) 20 (sstart ⟨s, (), 0⟩ briefProg))
    (fun x => x.1) Ctl.finished (by decide +kernel)
  obtain ⟨s, -, h4⟩ := Outcome.bind_eq_ok.1 h1
  simp only at h2
  subst h2
  exact ⟨s, st, brief_easy, rfl, srun_more hn h4 (by simp)⟩

/-- The hypotheses of `c69_dag_waits`. -/
example : ∃ (s : DSlice) (st0 st : DSt (Mach Unit)), dstart ⟨s, (), 0⟩ briefProg = .ok st0 ∧ drun (env flatCtx (fun _ => false)) 3 st0 = .ok (false, st) ∧ (instrs st.obs).length = 6 := by
  obtain ⟨⟨c, st⟩, h1, h2⟩ := of_view (do
      let s ← DSlice.init ringLayout (List.range 6)
      let st ← dstart (⟨s, (), 0⟩ : Mach Unit) briefProg
      drun (env flatCtx (fun _ => false)) 3 st)
    (fun x => (x.1, (instrs x.2.obs).length)) (false, 6) (by decide +kernel)
  obtain ⟨s, -, h4⟩ := Outcome.bind_eq_ok.1 h1
  obtain ⟨st0, h3, h4⟩ := Outcome.bind_eq_ok.1 h4
  simp only [Prod.mk.injEq] at h2
  obtain ⟨rfl, h5⟩ := h2
  exact ⟨s, st0, st, h3, h4, h5⟩

/-- The hypotheses of `c69_dag_partial`. -/
example (n : Nat) (hn : 20 ≤ n) : ∃ (s : DSlice) (st0 st : DSt (Mach Unit)), (∀ i ∈ briefProg, Plain i ∧ Brief i) ∧ dstart ⟨s, (), 0⟩ briefProg = .ok st0 ∧
    drun (env flatCtx (fun _ => false)) n st0 = .ok (true, st) := by
  obtain ⟨⟨c, st⟩, h1, h2⟩ := of_view (do
      let s ← DSlice.init ringLayout (List.range 6)
      let st ← dstart (⟨s, (), 0⟩ : Mach Unit) briefProg
      drun (env flatCtx (fun _ => false)) 20 st)
    (fun x => x.1) true (by decide +kernel)
  obtain ⟨s, -, h4⟩ := Outcome.bind_eq_ok.1 h1
  obtain ⟨st0, h3, h4⟩ := Outcome.bind_eq_ok.1 h4
  simp only at h2
  subst h2
  exact ⟨s, st0, st, brief_easy, h3, drun_more hn h4⟩

/-- The hypotheses of `c69_wave_waits`. -/
example : ∃ (s : DSlice) (w : WSt (Mach Unit)), flatCtx.router.edpc = false ∧ wrun (env flatCtx (fun _ => false)) 100 3 ⟨start ⟨s, (), 0⟩ briefProg, 1, [], []⟩ = .ok (false, w) ∧ (instrs w.obs).length = 4 := by
  obtain ⟨⟨c, w⟩, h1, h2⟩ := of_view (do
      let s ← DSlice.init ringLayout (List.range 6)
      wrun (env flatCtx (fun _ => false)) 100 3 ⟨start ⟨s, (), 0⟩ briefProg, 1, [], []⟩)
    (fun x => (x.1, (instrs x.2.obs).length)) (false, 4) (by decide +kernel)
  obtain ⟨s, -, h4⟩ := Outcome.bind_eq_ok.1 h1
  simp only [Prod.mk.injEq] at h2
  obtain ⟨rfl, h5⟩ := h2
  exact ⟨s, w, rfl, h4, h5⟩

/-- The hypotheses of `c69_wave_partial`. -/
example (n : Nat) (hn : 20 ≤ n) : ∃ (s : DSlice) (w : WSt (Mach Unit)), (∀ i ∈ briefProg, Plain i ∧ Brief i) ∧ flatCtx.router.edpc = false ∧ Wave.Spec.Fits briefProg ∧
    wrun (env flatCtx (fun _ => false)) 100 n ⟨start ⟨s, (), 0⟩ briefProg, 1, [], []⟩ = .ok (true, w) := by
  obtain ⟨⟨c, w⟩, h1, h2⟩ := of_view (do
      let s ← DSlice.init ringLayout (List.range 6)
      wrun (env flatCtx (fun _ => false)) 100 20 ⟨start ⟨s, (), 0⟩ briefProg, 1, [], []⟩)
    (fun x => x.1) true (by decide +kernel)
  obtain ⟨s, -, h4⟩ := Outcome.bind_eq_ok.1 h1
  simp only at h2
  subst h2
  exact ⟨s, w, brief_easy, rfl, by intro i hi; revert i; decide, wrun_more hn h4⟩

/-- The hypotheses of `c69_steps`, `c69_slicer_partial` and `c69_qasm`: with so many steps the program ends. -/
example (n : Nat) (hn : 2 ^ 80 ≤ n) : ∃ j P r t, program wholeArgs { wholeWorld with steps := n } = .ok (.sliced j P r t) ∧ Gives wholeArgs { wholeWorld with steps := n } j.layout wholeGates ∧
    KeepsQubit wholeWorld.approx ∧ (∀ g ∈ wholeGates, ¬ OnBells g) ∧ wholeArgs.loc = false ∧ wholeArgs.pipeline ≠ some "edpc".toList ∧ 5 * P.length * 2 ^ 64 < n ∧ r.phase = .finished := by
  obtain ⟨j, P, r, t, h, h1, h2, h3, h4, h5⟩ := seenWhole_sliced ex_whole
  refine ⟨j, P, r, t, c69_steps h (by rw [h1]; simp) (by rw [show wholeWorld.steps = 100 from rfl]; omega), ⟨.inl rfl, _, .qreg "q".toList 2 :: wholeGates.map .gate, rfl, ?_, by decide +kernel⟩, ?_, ?_, rfl, by decide,
    by rw [h5]; omega, h1⟩
  · have hl : Qasm.Spec.textLines (Lli.getlines "qreg q[2];\nh q[0];\nrz(pi/16) q[1];\ncx q[0],q[1];\n".toList) =
        ["qreg q[2];".toList, "h q[0];".toList, "rz(pi/16) q[1];".toList, "cx q[0],q[1];".toList] := by decide +kernel
    have hp : placement { wholeWorld with steps := n } j.layout = .nextToControl := by unfold placement; rw [h4]; rfl
    rw [hl, hp]
    change ReadAs Placement.nextToControl _ _ _
    refine .other (by decide +kernel) rfl (.gate (by decide +kernel) ?_)
    unfold Qasm.Spec.LinesReadAs
    decide +kernel
  · intro q f l e g hg; cases e; simp only [List.mem_cons, List.not_mem_nil, or_false] at hg; rcases hg with rfl | rfl <;> rfl
  · intro g hg
    simp only [wholeGates, List.mem_cons, List.mem_nil_iff, or_false] at hg
    rcases hg with rfl | rfl | rfl <;> simp [OnBells]

/-- The hypotheses of `c69_slicer_waits`. -/
example : ∃ j P r t, program hangArgs (hangWorld 4) = .ok (.sliced j P r t) ∧ hangArgs.pipeline ≠ some "edpc".toList ∧ r.phase = .running := by
  obtain ⟨j, P, r, t, h1, h2, -⟩ := c69_forever 4 (Nat.le_refl _)
  exact ⟨j, P, r, t, h1, by decide, h2⟩

end Verif.Ends.Spec
