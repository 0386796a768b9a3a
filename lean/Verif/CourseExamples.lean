import Verif.CourseProps

/-! # Runs that meet the hypotheses of C68 -/

namespace Verif.Course.Spec

open Verif Apply Verif.Wave Verif.Wave.Spec Verif.Pipe Verif.Pipe.Spec Verif.Real Verif.Slices.Spec Verif.Slicer Verif.Slicer.Spec

/-- The same cells without EDPC. -/
def flatCtx : Ctx Unit := { ringCtx with router := Router.dpRouter ringLayout Router.pickMin false false }

/-- A CNOT in two steps, a rotation in four, an S gate in two and a measurement. -/
def flatProg : List Instr := [ringCnot 0 5 100, { op := .rotate 1 }, { op := .sq 1 .S false }, { op := .measure 5 .X false }]

/-- The kind of a step, and how far it is. -/
def kindOf (i : Instr) : Nat × Nat :=
  match i.op with
  | .bellCnot _ => (0, (performed i.op).length)
  | .rotate t => (1, t)
  | .busy _ k _ => (2, k)
  | .sq _ .S _ => (3, 0)
  | .sq _ _ _ => (4, 0)
  | _ => (5, 0)

theorem flat_plain : ∀ i ∈ flatProg, Plain i := by
  intro i hi
  simp only [flatProg, List.mem_cons, List.mem_nil_iff, or_false] at hi
  rcases hi with rfl | rfl | rfl | rfl <;> simp [Plain, ringCnot]

/-- The hypotheses of `c68_streamed`. -/
example : ∃ (s : DSlice) (st : SSt (Mach Unit)), (∀ i ∈ flatProg, Plain i) ∧ srun (env flatCtx (fun _ => false)) 100 (sstart ⟨s, (), 0⟩ flatProg) = .ok (.finished, st) ∧
    (instrs (st.events.filterMap Ev.obs)).map kindOf = [(0, 3), (0, 4), (1, 1), (2, 2), (2, 1), (2, 0), (3, 0), (4, 0), (5, 0)] := by
  obtain ⟨⟨c, st⟩, h1, h2⟩ := of_view (do
      let s ← DSlice.init ringLayout (List.range 6)
      srun (env flatCtx (fun _ => false)) 100 (sstart ⟨s, (), 0⟩ flatProg))
    (fun x => (x.1, (instrs (x.2.events.filterMap Ev.obs)).map kindOf)) (Ctl.finished, [(0, 3), (0, 4), (1, 1), (2, 2), (2, 1), (2, 0), (3, 0), (4, 0), (5, 0)]) (by decide +kernel)
  obtain ⟨s, -, h4⟩ := Outcome.bind_eq_ok.1 h1
  simp only [Prod.mk.injEq] at h2
  obtain ⟨rfl, h5⟩ := h2
  exact ⟨s, st, flat_plain, h4, h5⟩

/-- The hypotheses of `c68_dag`: the steps of several instructions alternate. -/
example : ∃ (s : DSlice) (st0 st : DSt (Mach Unit)), (∀ i ∈ flatProg, Plain i) ∧ dstart ⟨s, (), 0⟩ flatProg = .ok st0 ∧ drun (env flatCtx (fun _ => false)) 100 st0 = .ok (true, st) ∧
    (instrs st.obs).map kindOf = [(0, 3), (1, 1), (0, 4), (2, 2), (5, 0), (2, 1), (2, 0), (3, 0), (4, 0)] := by
  obtain ⟨⟨c, st⟩, h1, h2⟩ := of_view (do
      let s ← DSlice.init ringLayout (List.range 6)
      let st ← dstart (⟨s, (), 0⟩ : Mach Unit) flatProg
      drun (env flatCtx (fun _ => false)) 100 st)
    (fun x => (x.1, (instrs x.2.obs).map kindOf)) (true, [(0, 3), (1, 1), (0, 4), (2, 2), (5, 0), (2, 1), (2, 0), (3, 0), (4, 0)]) (by decide +kernel)
  obtain ⟨s, -, h4⟩ := Outcome.bind_eq_ok.1 h1
  obtain ⟨st0, h3, h4⟩ := Outcome.bind_eq_ok.1 h4
  simp only [Prod.mk.injEq] at h2
  obtain ⟨rfl, h5⟩ := h2
  exact ⟨s, st0, st, flat_plain, h3, h4, h5⟩

/-- The hypotheses of `c68_wave`. -/
example : ∃ (s : DSlice) (w : WSt (Mach Unit)), (∀ i ∈ flatProg, Plain i) ∧ flatCtx.router.edpc = false ∧ Wave.Spec.Fits flatProg ∧
    wrun (env flatCtx (fun _ => false)) 100 100 ⟨start ⟨s, (), 0⟩ flatProg, 1, [], []⟩ = .ok (true, w) ∧
    (instrs w.obs).map kindOf = [(0, 3), (1, 1), (0, 4), (2, 2), (5, 0), (2, 1), (2, 0), (3, 0), (4, 0)] := by
  obtain ⟨⟨c, w⟩, h1, h2⟩ := of_view (do
      let s ← DSlice.init ringLayout (List.range 6)
      wrun (env flatCtx (fun _ => false)) 100 100 ⟨start ⟨s, (), 0⟩ flatProg, 1, [], []⟩)
    (fun x => (x.1, (instrs x.2.obs).map kindOf)) (true, [(0, 3), (1, 1), (0, 4), (2, 2), (5, 0), (2, 1), (2, 0), (3, 0), (4, 0)]) (by decide +kernel)
  obtain ⟨s, -, h4⟩ := Outcome.bind_eq_ok.1 h1
  simp only [Prod.mk.injEq] at h2
  obtain ⟨rfl, h5⟩ := h2
  exact ⟨s, w, flat_plain, rfl, by intro i hi; revert i; decide, h4, h5⟩

/-- The hypotheses of `c68_edpc_partial`: three crossing CNOTs, one of them with an empty third set. -/
example : ∃ (s : DSlice) (w : WSt (Mach Unit)), (∀ i ∈ ringProg, Plain i) ∧ ringCtx.router.edpc = true ∧ Wave.Spec.Fits ringProg ∧
    wrun (careful ringCtx (fun _ => false)) 100 60 ⟨start ⟨s, (), 0⟩ ringProg, 1, [], []⟩ = .ok (true, w) ∧
    (instrs w.obs).map kindOf = [(0, 1), (0, 3), (0, 0), (0, 0), (0, 3), (0, 0), (0, 1), (0, 1), (0, 1), (0, 2)] := by
  obtain ⟨⟨c, w⟩, h1, h2⟩ := of_view (do
      let s ← DSlice.init ringLayout (List.range 6)
      wrun (careful ringCtx (fun _ => false)) 100 60 ⟨start ⟨s, (), 0⟩ ringProg, 1, [], []⟩)
    (fun x => (x.1, (instrs x.2.obs).map kindOf)) (true, [(0, 1), (0, 3), (0, 0), (0, 0), (0, 3), (0, 0), (0, 1), (0, 1), (0, 1), (0, 2)]) (by decide +kernel)
  obtain ⟨s, -, h4⟩ := Outcome.bind_eq_ok.1 h1
  simp only [Prod.mk.injEq] at h2
  obtain ⟨rfl, h5⟩ := h2
  refine ⟨s, w, ?_, rfl, by intro i hi; revert i; decide, h4, h5⟩
  intro i hi
  simp only [ringProg, List.mem_cons, List.mem_nil_iff, or_false] at hi
  rcases hi with rfl | rfl | rfl <;> simp [Plain, ringCnot]

/-- The hypotheses of `c68_slicer`: six instructions in nine steps. -/
example : ∃ j P r t, program waveArgs exWorld = .ok (.sliced j P r t) ∧ waveArgs.pipeline ≠ some "edpc".toList ∧ r.phase = .finished ∧ P.length = 6 := by
  obtain ⟨j, P, r, t, h, h1, h2, -⟩ := c66_read_wrong
  exact ⟨j, P, r, t, h, by decide, h1, h2⟩

end Verif.Course.Spec
