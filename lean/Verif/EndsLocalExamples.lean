import Verif.EndsLocal
import Verif.EndsExamples

/-! # Runs with Bell pairs that meet the hypotheses of C69 -/

namespace Verif.Ends.Spec

open Verif Apply Verif.Wave Verif.Wave.Spec Verif.Pipe Verif.Pipe.Spec Verif.Real Verif.Slices.Spec Verif.Course.Spec Verif.Slicer Verif.Slicer.Spec Verif.Gates

theorem flat_apart : ∀ i ∈ flatProg, Plain i ∧ Spec.Apart i := by
  refine fun i hi => ⟨flat_plain i hi, ?_⟩
  simp only [flatProg, List.mem_cons, List.mem_nil_iff, or_false] at hi
  rcases hi with rfl | rfl | rfl | rfl <;> simp [Spec.Apart, ringCnot]

/-- The hypotheses of `c69_streamed_cnots` and `clear_dp`, for every number of rounds from 100 on. -/
example (n : Nat) (hn : 100 ≤ n) : ∃ (s : DSlice) (st : SSt (Mach Unit)), (∀ i ∈ flatProg, Plain i ∧ Spec.Apart i) ∧ Clear flatCtx.router s.rows s.cols ∧
    srun (env flatCtx (fun _ => false)) n (sstart ⟨s, (), 0⟩ flatProg) = .ok (.finished, st) := by
  obtain ⟨⟨c, st⟩, h1, h2⟩ := of_view (do
      let s ← DSlice.init ringLayout (List.range 6)
      srun (env flatCtx (fun _ => false)) 100 (sstart ⟨s, (), 0⟩ flatProg))
    (fun x => x.1) Ctl.finished (by decide +kernel)
  obtain ⟨s, h3, h4⟩ := Outcome.bind_eq_ok.1 h1
  simp only at h2
  subst h2
  exact ⟨s, st, flat_apart, clear_init h3, srun_more hn h4 (by simp)⟩

/-- The hypotheses of `c69_cnot_twice`: the first attempt leaves something to be done, the second does it. -/
example : ∃ (s : DSlice) (r r' : Res (Mach Unit)) (m' : Mach Unit) (f : Instr), Plain (ringCnot 0 5 100) ∧ Clear flatCtx.router s.rows s.cols ∧ Apply.apply flatCtx ⟨s, (), 0⟩ (ringCnot 0 5 100) = .ok r ∧
    f ∈ r.followups ∧ Apply.step flatCtx r.slice = .ok m' ∧ Apply.apply flatCtx m' f = .ok r' ∧ r'.err = false ∧ r'.followups = [] := by
  obtain ⟨⟨r, f, m', r'⟩, h1, h2⟩ := of_view (do
      let s ← DSlice.init ringLayout (List.range 6)
      let r ← Apply.apply flatCtx ⟨s, (), 0⟩ (ringCnot 0 5 100)
      let f ← (match r.followups with | f :: _ => .ok f | [] => .throws : Outcome Instr)
      let m' ← Apply.step flatCtx r.slice
      let r' ← Apply.apply flatCtx m' f
      .ok (r, f, m', r'))
    (fun x => (x.2.2.2.err, x.2.2.2.followups.length)) (false, 0) (by decide +kernel)
  obtain ⟨s, h3, h4⟩ := Outcome.bind_eq_ok.1 h1
  obtain ⟨r0, h5, h4⟩ := Outcome.bind_eq_ok.1 h4
  obtain ⟨f0, h6, h4⟩ := Outcome.bind_eq_ok.1 h4
  obtain ⟨m0, h7, h4⟩ := Outcome.bind_eq_ok.1 h4
  obtain ⟨r1, h8, h4⟩ := Outcome.bind_eq_ok.1 h4
  cases h4
  simp only [Prod.mk.injEq] at h2
  refine ⟨s, r, r', m', f, flat_plain _ (by simp [flatProg]), clear_init h3, h5, ?_, h7, h8, h2.1, List.length_eq_zero_iff.1 h2.2⟩
  cases e : r.followups with
  | nil => rw [e] at h6; cases h6
  | cons g l => rw [e] at h6; cases h6; simp

theorem ex_local : seenWhole (program { wholeArgs with loc := true } wholeWorld) = some (.finished, 2, 6, false, 12) := by decide +kernel

/-- The hypotheses of `c69_local` and `c69_slicer_local_partial`, with local instructions, an angle looked up and a CNOT. -/
example (n : Nat) (hn : 2 ^ 80 ≤ n) : ∃ j P r t, program { wholeArgs with loc := true } { wholeWorld with steps := n } = .ok (.sliced j P r t) ∧
    Gives { wholeArgs with loc := true } { wholeWorld with steps := n } j.layout wholeGates ∧ KeepsQubit wholeWorld.approx ∧ Stream.Spec.InRegister j.size wholeGates ∧ Stream.Spec.DistinctOperands wholeGates ∧
    j.size + (Stream.Spec.introduced P).length < 2 ^ 32 ∧ loopOf { wholeArgs with loc := true } = .streamed ∧ (∀ i ∈ P, Spec.Apart i) ∧ 5 * P.length * 2 ^ 64 < n ∧ r.phase = .finished := by
  obtain ⟨j, P, r, t, h, h1, h2, h3, h4, h5⟩ := seenWhole_sliced ex_local
  have hg : Gives { wholeArgs with loc := true } { wholeWorld with steps := n } j.layout wholeGates := by
    refine ⟨.inl rfl, _, .qreg "q".toList 2 :: wholeGates.map .gate, rfl, ?_, by decide +kernel⟩
    have hl : Qasm.Spec.textLines (Lli.getlines "qreg q[2];\nh q[0];\nrz(pi/16) q[1];\ncx q[0],q[1];\n".toList) =
        ["qreg q[2];".toList, "h q[0];".toList, "rz(pi/16) q[1];".toList, "cx q[0],q[1];".toList] := by decide +kernel
    have hp : placement { wholeWorld with steps := n } j.layout = .nextToControl := by unfold placement; rw [h4]; rfl
    rw [hl, hp]
    change ReadAs Placement.nextToControl _ _ _
    refine .other (by decide +kernel) rfl (.gate (by decide +kernel) ?_)
    unfold Qasm.Spec.LinesReadAs
    decide +kernel
  have hk : KeepsQubit wholeWorld.approx := by
    intro q f l e g hg; cases e; simp only [List.mem_cons, List.not_mem_nil, or_false] at hg; rcases hg with rfl | rfl <;> rfl
  have hr : Stream.Spec.InRegister j.size wholeGates := by rw [h2]; unfold Stream.Spec.InRegister; decide
  have hd : Stream.Spec.DistinctOperands wholeGates := by unfold Stream.Spec.DistinctOperands; decide
  have hf : j.size + (Stream.Spec.introduced P).length < 2 ^ 32 := by rw [h2, h3]; decide
  have hmore := c69_steps h (by rw [h1]; simp) (by rw [show wholeWorld.steps = 100 from rfl]; omega : wholeWorld.steps ≤ n)
  refine ⟨j, P, r, t, hmore, hg, hk, hr, hd, hf, by decide, ?_, by rw [h5]; omega, h1⟩
  obtain ⟨hfm, text', rs', t1, t2, t3⟩ := hg
  obtain ⟨text, rs, reg, ls, ex, e1, e2, -, e4, e5, e6⟩ := c66_qasm hmore hfm
  rw [e1] at t1
  cases t1
  rw [← readAs_unique e2 t2] at t3
  rw [t3] at e4
  exact apart_compiled (compiledBy_compiles e6) (program_register hk e4 hr) (program_distinct hk e4 hd) hf

end Verif.Ends.Spec
