import Verif.SlicerReport
import Verif.SlicerExamples

/-! # Runs of the program (examples for C66 and C67, from the text of the input) -/

namespace Verif.Slicer.Spec

open Verif Verif.Gates Verif.Stream Verif.Stream.Spec Verif.Layouts Verif.Layouts.Spec Verif.Pipe Verif.Pipe.Spec Verif.Apply Verif.Real.Spec

/-- A rotation by an angle for which a sequence of gates is looked up, and a CNOT in a file; a database with a Hadamard gate and a CNOT in it. -/
def wholeWorld : World :=
  { exWorld with
    files := fun f => if f = "in".toList then some "qreg q[2];\nh q[0];\nrz(pi/16) q[1];\ncx q[0],q[1];\n".toList else none
    approx := fun q _ => .ok [.basic q .H, .basic q .T]
    qubits := 2
    db := fun l => if l = 1 then [⟨8, 0, 0, 0⟩, ⟨18, 0, 1, 1⟩] else [] }

def wholeArgs : Args := { format := some "qasm".toList, input := some "in".toList }
def dbArgs : Args := { format := some "pandora".toList, generator := some "edpc".toList, pipeline := some "dag".toList }

/-- What is looked at. -/
def seenWhole : Outcome Result → Option (Phase × Nat × Nat × Bool × Nat)
  | .ok (.sliced j P r _) => some (r.phase, j.size, (introduced P).length, j.layout.ancilla.isEmpty, P.length)
  | _ => none

theorem seenWhole_sliced {o : Outcome Result} {ph : Phase} {n i l : Nat} {b : Bool} (h : seenWhole o = some (ph, n, i, b, l)) :
    ∃ j P r t, o = .ok (.sliced j P r t) ∧ r.phase = ph ∧ j.size = n ∧ (introduced P).length = i ∧ j.layout.ancilla.isEmpty = b ∧ P.length = l := by
  unfold seenWhole at h
  split at h
  · rename_i j P r t
    simp only [Option.some.injEq, Prod.mk.injEq] at h
    exact ⟨j, P, r, t, rfl, h.1, h.2.1, h.2.2.1, h.2.2.2.1, h.2.2.2.2⟩
  · cases h

theorem ex_whole : seenWhole (program wholeArgs wholeWorld) = some (.finished, 2, 3, false, 15) := by decide +kernel
theorem ex_db : seenWhole (program dbArgs wholeWorld) = some (.finished, 2, 1, true, 6) := by decide +kernel

def wholeGates : List Gate := [.basic 0 .H, .rz 1 ⟨1, 16, false⟩, .ctrl 0 (.basic 1 .X) .controlFirst .nextToControl]

/-- The hypotheses of `c66_qasm`, `c66_lifetimes`, `c66_facing` and `c66_run`. -/
example : ∃ j P r t, program wholeArgs wholeWorld = .ok (.sliced j P r t) ∧ wholeArgs.format = some "qasm".toList ∧ Gives wholeArgs wholeWorld j.layout wholeGates ∧
    KeepsQubit wholeWorld.approx ∧ InRegister j.size wholeGates ∧ DistinctOperands wholeGates ∧ j.size + (introduced P).length + 1 < 2 ^ 32 ∧
    (wholeArgs.layout = none ∧ wholeArgs.generator = none) ∧ r.phase ≠ .failed ∧ P.length = 15 := by
  obtain ⟨j, P, r, t, h, h1, h2, h3, h4, h5⟩ := seenWhole_sliced ex_whole
  refine ⟨j, P, r, t, h, rfl, ⟨.inl rfl, _, .qreg "q".toList 2 :: wholeGates.map .gate, rfl, ?_, by decide +kernel⟩, ?_, ?_, ?_, by rw [h2, h3]; decide, ⟨rfl, rfl⟩, by rw [h1]; decide, h5⟩
  · have hl : Qasm.Spec.textLines (Lli.getlines "qreg q[2];\nh q[0];\nrz(pi/16) q[1];\ncx q[0],q[1];\n".toList) =
        ["qreg q[2];".toList, "h q[0];".toList, "rz(pi/16) q[1];".toList, "cx q[0],q[1];".toList] := by decide +kernel
    have hp : placement wholeWorld j.layout = .nextToControl := by unfold placement; rw [h4]; rfl
    rw [hl, hp]
    refine .other (by decide +kernel) rfl (.gate (by decide +kernel) ?_)
    unfold Qasm.Spec.LinesReadAs
    decide +kernel
  · intro q f l e g hg; cases e; simp only [List.mem_cons, List.not_mem_nil, or_false] at hg; rcases hg with rfl | rfl <;> rfl
  · rw [h2]; unfold InRegister; decide
  · unfold DistinctOperands; decide

def timesOf : Outcome Result → Option (Nat × Bool × List Nat)
  | .ok (.sliced j _ _ _) => some (j.layout.regions.length, j.layout.magicReserved, j.layout.times)
  | _ => none

/-- The hypotheses of `c66_factories`, with a factory and with reserved cells. -/
example : timesOf (program plainArgs exWorld) = some (1, false, [10]) ∧ timesOf (program { edpcArgs with distTime := some 7 } exWorld) = some (0, true, List.replicate 12 7) := by
  constructor <;> decide +kernel

/-- The hypotheses of `c66_pandora` and `c66_run`. -/
example : ∃ j P r t, program dbArgs wholeWorld = .ok (.sliced j P r t) ∧ dbArgs.format = some "pandora".toList ∧ r.phase ≠ .failed ∧ P.length = 6 := by
  obtain ⟨j, P, r, t, h, h1, h2, h3, h4, h5⟩ := seenWhole_sliced ex_db
  exact ⟨j, P, r, t, h, rfl, by rw [h1]; decide, h5⟩

/-! ### C67 -/

def reportArgs (f : String) : Args := { wholeArgs with output := some "out".toList, report := some f.toList }

/-- What is looked at. -/
def counted : Outcome Result → Option (Phase × Nat × Nat × Nat × Nat)
  | .ok (.sliced _ P r _) => some (r.phase, r.read, P.length, r.count, (shown r.obs).length)
  | _ => none

theorem counted_sliced {o : Outcome Result} {ph : Phase} {n i l k : Nat} (h : counted o = some (ph, n, i, l, k)) :
    ∃ j P r t, o = .ok (.sliced j P r t) ∧ r.phase = ph ∧ r.read = n ∧ P.length = i ∧ r.count = l ∧ (shown r.obs).length = k := by
  unfold counted at h
  split at h
  · rename_i j P r t
    simp only [Option.some.injEq, Prod.mk.injEq] at h
    exact ⟨j, P, r, t, rfl, h.1, h.2.1, h.2.2.1, h.2.2.2.1, h.2.2.2.2⟩
  · cases h

theorem ex_progress : counted (program (reportArgs "progress") wholeWorld) = some (.finished, 15, 15, 7, 21) := by decide +kernel
theorem ex_machine : counted (program (reportArgs "machine") wholeWorld) = some (.finished, 15, 15, 7, 21) := by decide +kernel
theorem ex_stats : counted (program (reportArgs "stats") wholeWorld) = some (.finished, 15, 15, 7, 21) := by decide +kernel
theorem ex_nothing : counted (program (reportArgs "noprogres") wholeWorld) = some (.finished, 15, 15, 7, 21) := by decide +kernel
theorem ex_db_counted : counted (program dbArgs wholeWorld) = some (.finished, 9, 6, 8, 7) := by decide +kernel

/-- C67 fails: the streamed pipeline, which is the default, shows 21 slices and reports 7. -/
theorem c67_count_wrong : ∃ j P r t, program (reportArgs "progress") wholeWorld = .ok (.sliced j P r t) ∧ r.phase = .finished ∧ r.count = 7 ∧ (shown r.obs).length = 21 := by
  obtain ⟨j, P, r, t, h, h1, -, -, h2, h3⟩ := counted_sliced ex_progress
  exact ⟨j, P, r, t, h, h1, h2, h3⟩

/-- The hypotheses of `c67_progress` and `c67_count_partial`. -/
example : ∃ j P r t, program (reportArgs "progress") wholeWorld = .ok (.sliced j P r t) ∧ r.phase = .finished ∧ (reportArgs "progress").output ≠ none ∧
    (reportArgs "progress").report = some "progress".toList ∧ (reportArgs "progress").pipeline = none := by
  obtain ⟨j, P, r, t, h, h1, -⟩ := counted_sliced ex_progress
  exact ⟨j, P, r, t, h, h1, by simp [reportArgs], rfl, rfl⟩

/-- The hypotheses of `c67_machine`, `c67_volumes` and `c67_nothing`. -/
example : (∃ j P r t, program (reportArgs "machine") wholeWorld = .ok (.sliced j P r t) ∧ r.phase = .finished) ∧ (reportArgs "machine").report = some "machine".toList ∧
    (∃ j P r t, program (reportArgs "stats") wholeWorld = .ok (.sliced j P r t) ∧ r.phase = .finished) ∧ (reportArgs "stats").report = some "stats".toList ∧
    (∃ j P r t, program (reportArgs "noprogres") wholeWorld = .ok (.sliced j P r t) ∧ r.phase = .finished) ∧ (reportArgs "noprogres").report = some "noprogres".toList := by
  obtain ⟨j, P, r, t, h, h1, -⟩ := counted_sliced ex_machine
  obtain ⟨j', P', r', t', h', h1', -⟩ := counted_sliced ex_stats
  obtain ⟨j'', P'', r'', t'', h'', h1'', -⟩ := counted_sliced ex_nothing
  exact ⟨⟨j, P, r, t, h, h1⟩, rfl, ⟨j', P', r', t', h', h1'⟩, rfl, ⟨j'', P'', r'', t'', h'', h1''⟩, rfl⟩

/-- The hypotheses of `c67_count_more`. -/
example : ∃ j P r t, program dbArgs wholeWorld = .ok (.sliced j P r t) ∧ r.phase = .finished ∧ dbArgs.pipeline = some "dag".toList ∧ r.count = 8 ∧ (shown r.obs).length = 7 := by
  obtain ⟨j, P, r, t, h, h1, -, -, h2, h3⟩ := counted_sliced ex_db_counted
  exact ⟨j, P, r, t, h, h1, rfl, h2, h3⟩

end Verif.Slicer.Spec
