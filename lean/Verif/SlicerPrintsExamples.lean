import Verif.SlicerPrints
import Verif.SlicerExamples

/-! # Listings and graphs printed (examples for C72, and where it fails) -/

namespace Verif.Slicer.Spec

open Verif Verif.Gates

/-- The hypothesis of `c72_same`. -/
example : ∃ j P r t, program plainArgs exWorld = .ok (.sliced j P r t) ∧ P.length = 6 := by
  obtain ⟨j, P, r, t, h, -, -, -, h1, -⟩ := seen_sliced ex_plain
  exact ⟨j, P, r, t, h, h1⟩

def listArgs : Args := { plainArgs with printLli := some "before".toList }
def drawArgs : Args := { plainArgs with printDag := some "processedlli".toList }
def gatesArgs : Args := { plainArgs with printDag := some [] }

/-- The hypotheses of `c72_listing`. -/
theorem ex_list : program listArgs exWorld = .ok (.stopped (.listing
    "HGate 0\nInit 2 |+> 0:Z\nRotateSingleCellPatch 0\nMultiBodyMeasure 0:Z,2:Z\nMultiBodyMeasure 2:X,1:X\nMeasureSinglePatch 2 X\n".toList)) := by
  have h : (match program listArgs exWorld with | .ok (.stopped s) => some s | _ => none) = some (.listing
    "HGate 0\nInit 2 |+> 0:Z\nRotateSingleCellPatch 0\nMultiBodyMeasure 0:Z,2:Z\nMultiBodyMeasure 2:X,1:X\nMeasureSinglePatch 2 X\n".toList) := by decide +kernel
  split at h
  · rename_i e
    rw [e]
    injection h with h
    rw [h]
  · cases h

example : listArgs.format = some "qasm".toList := rfl

/-- Whether a graph is printed. -/
def graphOf : Outcome Result → Option Str
  | .ok (.stopped (.graph t)) => some t
  | _ => none

theorem graphOf_some {o : Outcome Result} {t : Str} (h : graphOf o = some t) : o = .ok (.stopped (.graph t)) := by
  unfold graphOf at h
  split at h
  · cases h; rfl
  · cases h

/-- The hypotheses of `c72_graph`, in both cases. -/
example : (∃ t, program drawArgs exWorld = .ok (.stopped (.graph t)) ∧ (Dag.Spec.readGraph t).map List.length = some 17) ∧
    ∃ t, program gatesArgs exWorld = .ok (.stopped (.graph t)) ∧
      Dag.Spec.readGraph t = some [.node 0 (some "h q[0];".toList), .node 1 (some "cx q[0],q[1];".toList), .arrow 0 1] := by
  constructor
  · have h : ((graphOf (program drawArgs exWorld)).bind Dag.Spec.readGraph).map List.length = some 17 := by decide +kernel
    cases e : graphOf (program drawArgs exWorld) with
    | none => rw [e] at h; cases h
    | some t => rw [e] at h; exact ⟨t, graphOf_some e, h⟩
  · have h : (graphOf (program gatesArgs exWorld)).bind Dag.Spec.readGraph = some [.node 0 (some "h q[0];".toList), .node 1 (some "cx q[0],q[1];".toList), .arrow 0 1] := by decide +kernel
    cases e : graphOf (program gatesArgs exWorld) with
    | none => rw [e] at h; cases h
    | some t => rw [e] at h; exact ⟨t, graphOf_some e, h⟩

/-- A Hadamard gate and a reset. -/
def resetWorld : World := { exWorld with stdin := "qreg q[2];\nh q[0];\nreset q[1];\n".toList }

def thrown {α : Type} : Outcome α → Bool
  | .throws => true
  | _ => false

/-- C72 fails for the graph of the input: a program with a reset is sliced to its end, but when its graph is asked for, an exception is thrown. -/
theorem c72_reset : ∃ j P r t, program plainArgs resetWorld = .ok (.sliced j P r t) ∧ r.phase = .finished ∧ program gatesArgs resetWorld = .throws := by
  have h1 : seen (program plainArgs resetWorld) = some (.finished, 2, 0, 2, 1) := by decide +kernel
  have h2 : thrown (program gatesArgs resetWorld) = true := by decide +kernel
  obtain ⟨j, P, r, t, h, hr, -⟩ := seen_sliced h1
  refine ⟨j, P, r, t, h, hr, ?_⟩
  unfold thrown at h2
  split at h2
  · assumption
  · cases h2

/-- C72 fails for the graph of the instructions: a node does not show next to what a patch is to be made, though the listing does. -/
theorem c72_place_unseen : ∃ L s, program listArgs exWorld = .ok (.stopped (.listing L)) ∧ (pieces '\n' L)[1]? = some "Init 2 |+> 0:Z".toList ∧
    program drawArgs exWorld = .ok (.stopped (.graph s)) ∧ ∃ l, Dag.Spec.readGraph s = some l ∧ l[1]? = some (.node 1 (some "Init 2 |+>".toList)) := by
  have h : ((graphOf (program drawArgs exWorld)).bind Dag.Spec.readGraph).bind (·[1]?) = some (.node 1 (some "Init 2 |+>".toList)) := by decide +kernel
  cases e : graphOf (program drawArgs exWorld) with
  | none => rw [e] at h; cases h
  | some t =>
    rw [e] at h
    cases e2 : Dag.Spec.readGraph t with
    | none => simp [e2] at h
    | some l =>
      simp only [Option.bind_some, e2] at h
      exact ⟨_, t, ex_list, by decide +kernel, graphOf_some e, l, e2, h⟩

end Verif.Slicer.Spec
