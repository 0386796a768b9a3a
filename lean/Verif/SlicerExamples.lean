import Verif.SlicerRun

/-! # Runs of the program (examples for C65 and C66) -/

namespace Verif.Slicer.Spec

open Verif Verif.Gates Verif.Stream Verif.Stream.Spec Verif.Layouts Verif.Layouts.Spec Verif.Pipe Verif.Pipe.Spec Verif.Apply Verif.Real.Spec

/-- A Hadamard gate and a CNOT on the standard input; a file named `one` with a layout of one qubit cell; assertions are checked; the first slice is late for any timeout. -/
def exWorld : World where
  stdin := "qreg q[2];\nh q[0];\ncx q[0],q[1];\n".toList
  files := fun f => if f = "one".toList then some "Q".toList else none
  qubits := 0
  db := fun _ => []
  dflt := .nextToControl
  approx := fun _ _ => .throws
  pick := Router.pickMin
  boost := none
  asserts := true
  realloc := fun _ => false
  steps := 100
  depth := 100
  late := fun k => k = 0
  tick := fun _ => false
  elapsed := "0.1".toList
  percent := fun _ _ => "?".toList
  message := "Not enough space".toList

/-- The same gates, and everything is in time. -/
def fastWorld : World := { exWorld with late := fun _ => false }

/-- What is looked at. -/
def seen : Outcome Result → Option (Phase × Nat × Nat × Nat × Nat)
  | .ok (.sliced j P r _) => some (r.phase, j.size, (introduced P).length, P.length, (shown r.obs).length)
  | _ => none

theorem seen_sliced {o : Outcome Result} {ph : Phase} {n i l k : Nat} (h : seen o = some (ph, n, i, l, k)) :
    ∃ j P r t, o = .ok (.sliced j P r t) ∧ r.phase = ph ∧ j.size = n ∧ (introduced P).length = i ∧ P.length = l ∧ (shown r.obs).length = k := by
  unfold seen at h
  split at h
  · rename_i j P r t
    simp only [Option.some.injEq, Prod.mk.injEq] at h
    exact ⟨j, P, r, t, rfl, h.1, h.2.1, h.2.2.1, h.2.2.2.1, h.2.2.2.2⟩
  · cases h

def plainArgs : Args := { format := some "qasm".toList }
def fileArgs : Args := { format := some "q".toList, output := some "out.json".toList }
def edpcArgs : Args := { format := some "qasm".toList, output := some "out".toList, printLli := some "sliced".toList, generator := some "edpc".toList, pipeline := some "edpc".toList, loc := true }

def waveArgs : Args := { fileArgs with pipeline := some "wave".toList, generator := some "edpc".toList }
def tightArgs : Args := { format := some "qasm".toList, layout := some "one".toList, graceful := true }

theorem ex_plain : seen (program plainArgs exWorld) = some (.finished, 2, 1, 6, 5) := by decide +kernel
theorem ex_file : seen (program fileArgs exWorld) = some (.finished, 2, 1, 6, 5) := by decide +kernel
theorem ex_edpc : seen (program edpcArgs exWorld) = some (.finished, 2, 2, 3, 5) := by decide +kernel
theorem ex_fast : seen (program fileArgs fastWorld) = some (.finished, 2, 1, 6, 5) := by decide +kernel

/-! ### C65 -/

/-- The hypotheses of `c65_generator`, `c65_refused`, `c65_unsliced` and `c65_report_alone`. -/
example : Odd (some "edpc2".toList) ["compact", "compact_no_clogging", "edpc"] := ⟨_, rfl, by decide⟩
example : (({ pipeline := some "Stream".toList } : Args).layout = none ∧ ({ pipeline := some "Stream".toList } : Args).generator = none) ∧
    Odd ({ pipeline := some "Stream".toList } : Args).pipeline ["stream", "", "dag", "wave", "edpc"] := ⟨⟨rfl, rfl⟩, _, rfl, by decide⟩
example : Odd ({ plainArgs with search := some "dijkstra".toList } : Args).search ["astar", "djikstra", "boost"] := ⟨_, rfl, by decide⟩
example : ({ report := some "stats".toList } : Args).report ≠ none := by decide

/-- What `c65_noprogress` says of a call that is accepted when the name is misspelled. -/
example : program { fileArgs with report := some "noprogress".toList } exWorld = .ok (.stopped .refused) ∧
    seen (program { fileArgs with report := some "noprogres".toList } exWorld) = some (.finished, 2, 1, 6, 5) :=
  ⟨c65_noprogress _ _ ⟨rfl, rfl⟩ rfl, by decide +kernel⟩

/-- The hypotheses of `c65_noslices`, `c65_graceful` and `c65_late`. -/
example : ∃ j P r t, program fileArgs exWorld = .ok (.sliced j P r t) ∧ fileArgs.output ≠ none ∧ r.phase ≠ .failed ∧ 0 < (shown r.obs).length ∧ exWorld.late 0 = true := by
  obtain ⟨j, P, r, t, h, e1, -, -, -, e5⟩ := seen_sliced ex_file
  exact ⟨j, P, r, t, h, by decide, by rw [e1]; decide, by rw [e5]; decide, rfl⟩

/-- The hypotheses of `c65_timeout`. -/
example : ∃ j P r t, program fileArgs fastWorld = .ok (.sliced j P r t) ∧ ∀ k, k < (shown r.obs).length → fastWorld.late k = false := by
  obtain ⟨j, P, r, t, h, -⟩ := seen_sliced ex_fast
  exact ⟨j, P, r, t, h, fun _ _ => rfl⟩

/-- The hypotheses of `c65_report`, for two kinds of report. -/
example : ∃ j P r t j' P' r' t', program { fileArgs with report := some "machine".toList } exWorld = .ok (.sliced j P r t) ∧
    program { fileArgs with report := some "stats".toList } exWorld = .ok (.sliced j' P' r' t') ∧ r.phase ≠ .running := by
  obtain ⟨j, P, r, t, h, e1, -⟩ := seen_sliced (show seen (program { fileArgs with report := some "machine".toList } exWorld) = some (.finished, 2, 1, 6, 5) by decide +kernel)
  obtain ⟨j', P', r', t', h', -⟩ := seen_sliced (show seen (program { fileArgs with report := some "stats".toList } exWorld) = some (.finished, 2, 1, 6, 5) by decide +kernel)
  exact ⟨j, P, r, t, j', P', r', t', h, h', by rw [e1]; decide⟩

/-! ### C66 -/

/-- The hypotheses of `c66_input`, `c66_home`, `c66_ids`, `c66_json`, `c66_some_slice`, `c66_read_partial`, `c66_stdout` and `c66_stats`. -/
example : ∃ j P r t, program plainArgs exWorld = .ok (.sliced j P r t) ∧ plainArgs.search ≠ some "boost".toList ∧ plainArgs.pipeline = none ∧ plainArgs.output = none ∧
    plainArgs.noSlices = false ∧ plainArgs.printLli = none ∧ j.size = 2 ∧ j.size + (introduced P).length ≤ 2 ^ 32 ∧ r.phase = .finished ∧ shown r.obs ≠ [] := by
  obtain ⟨j, P, r, t, h, e1, e2, e3, -, e5⟩ := seen_sliced ex_plain
  exact ⟨j, P, r, t, h, by decide, rfl, rfl, rfl, rfl, e2, by omega, e1, by intro e; rw [e] at e5; cases e5⟩

/-- The hypotheses of `c66_home` and `c66_sliced` are met with edge-disjoint routing. -/
example : ∃ j P r t, program edpcArgs exWorld = .ok (.sliced j P r t) ∧ edpcArgs.search ≠ some "boost".toList ∧ edpcArgs.printLli ≠ none ∧
    j.size = 2 ∧ j.size + (introduced P).length ≤ 2 ^ 32 ∧ r.phase ≠ .running ∧ shown r.obs ≠ [] := by
  obtain ⟨j, P, r, t, h, e1, e2, e3, -, e5⟩ := seen_sliced ex_edpc
  exact ⟨j, P, r, t, h, by decide, by decide, e2, by omega, by rw [e1]; decide, by intro e; rw [e] at e5; cases e5⟩

def readOf : Outcome Result → Option (Phase × Nat × Nat)
  | .ok (.sliced _ P r _) => some (r.phase, P.length, r.read)
  | _ => none

/-- C66 fails for the instructions read in the wave pipeline: what is left of an instruction after a slice is counted again. Six instructions are
reported as nine. -/
theorem c66_read_wrong : ∃ j P r t, program waveArgs exWorld = .ok (.sliced j P r t) ∧ r.phase = .finished ∧ P.length = 6 ∧ r.read = 9 := by
  have h : readOf (program waveArgs exWorld) = some (.finished, 6, 9) := by decide +kernel
  unfold readOf at h
  split at h
  · rename_i j P r t e
    simp only [Option.some.injEq, Prod.mk.injEq] at h
    exact ⟨j, P, r, t, e, h.1, h.2.1, h.2.2⟩
  · cases h

def stdoutOf (a : Args) : Outcome Result → Option (Phase × Str)
  | .ok (.sliced _ _ r t) => some (r.phase, stdout a t)
  | _ => none

/-- C66 fails with `--graceful`: the message about the exception goes where the slices go, so that what arrives is not JSON. -/
theorem c66_graceful_wrong : ∃ j P r t, program tightArgs exWorld = .ok (.sliced j P r t) ∧ tightArgs.output = none ∧ ¬ ∃ x, Json.Spec.Denotes (stdout tightArgs t) x := by
  have h : stdoutOf tightArgs (program tightArgs exWorld) = some (.failed, "Encountered exception: Not enough space\nHalting slicing\n]\n".toList) := by decide +kernel
  unfold stdoutOf at h
  split at h
  · rename_i j P r t e
    simp only [Option.some.injEq, Prod.mk.injEq] at h
    refine ⟨j, P, r, t, e, rfl, ?_⟩
    rw [h.2]
    rintro ⟨x, hx⟩
    have h' : Json.Spec.lex none "Encountered exception: Not enough space\nHalting slicing\n]\n".toList = some (Json.Spec.toks x) := hx
    have h'' : Json.Spec.lex none "Encountered exception: Not enough space\nHalting slicing\n]\n".toList = none := by decide +kernel
    rw [h''] at h'
    cases h'
  · cases h

/-! ### The theorems on compiled programs -/

/-- The hypotheses of `c59_grid` (with `coreQubits 2` for the ids), `c62_compiled`, `c56_compiled` and `c63_compiled`, for a run that shows slices. -/
example : ∃ (ρ : Type) (ctx : Ctx ρ) (rs : ρ) (s : DSlice) (A B : List (Obs (Mach ρ))) (m : Mach ρ) (k : Loop) (P : List Instr) (g : Grid) (o : Options),
    Compiled.Spec.Usual ctx rs ∧ fromGrid g o = .ok ctx.layout ∧ Compiled.Spec.Made 2 P ∧ DSlice.init ctx.layout (coreQubits 2) = .ok s ∧ ctx.router.edpc = false ∧
      Account (Real.env ctx exWorld.realloc) P ⟨s, rs, 1⟩ k (A ++ .slice m :: B) := by
  obtain ⟨j, P, r, t, h, e1, e2, e3, -, e5⟩ := seen_sliced ex_plain
  obtain ⟨h1, h2, h3, -⟩ := program_sliced h
  have hp := prepared h1
  obtain ⟨g, hg⟩ := hp.grid
  rcases ran_traced h3 with e | ⟨ρ, ctx, rs, s, A, hT⟩
  · rw [e] at e5; cases e5
  have hne : slices A ≠ [] := by intro e; rw [hT.obs, shown_bare, e] at e5; cases e5
  obtain ⟨m, hm⟩ := List.exists_mem_of_ne_nil _ hne
  obtain ⟨y, hy, e⟩ := List.mem_filterMap.1 hm
  cases y with
  | instr i => cases e
  | slice y =>
    cases e
    obtain ⟨A1, A2, e⟩ := List.append_of_mem hy
    have hm : Compiled.Spec.Made j.size P := ⟨hp.program P h2, hp.size, by omega⟩
    have hf := hT.first
    rw [e2] at hm hf
    exact ⟨ρ, ctx, rs, s, A1, A2, m, _, P, g, _, hT.usual, by rw [hT.layout]; exact hg, hm, by rw [hT.layout]; exact hf,
      hT.shared ((asked h1).shared (by decide)), e ▸ hT.account⟩

end Verif.Slicer.Spec
