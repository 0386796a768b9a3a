import Verif.EndsSlicer
import Verif.SlicerExamples

/-! # A run of the slicer that does not end (C69) -/

namespace Verif.Slicer

open Verif Verif.Gates Verif.Stream Verif.Wave Verif.Pipe Verif.Pipe.Spec Verif.Apply Verif.Ends Verif.Ends.Spec

/-! ## Checking that an instruction is blocked -/

def inTheWay? (s : DSlice) (c : Cell) : Bool :=
  match s.cells c with
  | some p => (p.type == .qubit || p.type == .preparedState) && p.activity == .none
  | none => false

def idle? (s : DSlice) (id : Nat) : Bool :=
  match s.cellById id with
  | some c => match s.cells c with
    | some p => p.type == .qubit && !p.isActive
    | none => false
  | none => false

def blocked? (s : DSlice) (i : Instr) : Bool :=
  match i.op with
  | .bellCnot c => idle? s c.control && idle? s c.target && match c.counterPairs, c.localSets with
    | some ((_, k) :: _), some (locals :: _) => match locals[k]? with
      | some o => (fresh o ++ source o).all s.inRange && (fresh o).any (inTheWay? s)
      | none => false
    | _, _ => false
  | _ => false

def fits? (L : Layout) (s : DSlice) : Bool :=
  s.times.length == L.times.length && !L.magicReserved && decide (L.times.length ≤ L.distilled.length) && L.distilled.all fun cs => cs.all s.inRange

theorem inTheWay_of {s : DSlice} {c : Cell} (h : inTheWay? s c = true) : InTheWay s c := by
  unfold inTheWay? at h
  split at h
  · rename_i p hp
    simp only [Bool.and_eq_true, Bool.or_eq_true, beq_iff_eq] at h
    exact ⟨p, hp, h.1, h.2⟩
  · cases h

theorem idle_of {s : DSlice} {id : Nat} (h : idle? s id = true) : Idle s id := by
  unfold idle? at h
  split at h
  · rename_i c hc
    split at h
    · rename_i p hp
      simp only [Bool.and_eq_true, beq_iff_eq, Bool.not_eq_true'] at h
      exact ⟨c, p, hc, hp, h.1, h.2⟩
    · cases h
  · cases h

theorem blocked_of {s : DSlice} {i : Instr} (h : blocked? s i = true) : Blocked s i := by
  unfold blocked? at h
  split at h
  · rename_i c hc
    simp only [Bool.and_eq_true] at h
    obtain ⟨⟨h1, h2⟩, h3⟩ := h
    split at h3
    · rename_i f k ps locals sets g1 g2
      split at h3
      · rename_i o g3
        simp only [Bool.and_eq_true, List.all_eq_true, List.any_eq_true] at h3
        obtain ⟨h3, x, h4, h5⟩ := h3
        exact ⟨c, f, k, ps, locals, sets, o, hc, idle_of h1, idle_of h2, g1, g2, g3, h3, x, h4, inTheWay_of h5⟩
      · cases h3
    · cases h3
  · cases h

theorem fits_of {L : Layout} {s : DSlice} (h : fits? L s = true) : Slices.Spec.Fits L s := by
  unfold fits? at h
  simp only [Bool.and_eq_true, beq_iff_eq, Bool.not_eq_true', decide_eq_true_eq] at h
  obtain ⟨⟨⟨h1, h2⟩, h3⟩, h4⟩ := h
  refine ⟨h1, fun e => (by rw [h2] at e; cases e), fun _ => ⟨h3, fun cs hcs c hc => ?_⟩⟩
  exact List.all_eq_true.1 (List.all_eq_true.1 h4 cs hcs) c hc

/-! ## Two CNOTs over a stored route -/

/-- Two CNOT gates. -/
def hangText : Str := "qreg q[2];\ncx q[0],q[1];\ncx q[0],q[1];\n".toList

/-- Two qubits, a row for routing, and a factory. -/
def hangLayout : Str := "QrQ\nrrr\n111".toList

def hangWorld (n : Nat) : World := { Spec.exWorld with steps := n, stdin := hangText, files := fun _ => some hangLayout }

/-- The options `-l lay -f qasm --local --router graph_search_cached --disttime 2 --noslices`. -/
def hangArgs : Args :=
  { format := some "qasm".toList, layout := some "lay".toList, loc := true, router := some "graph_search_cached".toList, distTime := some 2, noSlices := true }

/-- After `k` rounds the second CNOT is blocked. -/
def hangs (k : Nat) (w : World) : Act Job → Bool
  | .ok (.goes j) => match j.program with
    | .ok (P, true) => j.pipeline == .stream && j.cached && j.provider == .djikstra && j.loc && j.lli == .none && match DSlice.init j.layout (coreQubits j.size) with
      | .ok s => match srun (Real.env (j.ctx w (Router.cachedRouter j.layout w.pick false)) w.realloc) k (sstart ⟨s, fun _ => none, 1⟩ P) with
        | .ok (.go, st) => match st.future with
          | [it] => blocked? st.slice.slice it.instr && fits? j.layout st.slice.slice && st.read == P.length
          | _ => false
        | _ => false
      | _ => false
    | _ => false
  | _ => false

theorem quiet {a : Args} {w : World} {j : Job} (hp : prints a j = false) (hl : j.lli = .none) : ∀ (l : List (Obs DSlice)) (k : Nat), ∃ t, visitAll a w j k l = .ok t
  | [], _ => ⟨[], rfl⟩
  | .instr i :: l, k => by
    obtain ⟨t, ht⟩ := quiet (w := w) hp hl l k
    refine ⟨[] ++ t, ?_⟩
    unfold visitAll visit
    rw [hl]
    simp only [reduceCtorEq, if_false]
    rw [Outcome.bind_ok, ht]
    rfl
  | .slice s :: l, k => by
    obtain ⟨t, ht⟩ := quiet (w := w) hp hl l (k + 1)
    refine ⟨[] ++ progressLine w j k ++ lineEnd j ++ t, ?_⟩
    unfold visitAll visit drawing
    rw [hp]
    simp only [Bool.false_eq_true, if_false]
    rw [Outcome.bind_ok, Outcome.bind_ok, ht]
    rfl

theorem hangs_now : hangs 4 (hangWorld 4) (prepare hangArgs (hangWorld 4)) = true := by decide +kernel

namespace Spec

/-- C69 is false with `--local` and stored routes: the slicer program started with these options on the layout above and on a file with two CNOT gates does not come to an end. However many steps are followed,
it is still running, has shown one more slice in each step from the fourth on, and has nothing left to read. -/
theorem c69_forever (n : Nat) (hn : 4 ≤ n) : ∃ j P r t, program hangArgs { hangWorld 4 with steps := n } = .ok (.sliced j P r t) ∧ r.phase = .running ∧ r.read = P.length ∧ n ≤ r.count + 4 := by
  have h := hangs_now
  unfold hangs at h
  split at h
  · rename_i j hj
    split at h
    · rename_i P hP
      simp only [Bool.and_eq_true, beq_iff_eq] at h
      obtain ⟨⟨⟨⟨⟨h1, h2⟩, h3⟩, h4⟩, h5⟩, h⟩ := h
      split at h
      · rename_i s hs
        split at h
        · rename_i st hst
          split at h
          · rename_i it hit
            simp only [Bool.and_eq_true] at h
            obtain ⟨⟨g1, g2⟩, g3⟩ := h
            rw [beq_iff_eq] at g3
            obtain ⟨st', e1, -, -, e3, e4⟩ := c69_blocked (ctx := j.ctx (hangWorld 4) (Router.cachedRouter j.layout (hangWorld 4).pick false)) (realloc := (hangWorld 4).realloc) rfl h4 (n - 4) hit
              (blocked_of g1) (fits_of g2)
            have hrun := srun_add (n - 4) hst
            rw [e1, show 4 + (n - 4) = n by omega] at hrun
            have hprep := prepare_same (w := hangWorld 4) hn hj hP
            have hpipe : slice ((hangWorld 4).to n) j P = .ok (some ⟨bare (st'.events.filterMap Ev.obs), st'.read, st'.count, .running⟩) := by
              unfold slice
              rw [h1, if_neg (by simp), h2, h3]
              dsimp only
              unfold pipeline
              rw [show (j.ctx ((hangWorld 4).to n) (Router.cachedRouter j.layout ((hangWorld 4).to n).pick (Provider.djikstra == Provider.astar))).layout = j.layout from rfl, hs, Outcome.bind_ok]
              dsimp only
              rw [show ((hangWorld 4).to n).steps = n from rfl]
              have : srun (Real.env (j.ctx ((hangWorld 4).to n) (Router.cachedRouter j.layout ((hangWorld 4).to n).pick (Provider.djikstra == Provider.astar))) ((hangWorld 4).to n).realloc) n
                  (sstart ⟨s, fun _ => none, 1⟩ P) = .ok (.go, st') := hrun
              rw [this]
              rfl
            have hran : ran hangArgs ((hangWorld 4).to n) j P = .ok (some ⟨bare (st'.events.filterMap Ev.obs), st'.read, st'.count, .running⟩) := by
              unfold ran
              rw [hpipe]
            obtain ⟨t, ht⟩ := quiet (a := hangArgs) (w := (hangWorld 4).to n) (j := j) (by unfold prints; rfl) h5 (bare (st'.events.filterMap Ev.obs)) 0
            refine ⟨j, P, _, t, sliced_of (w := (hangWorld 4).to n) hprep hP hran rfl (by simp) ?_, rfl, ?_, ?_⟩
            · unfold transcript
              rw [ht]
              rfl
            · exact e3.trans g3
            · simp only
              omega
          · cases h
        · cases h
      · cases h
    · cases h
  · cases h

end Spec

end Verif.Slicer
