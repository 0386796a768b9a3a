import Verif.SlicerProps

/-! # What comes out of the program (C66) -/

namespace Verif.Slicer

open Verif Verif.Gates Verif.Stream Verif.Layouts Verif.Pipe Verif.Apply

theorem goes_inj {α : Type} {x y : α} (h : (Outcome.ok (Step.goes x) : Act α) = Outcome.ok (Step.goes y)) : x = y := act_pure.1 h

/-- Nothing goes to the output of the slices if neither slices nor instructions are printed. -/
theorem visitAll_silent {a : Args} {w : World} {j : Job} (hp : prints a j = false) (hl : j.lli ≠ .sliced) {l : List (Obs DSlice)} {k : Nat} {x : List (Chan × Str)}
    (h : visitAll a w j k l = .ok x) : bulk x = [] := by
  induction l generalizing k x with
  | nil => cases h; rfl
  | cons o l ih =>
    obtain ⟨y, h1, h⟩ := Outcome.bind_eq_ok.1 h
    obtain ⟨z, h2, h⟩ := Outcome.bind_eq_ok.1 h
    cases h
    rw [bulk_append, ih h2]
    cases o with
    | instr i => simp [visit, hl] at h1; subst h1; rfl
    | slice s =>
      obtain ⟨u, h3, h1⟩ := Outcome.bind_eq_ok.1 h1
      cases h1
      rcases drawing_bulk h3 with ⟨-, rfl⟩ | ⟨d, e, -⟩
      · rw [bulk_append, bulk_append, bulk_progress]; simp [lineEnd, hl, bulk, arrives]
      · rw [hp] at e; cases e

/-- The settings are the same up to the kind of report, whatever kind is asked for. -/
theorem prepare_report {a : Args} {w : World} {x y : Option Str} {j j' : Job} (h : prepare { a with report := x } w = (Outcome.ok (Step.goes j) : Act _))
    (h' : prepare { a with report := y } w = (Outcome.ok (Step.goes j') : Act _)) : j' = { j with report := j'.report } := by
  obtain ⟨s, h1, h⟩ := act_goes.1 h
  obtain ⟨s', h1', h'⟩ := act_goes.1 h'
  have hs : s' = { s with report := s'.report } := by
    obtain ⟨l, e1, h1⟩ := act_goes.1 h1
    obtain ⟨f, e2, h1⟩ := act_goes.1 h1
    obtain ⟨r, -, h1⟩ := act_goes.1 h1
    obtain ⟨l', e1', h1'⟩ := act_goes.1 h1'
    obtain ⟨f', e2', h1'⟩ := act_goes.1 h1'
    obtain ⟨r', -, h1'⟩ := act_goes.1 h1'
    have el : l = l' := by
      have := e1.symm.trans (show chooseLayout { a with report := x } w = _ from e1')
      exact goes_inj this
    have ef : f = f' := by
      have := e2.symm.trans e2'
      exact goes_inj this
    subst el ef
    split at h1
    · exact absurd h1 act_stop
    split at h1'
    · exact absurd h1' act_stop
    obtain ⟨d, e3, h1⟩ := act_goes.1 h1
    obtain ⟨p, e4, h1⟩ := act_goes.1 h1
    obtain ⟨d', e3', h1'⟩ := act_goes.1 h1'
    obtain ⟨p', e4', h1'⟩ := act_goes.1 h1'
    have ed : d = d' := by
      have := e3.symm.trans e3'
      exact goes_inj this
    have ep : p = p' := by
      have := e4.symm.trans e4'
      exact goes_inj this
    subst ed ep
    dsimp only at h1 h1'
    split at h1
    · rename_i hi
      rw [hi] at h1'
      rw [act_pure] at h1 h1'
      rw [← h1, ← h1']
    · rename_i fn hi
      rw [hi] at h1'
      dsimp only at h1'
      split at h1
      · exact absurd h1 act_stop
      · rename_i tx ht
        rw [ht] at h1'
        dsimp only at h1'
        rw [act_pure] at h1 h1'
        rw [← h1, ← h1']
  generalize s'.report = rep at hs
  subst hs
  obtain ⟨src, h2, h⟩ := act_goes.1 h
  obtain ⟨src', h2', h'⟩ := act_goes.1 h'
  have e : src = src' := by
    have := h2.symm.trans h2'
    exact goes_inj this
  subst e
  obtain ⟨c, h3, h⟩ := act_goes.1 h
  obtain ⟨c', h3', h'⟩ := act_goes.1 h'
  have e : c = c' := by
    have := h3.symm.trans h3'
    exact goes_inj this
  subst e
  obtain ⟨⟨L, inj, ok⟩, h4, h⟩ := act_goes.1 h
  obtain ⟨⟨L', inj', ok'⟩, h4', h'⟩ := act_goes.1 h'
  have e : (L, inj, ok) = (L', inj', ok') := by
    have := h4.symm.trans (show chooseStages { a with report := x } s.pipeline src.size s.layout = _ from h4')
    exact goes_inj this
  cases e
  dsimp only at h h'
  split at h
  · rw [lift_goes] at h; cases h
  split at h'
  · rw [lift_goes] at h'; cases h'
  obtain ⟨l, h5, h⟩ := act_goes.1 h
  obtain ⟨l', h5', h'⟩ := act_goes.1 h'
  have e : l = l' := by
    have := h5.symm.trans h5'
    exact goes_inj this
  subst e
  obtain ⟨r, h6, h⟩ := act_goes.1 h
  obtain ⟨r', h6', h'⟩ := act_goes.1 h'
  have e : r = r' := by
    have := h6.symm.trans h6'
    exact goes_inj this
  subst e
  obtain ⟨v, h7, h⟩ := act_goes.1 h
  obtain ⟨v', h7', h'⟩ := act_goes.1 h'
  have e : v = v' := by
    have := h7.symm.trans h7'
    exact goes_inj this
  subst e
  rw [act_pure] at h h'
  rw [← h, ← h']

/-- The streamed pipeline counts the instructions it takes from the stream. -/
theorem srun_read {σ : Type} {env : Wave.Env σ} {n : Nat} {st st' : SSt σ} {c : Ctl} (h : srun env n st = .ok (c, st')) :
    st'.read + st'.stream.length = st.read + st.stream.length ∧ (c = .finished → st'.stream = []) := by
  induction n generalizing st with
  | zero => cases h; exact ⟨rfl, by intro h; cases h⟩
  | succ n ih =>
    obtain ⟨⟨c1, st1⟩, h1, h⟩ := Outcome.bind_eq_ok.1 h
    have hstep : st1.read + st1.stream.length = st.read + st.stream.length ∧ (c1 = .finished → st1.stream = []) := by
      unfold sstep at h1
      split at h1
      · rename_i ht
        cases h1
        refine ⟨rfl, fun _ => ?_⟩
        unfold takeNext at ht
        split at ht
        · cases ht
        · split at ht
          · cases ht
          · assumption
      · rename_i it st2 ht
        obtain ⟨r, -, h1⟩ := Outcome.bind_eq_ok.1 h1
        have h2 : st2.read + st2.stream.length = st.read + st.stream.length := by
          unfold takeNext at ht
          split at ht
          · cases ht; rfl
          · split at ht
            · rename_i e
              cases ht
              rw [e]
              simp
              omega
            · cases ht
        unfold react at h1
        dsimp only at h1
        split at h1
        · obtain ⟨s, -, h1⟩ := Outcome.bind_eq_ok.1 h1
          cases h1
          exact ⟨h2, by intro h; cases h⟩
        · split at h1
          · split at h1
            · cases h1
              exact ⟨h2, by intro h; cases h⟩
            · obtain ⟨s, -, h1⟩ := Outcome.bind_eq_ok.1 h1
              cases h1
              exact ⟨h2, by intro h; cases h⟩
          · cases h1
            exact ⟨h2, by intro h; cases h⟩
    dsimp only at h
    split at h
    · obtain ⟨e1, e2⟩ := ih h
      exact ⟨by rw [e1, hstep.1], e2⟩
    · cases h
      exact hstep

namespace Spec

open Verif.Stream.Spec Verif.Layouts.Spec Verif.Pipe.Spec Verif.Real.Spec

section
variable {a : Args} {w : World} {j : Job} {P : List Instr} {r : Ran} {t : List (Chan × Str)}

/-! ### C65: options that do not matter for the slices -/

/-- C65: `--noslices` changes nothing but that no slices are written: the same instructions are shown on the same slices, and with `-o` the report is the same. -/
theorem c65_noslices (h : program a w = .ok (.sliced j P r t)) (ho : a.output ≠ none) :
    ∃ t', program { a with noSlices := true } w = .ok (.sliced j P r t') ∧ arrives (· != .bulk) t' = arrives (· != .bulk) t ∧ (a.printLli ≠ none → t' = t) := by
  obtain ⟨h1, h2, h3, h4, h5, h6⟩ := program_sliced h
  have hr : a.reports = true := by cases e : a.output with | none => exact absurd e ho | some v => simp [Args.reports, e]
  have hr' : ({ a with noSlices := true } : Args).reports = true := by simp [Args.reports]
  have hset : settings { a with noSlices := true } w = settings a w := by
    unfold settings
    rw [hr, hr']
    rfl
  have hprep : prepare { a with noSlices := true } w = prepare a w :=
    prepare_congr hset ⟨fun _ _ _ => rfl, fun _ _ _ => rfl, rfl, fun _ _ => rfl, rfl, rfl, rfl, rfl⟩
  have hlli : a.printLli ≠ none → prints a j = false := fun hn => by simp [prints, (asked h1).sliced hn]
  have hn : prints { a with noSlices := true } j = false := by simp [prints]
  suffices hs : ∃ t', transcript { a with noSlices := true } w j r = .ok t' ∧ arrives (· != .bulk) t' = arrives (· != .bulk) t ∧ (a.printLli ≠ none → t' = t) by
    obtain ⟨t', e1, e2⟩ := hs
    exact ⟨t', sliced_program (hprep.trans h1) h2 h3 h4 h5 e1, e2⟩
  obtain ⟨x, g1, g⟩ := Outcome.bind_eq_ok.1 h6
  obtain ⟨y, e1, e2, e3⟩ := visitAll_rest (b := { a with noSlices := true }) g1 hn
  unfold transcript
  rw [e1, Outcome.bind_ok]
  split at g
  · rename_i ep
    cases g
    exact ⟨y, rfl, e2, fun hn => e3 (hlli hn)⟩
  · obtain ⟨u, g2, g⟩ := Outcome.bind_eq_ok.1 g
    cases g
    have hu : reportText { a with noSlices := true } w j r = .ok u := by
      rw [← g2]
      simp [reportText, hr, hr']
    refine ⟨_, by rw [hu]; rfl, ?_, ?_⟩
    · rw [arrives_append, arrives_append, arrives_append, arrives_append, arrives_append, arrives_append, e2]
      congr 1
      unfold closing
      rw [arrives_append, arrives_append]
      congr 1
      split <;> split <;> rfl
    · intro hx
      rw [e3 (hlli hx)]
      unfold closing
      rw [hlli hx, hn]

/-- C65: `--graceful` changes nothing in a run without an exception. -/
theorem c65_graceful (h : program a w = .ok (.sliced j P r t)) (hf : r.phase ≠ .failed) (b : Bool) : program { a with graceful := b } w = .ok (.sliced j P r t) := by
  obtain ⟨h1, h2, h3, h4, h5, h6⟩ := program_sliced h
  have hprep : prepare { a with graceful := b } w = prepare a w := prepare_congr rfl ⟨fun _ _ _ => rfl, fun _ _ _ => rfl, rfl, fun _ _ => rfl, rfl, rfl, rfl, rfl⟩
  have hran : ran { a with graceful := b } w j P = .ok (some r) := by
    unfold ran at h3 ⊢
    split at h3
    · split at h3
      · split at h3
        · cases h3; exact absurd rfl hf
        · cases h3
      · cases h3
    · rename_i hx
      rw [h3]
  refine sliced_program (hprep.trans h1) h2 hran h4 (fun e => absurd e hf) ?_
  rw [← h6]
  unfold transcript
  rw [visitAll_congr (show prints { a with graceful := b } j = prints a j from rfl)]
  rfl

/-- C65: a run that is not late is not changed by `-t`. -/
theorem c65_timeout (h : program a w = .ok (.sliced j P r t)) (hl : ∀ k, k < (shown r.obs).length → w.late k = false) (x : Option Nat) :
    program { a with timeout := x } w = .ok (.sliced j P r t) := by
  obtain ⟨h1, h2, h3, h4, h5, h6⟩ := program_sliced h
  have hprep : prepare { a with timeout := x } w = prepare a w := prepare_congr rfl ⟨fun _ _ _ => rfl, fun _ _ _ => rfl, rfl, fun _ _ => rfl, rfl, rfl, rfl, rfl⟩
  refine sliced_program (hprep.trans h1) h2 h3 ?_ h5 ?_
  · unfold outOfTime
    rw [Bool.and_eq_false_iff]
    refine .inr (List.any_eq_false.2 fun k hk => ?_)
    rw [hl k (List.mem_range.1 hk)]
    simp
  · rw [← h6]
    unfold transcript
    rw [visitAll_congr (show prints { a with timeout := x } j = prints a j from rfl)]
    rfl

/-- C65: `-t` does not just stop producing slices, as the help text says: once a slice is late, the program ends in an exception. -/
theorem c65_late (h : program a w = .ok (.sliced j P r t)) {k : Nat} (hk : k < (shown r.obs).length) (hl : w.late k = true) (x : Nat) :
    program { a with timeout := some x, graceful := false } w = .throws := by
  obtain ⟨h1, h2, h3, h4, h5, h6⟩ := program_sliced h
  have hprep : prepare { a with timeout := some x, graceful := false } w = prepare a w := prepare_congr rfl ⟨fun _ _ _ => rfl, fun _ _ _ => rfl, rfl, fun _ _ => rfl, rfl, rfl, rfl, rfl⟩
  unfold program
  rw [hprep, h1]
  dsimp only
  unfold perform
  rw [h2]
  have hran : ran { a with timeout := some x, graceful := false } w j P = .ok (some r) := by
    unfold ran at h3 ⊢
    split at h3
    · split at h3
      · split at h3
        · cases h3; simp [shown] at hk
        · cases h3
      · cases h3
    · rw [h3]
  dsimp only
  rw [if_neg (by simp), hran]
  dsimp only
  rw [if_pos]
  · rfl
  · unfold outOfTime
    simp only [Option.isSome_some, Bool.true_and]
    exact List.any_eq_true.2 ⟨k, List.mem_range.2 hk, hl⟩

/-- C65: which report is asked for with `-f` does not matter for what is sliced, nor for what is written of it. -/
theorem c65_report {x y : Option Str} {j' : Job} {P' : List Instr} {r' : Ran} {t' : List (Chan × Str)} (h : program { a with report := x } w = .ok (.sliced j P r t))
    (h' : program { a with report := y } w = .ok (.sliced j' P' r' t')) (hr : r.phase ≠ .running) : P' = P ∧ r' = r ∧ bulk t' = bulk t := by
  obtain ⟨h1, h2, h3, -, -, h6⟩ := program_sliced h
  obtain ⟨h1', h2', h3', -, -, h6'⟩ := program_sliced h'
  have hj := prepare_report h1 h1'
  generalize j'.report = rep at hj
  subst hj
  dsimp only at h2'
  rw [h2] at h2'
  cases h2'
  have hs : ran { a with report := y } w { j with report := rep } P = ran { a with report := x } w j P := rfl
  rw [hs, h3] at h3'
  cases h3'
  refine ⟨rfl, rfl, ?_⟩
  obtain ⟨u, e1, e2⟩ := transcript_bulk h6 hr
  obtain ⟨u', e1', e2'⟩ := transcript_bulk h6' hr
  rw [e2, e2']
  congr 1
  cases hp : prints { a with report := x } j with
  | true =>
    have := (visitAll_written hp e1).symm.trans (show Json.written j.layout (shown r.obs) _ = _ from visitAll_written (show prints { a with report := y } { j with report := rep } = true from hp) e1')
    exact (Outcome.ok.inj this).symm
  | false =>
    by_cases hl : j.lli = .sliced
    · have := (visitAll_sliced hl e1).symm.trans (visitAll_sliced (show ({ j with report := rep } : Job).lli = .sliced from hl) e1')
      exact (Outcome.ok.inj this).symm
    · rw [visitAll_silent hp hl e1, visitAll_silent (show prints { a with report := y } { j with report := rep } = false from hp) (show ({ j with report := rep } : Job).lli ≠ .sliced from hl) e1']

/-! ### C66: what is shown and written -/

/-- C66: the instructions that are sliced are those of a gate program for a register of less than `2^32` qubits, and the layout is made from a grid of cells with the
options given. -/
theorem c66_input (h : program a w = .ok (.sliced j P r t)) :
    (∃ g, fromGrid g a.options = .ok j.layout) ∧ j.size < 2 ^ 32 ∧ ∃ m ex gs, Compiles m j.size ex gs P := by
  obtain ⟨h1, h2, -⟩ := program_sliced h
  have hp := prepared h1
  exact ⟨hp.grid, hp.size, hp.program P h2⟩

/-- C66: in every pipeline and with every search, the qubits of the register stay on the qubit cells of the layout. The first one is on the first such cell in
reading order, and so on. On every slice shown, each is on its cell or that cell is kept busy by a rotation, and it is on no other cell. -/
theorem c66_home (h : program a w = .ok (.sliced j P r t)) (hfit : j.size + (introduced P).length ≤ 2 ^ 32) :
    ∃ g, fromGrid g a.options = .ok j.layout ∧ ∃ cs : List Cell, cs.Pairwise Before ∧ (∀ c, c ∈ cs ↔ At g c .qubit) ∧
      ∀ s ∈ shown r.obs, ∀ q, q < j.size → ∃ c, cs[q]? = some c ∧ (There s c q ∨ Rotates s c) ∧ ∀ x p, s.cells x = some p → p.id = some q → x = c := by
  obtain ⟨h1, h2, h3, -⟩ := program_sliced h
  have hp := prepared h1
  obtain ⟨g, hg⟩ := hp.grid
  rcases ran_traced h3 with e | ⟨ρ, ctx, rs, s, A, hT⟩
  · obtain ⟨s, -, hsh, -⟩ := c53_first_slice (ids := []) hg (Nat.zero_le _)
    obtain ⟨cs, c1, c2, -⟩ := hsh.qubits
    exact ⟨g, hg, cs, c1, c2, by rw [e]; simp [shown]⟩
  obtain ⟨cs, c1, c2, c3⟩ := Compiled.Spec.c62_compiled (realloc := w.realloc) hT.usual (by rw [hT.layout]; exact hg) ⟨hp.program P h2, hp.size, hfit⟩
    (by rw [hT.layout]; exact hT.first)
  refine ⟨g, hg, cs, c1, c2, fun x hx q hq => ?_⟩
  obtain ⟨c, d1, d2⟩ := c3 q hq
  refine ⟨c, d1, ?_⟩
  rw [hT.obs, shown_bare] at hx
  obtain ⟨m, hm, rfl⟩ := List.mem_map.1 hx
  obtain ⟨y, hy, e⟩ := List.mem_filterMap.1 hm
  cases y with
  | instr i => cases e
  | slice y =>
    cases e
    obtain ⟨A1, A2, e⟩ := List.append_of_mem hy
    exact d2 _ A1 _ A2 (e ▸ hT.account)

/-- C66: without edge-disjoint routing, on every slice shown all patches are inside the grid and no two have the same id. -/
theorem c66_ids (h : program a w = .ok (.sliced j P r t)) (he : a.pipeline ≠ some "edpc".toList) (hfit : j.size + (introduced P).length ≤ 2 ^ 32) {s : DSlice} (hs : s ∈ shown r.obs)
    {c : Cell} {p : DensePatch} (hc : s.cells c = some p) :
    (0 ≤ c.row ∧ c.row < s.rows ∧ 0 ≤ c.col ∧ c.col < s.cols) ∧ ∀ n, p.id = some n → ∀ c' p', s.cells c' = some p' → p'.id = some n → c' = c := by
  obtain ⟨h1, h2, h3, -⟩ := program_sliced h
  have hp := prepared h1
  rcases ran_traced h3 with e | ⟨ρ, ctx, rs, s0, A, hT⟩
  · rw [e] at hs; cases hs
  rw [hT.obs, shown_bare] at hs
  obtain ⟨m, hm, rfl⟩ := List.mem_map.1 hs
  refine Compiled.Spec.c56_compiled ⟨hp.program P h2, hp.size, hfit⟩ (by rw [hT.layout]; exact hT.first) (fun _ => hT.shared ((asked h1).shared he)) hT.account hm hc

/-- C66: when the run has ended, what is written for the slices is a JSON array of their drawings, if any slice was shown. -/
theorem c66_json (h : program a w = .ok (.sliced j P r t)) (hn : a.noSlices = false) (hl : a.printLli = none) (hr : r.phase ≠ .running) (hne : shown r.obs ≠ []) :
    Json.Spec.Album j.layout (shown r.obs) (bulk t) := by
  obtain ⟨h1, h2, h3, -, -, h6⟩ := program_sliced h
  obtain ⟨g, hg⟩ := (prepared h1).grid
  rcases ran_traced h3 with e | ⟨ρ, ctx, rs, s, A, hT⟩
  · rw [e] at hne; exact absurd rfl hne
  have hp : prints a j = true := by simp [prints, hn, (asked h1).json hl]
  obtain ⟨x, e1, e2⟩ := transcript_bulk h6 hr
  have hw := visitAll_written hp e1
  rw [hT.obs, shown_bare] at hne
  obtain ⟨tx, f1, f2⟩ := Json.Spec.c61_run (by rw [hT.layout]; exact hg) (by rw [hT.layout]; exact hT.first) hT.account (by simpa using hne)
  rw [hT.layout, ← shown_bare, ← hT.obs] at f1 f2
  have e3 : bulk (closing a j) = "]\n".toList := by simp [closing, hp, lineEnd, (asked h1).json hl, bulk, arrives]
  have : Json.output j.layout (shown r.obs) = .ok (bulk t) := by
    unfold Json.output
    simp at hw
    rw [hw, Outcome.bind_ok, e2, e3]
  rw [this] at f1
  cases f1
  exact f2

/-- What is known of a run of the streamed pipeline. -/
theorem streamed_run (h : program a w = .ok (.sliced j P r t)) (hp : a.pipeline = none ∨ a.pipeline = some "stream".toList) (hr : r.phase = .finished) :
    shown r.obs ≠ [] ∧ r.read = P.length := by
  obtain ⟨h1, h2, h3, -⟩ := program_sliced h
  have hj : j.pipeline = .stream := by
    rcases hp with e | e
    · exact (asked h1).pipe .stream (by rw [e]; simp)
    · exact (asked h1).pipe .stream (by rw [e]; simp)
  have key : ∀ {ρ : Type} {ctx : Ctx ρ} {rs : ρ}, pipeline w ctx rs .stream (coreQubits j.size) P = .ok (some r) → shown r.obs ≠ [] ∧ r.read = P.length := by
    intro ρ ctx rs h
    obtain ⟨s, hs, h⟩ := Outcome.bind_eq_ok.1 h
    obtain ⟨⟨c, st⟩, h1, h⟩ := Outcome.bind_eq_ok.1 h
    cases h
    have hc : c = .finished := by
      cases c with
      | go => cases hr
      | finished => rfl
      | failed => cases hr
    obtain ⟨L, e, -⟩ := (c57_streamed _ _ _ _ _ h1).2 (by rw [hc]; simp)
    obtain ⟨e1, e2⟩ := srun_read h1
    constructor
    · rw [shown_bare, e, slices_append]
      simp [slices]
    · rw [e2 hc] at e1
      simpa [sstart] using e1
  unfold ran at h3
  split at h3
  · split at h3
    · split at h3
      · cases h3; cases hr
      · cases h3
    · cases h3
  unfold slice at h3
  rw [hj] at h3
  rw [if_neg (by simp)] at h3
  split at h3
  · split at h3
    · exact key h3
    · cases h3
  · split at h3
    · exact key h3
    · cases h3
  · exact key h3
  · exact key h3

/-- C66: the streamed pipeline, which is the default, always shows a slice. -/
theorem c66_some_slice (h : program a w = .ok (.sliced j P r t)) (hp : a.pipeline = none ∨ a.pipeline = some "stream".toList) (hr : r.phase = .finished) : shown r.obs ≠ [] :=
  (streamed_run h hp hr).1

/-- C66: the number of instructions read that the streamed pipeline reports is the number of instructions of the program. Missing: the other pipelines, see
`c66_read_wrong`. -/
theorem c66_read_partial (h : program a w = .ok (.sliced j P r t)) (hp : a.pipeline = none ∨ a.pipeline = some "stream".toList) (hr : r.phase = .finished) : r.read = P.length :=
  (streamed_run h hp hr).2

/-- C66: on the command line, without `-o` and without an exception, exactly that is written to the standard output. -/
theorem c66_stdout (h : program a w = .ok (.sliced j P r t)) (ho : a.output = none) (hn : a.noSlices = false) (hf : r.phase = .finished) : stdout a t = bulk t := by
  obtain ⟨h1, h2, h3, -, -, h6⟩ := program_sliced h
  have hrep : a.reports = false := by simp [Args.reports, ho, hn]
  have hrn : a.report = none := by
    obtain ⟨s, g1, -⟩ := act_goes.1 h1
    obtain ⟨lay, -, g1⟩ := act_goes.1 g1
    obtain ⟨f, -, g1⟩ := act_goes.1 g1
    obtain ⟨rep, -, g1⟩ := act_goes.1 g1
    split at g1
    · exact absurd g1 act_stop
    · rename_i hx
      simpa [hrep] using hx
  have hq := (asked h1).quiet hrn hrep
  have hall : ∀ e ∈ t, e.1 = .bulk := by
    have hv : ∀ (l : List (Obs DSlice)) k x, visitAll a w j k l = .ok x → ∀ e ∈ x, e.1 = .bulk := by
      intro l
      induction l with
      | nil => intro k x h; cases h; simp
      | cons o l ih =>
        intro k x h
        obtain ⟨y, g1, h⟩ := Outcome.bind_eq_ok.1 h
        obtain ⟨z, g2, h⟩ := Outcome.bind_eq_ok.1 h
        cases h
        intro e he
        rcases List.mem_append.1 he with he | he
        · cases o with
          | instr i =>
            simp only [visit] at g1
            split at g1
            · obtain ⟨u, -, g1⟩ := Outcome.bind_eq_ok.1 g1
              cases g1
              simp at he
              rw [he]
            · cases g1; cases he
          | slice s =>
            obtain ⟨u, g3, g1⟩ := Outcome.bind_eq_ok.1 g1
            cases g1
            have : progressLine w j k = [] := by simp [progressLine, hq]
            rw [this] at he
            rcases List.mem_append.1 he with he | he
            · rcases drawing_bulk g3 with ⟨-, rfl⟩ | ⟨d, -, -, rfl⟩
              · cases he
              · simp at he; rw [he]
            · unfold lineEnd at he
              split at he
              · simp at he; rw [he]
              · cases he
        · exact ih _ _ g2 e he
    obtain ⟨x, g1, g⟩ := Outcome.bind_eq_ok.1 h6
    rw [hf] at g
    obtain ⟨y, g2, g⟩ := Outcome.bind_eq_ok.1 g
    cases g
    unfold reportText at g2
    rw [hrep] at g2
    cases g2
    intro e he
    simp only [reduceCtorEq, if_false, List.append_nil] at he
    rcases List.mem_append.1 he with he | he
    · exact hv _ _ _ g1 e he
    · unfold closing at he
      rcases List.mem_append.1 he with he | he
      · split at he
        · simp at he; rw [he]
        · cases he
      · unfold lineEnd at he
        split at he
        · simp at he; rw [he]
        · cases he
  unfold stdout bulk arrives
  congr 1
  refine List.filter_congr fun e he => ?_
  rw [hall e he, ho]
  rfl

/-- C66: the statistics asked for with `-f stats` are defined, the total volume is the number of slices shown times the number of cells of the grid, and the categories add
up to it, as long as the counts fit into the integers used. -/
theorem c66_stats (h : program a w = .ok (.sliced j P r t)) : ∃ rows cols, (∀ s ∈ shown r.obs, s.rows = rows ∧ s.cols = cols) ∧
    (rows < 2 ^ 31 ∧ cols < 2 ^ 31 ∧ rows * cols < 2 ^ 31 → (shown r.obs).length * (rows * cols) < 2 ^ 64 →
      ∃ v, Stats.totals j.layout (shown r.obs) {} = .ok v ∧ v.volume = (shown r.obs).length * (rows * cols) ∧ v.unused + v.distillation + v.dead + v.other = v.volume) := by
  obtain ⟨h1, h2, h3, -⟩ := program_sliced h
  obtain ⟨g, hg⟩ := (prepared h1).grid
  rcases ran_traced h3 with e | ⟨ρ, ctx, rs, s, A, hT⟩
  · refine ⟨0, 0, by rw [e]; simp [shown], fun _ _ => ⟨{}, by rw [e]; rfl, by rw [e]; simp [shown], by rfl⟩⟩
  · refine ⟨s.rows, s.cols, ?_, fun g1 g2 => ?_⟩
    · intro x hx
      rw [hT.obs, shown_bare] at hx
      obtain ⟨m, hm, rfl⟩ := List.mem_map.1 hx
      obtain ⟨y, hy, e⟩ := List.mem_filterMap.1 hm
      cases y with
      | instr i => cases e
      | slice y =>
        cases e
        have hz : DSlice.Sized (s.rows, s.cols, s.times.length) _ := account_keeps (Json.Spec.sized_keeps ctx w.realloc (s.rows, s.cols, s.times.length)) (Real.one_followup ctx w.realloc) (Real.fails_alone ctx w.realloc)
          (show DSlice.Sized _ (⟨s, rs, 1⟩ : Mach ρ).slice from rfl) (fun _ _ => trivial) hT.account hy
        unfold DSlice.Sized at hz
        simp only [Prod.mk.injEq] at hz
        exact ⟨hz.1, hz.2.1⟩
    · have hlen : (shown r.obs).length = (slices A).length := by rw [hT.obs, shown_bare, List.length_map]
      rw [hlen] at g2 ⊢
      have := Stats.Spec.c43_run (by rw [hT.layout]; exact hg) (by rw [hT.layout]; exact hT.first) hT.account g1 g2
      rw [hT.layout, ← shown_bare, ← hT.obs] at this
      exact this

/-- C66: with `--printlli sliced` the instructions are written slice by slice. -/
theorem c66_sliced (h : program a w = .ok (.sliced j P r t)) (hl : a.printLli ≠ none) (hr : r.phase ≠ .running) : Sliced.slicedLli r.obs = .ok (bulk t) := by
  obtain ⟨h1, h2, h3, -, -, h6⟩ := program_sliced h
  have hj := (asked h1).sliced hl
  obtain ⟨x, e1, e2⟩ := transcript_bulk h6 hr
  have hp : prints a j = false := by simp [prints, hj]
  unfold Sliced.slicedLli
  rw [visitAll_sliced hj e1, Outcome.bind_ok, e2]
  congr 2
  simp [closing, hp, lineEnd, hj, bulk, arrives]

end

end Spec

end Verif.Slicer
