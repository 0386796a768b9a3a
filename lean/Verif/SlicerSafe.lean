import Verif.SlicerCaught
import Verif.SalvageKeeps

/-!
# Nothing goes wrong while slices and instructions are written

The slices shown can be drawn and the instructions shown can be printed, also those shown before an exception comes (C65, C66). So with `--graceful` every exception while the program is
being sliced leads to the message, the report and a proper end of what is written.
-/

namespace Verif.Slicer

open Verif Verif.DSlice Verif.Gates Verif.Layouts Verif.Pipe Verif.Wave Verif.Apply Verif.Stream Verif.Real.Spec Verif.Stream.Spec Verif.Tried

theorem shows_hold {ρ : Type} (ctx : Ctx ρ) (realloc : Nat → Bool) (z : Nat × Nat × Nat) : Holds (Real.env ctx realloc) (fun m => Sized z m.slice) Sliced.Windowed where
  apply h hi hr := ⟨sized_apply h hr, (Sliced.fine_apply hi hr).1, (Sliced.fine_apply hi hr).2⟩
  waits _ h := h
  advance h ha := ((Json.Spec.sized_keeps ctx realloc z).advance h ha).1
  reset h ha := ((Json.Spec.sized_keeps ctx realloc z).reset h ha).1

theorem seen_bare {ρ : Type} {J : DSlice → Prop} {W : Instr → Prop} {l : List (Obs (Mach ρ))} (h : Seen (fun m : Mach ρ => J m.slice) W l) : Seen J W (bare l) := by
  rw [bare_map]
  constructor
  · intro i hi
    obtain ⟨o, ho, e⟩ := List.mem_map.1 hi
    cases o with
    | instr k => cases e; exact h.1 _ ho
    | slice m => cases e
  · intro s hs
    obtain ⟨o, ho, e⟩ := List.mem_map.1 hs
    cases o with
    | instr k => cases e
    | slice m => cases e; exact h.2 _ ho

theorem pipeline_seen {ρ : Type} {w : World} {ctx : Ctx ρ} {rs : ρ} {p : Pipeline} {ids : List Nat} {P : List Instr} {r : Ran} {s : DSlice} {z : Nat × Nat × Nat}
    (hs : DSlice.init ctx.layout ids = .ok s) (hz : Sized z s) (hP : ∀ i ∈ P, Sliced.Windowed i)
    (h : pipeline w ctx rs p ids P = .ok (some r) ∨ ∃ late, pipelineT w late ctx rs p ids P = some r) : Seen (Sized z) Sliced.Windowed r.obs := by
  have hk := shows_hold ctx w.realloc z
  unfold pipeline pipelineT at h
  rw [hs, Outcome.bind_ok] at h
  have wave : ((if fitsWave P = true then do
        let (b, x) ← wrun (Real.env ctx w.realloc) w.depth w.steps ⟨start ⟨s, rs, 1⟩ P, 1, [], []⟩
        .ok (some (⟨bare x.obs, instrCount x.obs, x.count, if b then .finished else .running⟩ : Ran))
      else .ok none) = .ok (some r) ∨ ∃ late, (if fitsWave P then match wrunT (Real.env ctx w.realloc) late w.depth w.steps ⟨start ⟨s, rs, 1⟩ P, 1, [], []⟩ with
        | .ok (none, x) => some (⟨bare x.obs, instrCount x.obs, x.count, .failed⟩ : Ran)
        | _ => none
      else none) = some r) → Seen (Sized z) Sliced.Windowed r.obs := by
    have hg : WGood (fun m : Mach ρ => Sized z m.slice) Sliced.Windowed ⟨start ⟨s, rs, 1⟩ P, 1, [], []⟩ := ⟨Wave.Held.start_good hz hP, seen_nil⟩
    rintro (h | ⟨late, h⟩)
    · split at h
      · obtain ⟨⟨b, x⟩, h1, h⟩ := Outcome.bind_eq_ok.1 h
        cases h
        obtain ⟨b', x', e, h2⟩ := (wrun_follows w.depth w.steps _).of_ok h1
        cases e
        exact seen_bare (wrun_stays hk w.depth w.steps hg _ _ h2).1.seen
      · cases h
    · split at h
      · split at h
        · rename_i x h2
          cases h
          exact seen_bare (wrun_stays hk w.depth w.steps hg _ _ h2).1.seen
        · cases h
      · cases h
  cases p with
  | stream =>
    have hg : SGood (fun m : Mach ρ => Sized z m.slice) Sliced.Windowed (sstart ⟨s, rs, 1⟩ P) := sstart_good hz hP
    rcases h with h | ⟨late, h⟩
    · obtain ⟨⟨b, x⟩, h1, h⟩ := Outcome.bind_eq_ok.1 h
      cases h
      obtain ⟨b', x', e, h2⟩ := (srun_follows w.steps _).of_ok h1
      cases e
      exact seen_bare (srun_stays hk w.steps hg _ _ h2).1.seen
    · dsimp only at h
      split at h
      · rename_i x h2
        cases h
        exact seen_bare (srun_stays hk w.steps hg _ _ h2).1.seen
      · cases h
  | dag =>
    rcases h with h | ⟨late, h⟩
    · obtain ⟨st, h0, h⟩ := Outcome.bind_eq_ok.1 h
      obtain ⟨⟨b, x⟩, h1, h⟩ := Outcome.bind_eq_ok.1 h
      cases h
      have hg : DGood (fun m : Mach ρ => Sized z m.slice) Sliced.Windowed st := dstart_good hz hP h0
      obtain ⟨b', x', e, h2⟩ := (drun_follows w.steps _).of_ok h1
      cases e
      exact seen_bare (drun_stays hk w.steps hg _ _ h2).1.seen
    · dsimp only at h
      split at h
      · cases h; exact seen_nil
      · rename_i st h0
        have hg : DGood (fun m : Mach ρ => Sized z m.slice) Sliced.Windowed st := dstart_good hz hP h0
        split at h
        · rename_i x h2
          cases h
          exact seen_bare (drun_stays hk w.steps hg _ _ h2).1.seen
        · cases h
      · cases h
  | wave => exact wave h
  | edpc => exact wave h

theorem mem_shown {s : DSlice} : ∀ {l : List (Obs DSlice)}, s ∈ shown l ↔ .slice s ∈ l
  | [] => by simp [shown]
  | .instr _ :: l => by simp [shown, mem_shown]
  | .slice _ :: l => by simp [shown, mem_shown]

theorem pipeline_first {ρ : Type} {w : World} {ctx : Ctx ρ} {rs : ρ} {p : Pipeline} {ids : List Nat} {P : List Instr} {r : Ran}
    (h : pipeline w ctx rs p ids P = .ok (some r) ∨ ∃ late, pipelineT w late ctx rs p ids P = some r) : ∃ s, DSlice.init ctx.layout ids = .ok s := by
  rcases h with h | ⟨late, h⟩
  · obtain ⟨s, h, -⟩ := Outcome.bind_eq_ok.1 h
    exact ⟨s, h⟩
  · unfold pipelineT at h
    split at h
    · exact ⟨_, by assumption⟩
    · cases h

/-- What is shown can be drawn and printed. -/
theorem slice_seen {a : Args} {w : World} {j : Job} {P : List Instr} {r : Ran} (h1 : prepare a w = (Outcome.ok (Step.goes j) : Act _)) (h2 : j.program = .ok (P, true))
    (h : slice w j P = .ok (some r) ∨ ∃ late, sliceT w late j P = some r) : Seen (Json.Spec.Drawable j.layout) Sliced.Windowed r.obs := by
  have hp := prepared h1
  obtain ⟨g, hg⟩ := hp.grid
  have hP : ∀ i ∈ P, Sliced.Windowed i := by
    obtain ⟨m, ex, gs, hc⟩ := hp.program P h2
    intro i hi
    have := (compiled_block hc).sound i hi
    exact Sliced.plain_windowed this.plain this.notI
  have key : ∀ {ρ : Type} (ctx : Ctx ρ) (rs : ρ) (p : Pipeline), ctx.layout = j.layout →
      (pipeline w ctx rs p (coreQubits j.size) P = .ok (some r) ∨ ∃ late, pipelineT w late ctx rs p (coreQubits j.size) P = some r) →
      Seen (Json.Spec.Drawable j.layout) Sliced.Windowed r.obs := by
    intro ρ ctx rs p hL h
    obtain ⟨s, hs⟩ := pipeline_first h
    have hd := Json.Spec.grid_drawable hg (hL ▸ hs)
    obtain ⟨e1, e2⟩ := pipeline_seen hs rfl hP h
    exact ⟨e1, fun s' hs' => Json.Spec.drawable_sized hd (e2 s' hs')⟩
  unfold slice sliceT at h
  by_cases he : j.pipeline = .edpc
  · simp only [if_pos he] at h
    split at h
    · rcases h with h | ⟨late, h⟩
      · cases h
      · cases h; exact seen_nil
    · exact key _ _ _ rfl h
  · simp only [if_neg he] at h
    cases hc : j.cached <;> cases hv : j.provider <;> rw [hc, hv] at h <;> dsimp only at h
    case false.boost =>
      cases hb : w.boost with
      | none => rw [hb] at h; rcases h with h | ⟨late, h⟩ <;> cases h
      | some pick => rw [hb] at h; exact key _ _ _ rfl h
    case true.boost =>
      cases hb : w.boost with
      | none => rw [hb] at h; rcases h with h | ⟨late, h⟩ <;> cases h
      | some pick => rw [hb] at h; exact key _ _ _ rfl h
    all_goals exact key _ _ _ rfl h

theorem visit_ok {a : Args} {w : World} {j : Job} {o : Obs DSlice} (h : Seen (Json.Spec.Drawable j.layout) Sliced.Windowed [o]) (k : Nat) : ∃ x, visit a w j k o = .ok x := by
  cases o with
  | instr i =>
    obtain ⟨t, ht⟩ := Sliced.windowed_print (h.1 i (by simp))
    change ∃ x, (if j.lli = .sliced then (Lli.printOp i.op >>= fun t => .ok [(Chan.bulk, t ++ [';'])]) else .ok []) = Outcome.ok x
    split
    · rw [ht]; exact ⟨_, rfl⟩
    · exact ⟨_, rfl⟩
  | slice s =>
    obtain ⟨d, hd, -⟩ := Json.Spec.slice_clean (h.2 s (by simp))
    change ∃ x, (drawing a j k s >>= fun x => .ok (x ++ progressLine w j k ++ lineEnd j)) = Outcome.ok x
    unfold drawing
    split
    · rw [hd]; exact ⟨_, rfl⟩
    · exact ⟨_, rfl⟩

theorem visitAll_ok {a : Args} {w : World} {j : Job} {l : List (Obs DSlice)} (h : Seen (Json.Spec.Drawable j.layout) Sliced.Windowed l) (k : Nat) : ∃ x, visitAll a w j k l = .ok x := by
  induction l generalizing k with
  | nil => exact ⟨_, rfl⟩
  | cons o l ih =>
    obtain ⟨x, hx⟩ := visit_ok (a := a) (w := w) (o := o) ⟨fun i hi => h.1 i (by simp [List.mem_singleton.1 hi]), fun s hs => h.2 s (by simp [List.mem_singleton.1 hs])⟩ k
    unfold visitAll
    rw [hx, Outcome.bind_ok]
    have hy := ih ⟨fun i hi => h.1 i (List.mem_cons_of_mem _ hi), fun s hs => h.2 s (List.mem_cons_of_mem _ hs)⟩
    cases o with
    | instr i =>
      obtain ⟨y, hy⟩ := hy k
      exact ⟨x ++ y, by dsimp only; rw [hy]; rfl⟩
    | slice s =>
      obtain ⟨y, hy⟩ := hy (k + 1)
      exact ⟨x ++ y, by dsimp only; rw [hy]; rfl⟩

theorem transcript_ok {a : Args} {w : World} {j : Job} {P : List Instr} {r : Ran} (h1 : prepare a w = (Outcome.ok (Step.goes j) : Act _)) (h2 : j.program = .ok (P, true))
    (hs : j.report = .stats → Countable j.layout) (h : slice w j P = .ok (some r) ∨ ∃ late, sliceT w late j P = some r) : ∃ t, transcript a w j r = .ok t := by
  obtain ⟨x, hx⟩ := visitAll_ok (a := a) (w := w) (slice_seen h1 h2 h) 0
  unfold transcript
  rw [hx, Outcome.bind_ok]
  split
  · exact ⟨_, rfl⟩
  · obtain ⟨y, hy⟩ := reportText_ok (a := a) (w := w) (r := r) hs
    rw [hy]
    exact ⟨_, rfl⟩

theorem unseen_never {a a' : Args} {w : World} {j : Job} {P : List Instr} {r : Ran} (h1 : prepare a w = (Outcome.ok (Step.goes j) : Act _)) (h2 : j.program = .ok (P, true))
    (h : slice w j P = .ok (some r) ∨ ∃ late, sliceT w late j P = some r) : unseen a' w j r = false := by
  obtain ⟨x, hx⟩ := visitAll_ok (a := a') (w := w) (slice_seen h1 h2 h) 0
  unfold unseen
  rw [hx]

/-- Where the model gives no result: the input could not be read to its end in the given number of steps, or it is faulty and `--graceful` is given, or the slicing is not in the model. -/
theorem program_unknown {a : Args} {w : World} (h : program a w = .ok .unknown) : ∃ j, prepare a w = (Outcome.ok (Step.goes j) : Act _) ∧
    ((j.program = .throws ∧ a.graceful = true) ∨ ∃ P b, j.program = .ok (P, b) ∧ (b = true → slice w j P = .ok none)) := by
  unfold program at h
  split at h
  · cases h
  · rename_i j hj
    refine ⟨j, hj, ?_⟩
    have hres : ∀ {P}, j.program = .ok (P, true) → rescue a w j P = .ok .unknown → ∀ late r, late = clock a w → a.graceful = true → sliceT w late j P ≠ some r := by
      rintro P hP hr late r rfl hg hs
      unfold rescue at hr
      rw [hg, hs] at hr
      dsimp only at hr
      rw [if_neg (by rw [unseen_never hj hP (.inr ⟨_, hs⟩)]; simp)] at hr
      obtain ⟨t, -, hr⟩ := Outcome.bind_eq_ok.1 hr
      cases hr
    unfold perform at h
    split at h
    · rename_i P b hP
      refine .inr ⟨P, b, hP, ?_⟩
      rintro rfl
      rw [if_neg (by simp)] at h
      cases hsl : slice w j P with
      | ub => unfold ran at h; rw [hsl] at h; cases h
      | throws =>
        unfold ran at h
        rw [hsl] at h
        dsimp only at h
        by_cases hg : a.graceful = true
        · rw [if_pos hg] at h
          cases hi : DSlice.init j.layout (coreQubits j.size) with
          | throws =>
            rw [hi] at h
            dsimp only at h
            rw [if_neg (by simp [outOfTime, shown]), if_neg (by simp [hg]), if_neg (by simp [unseen, visitAll])] at h
            obtain ⟨t, -, hr⟩ := Outcome.bind_eq_ok.1 h
            cases hr
          | ok s =>
            obtain ⟨r, hr⟩ := slice_halts.throws (by rw [hi]; simp) hsl (clock a w)
            rw [hi] at h
            exact absurd hr (hres hP h _ r rfl hg)
          | ub =>
            obtain ⟨r, hr⟩ := slice_halts.throws (by rw [hi]; simp) hsl (clock a w)
            rw [hi] at h
            exact absurd hr (hres hP h _ r rfl hg)
        · rw [if_neg hg] at h; cases h
      | ok o =>
        cases o with
        | none => rfl
        | some r0 =>
          unfold ran at h
          rw [hsl] at h
          dsimp only at h
          split at h
          · rename_i hot
            split at h
            · rename_i hg
              unfold outOfTime at hot
              rw [Bool.and_eq_true, List.any_eq_true] at hot
              obtain ⟨htm, k, hk, hl⟩ := hot
              obtain ⟨r, hr, -⟩ := slice_halts.given r0 (clock a w) k hsl (List.mem_range.1 hk) (by simp [clock, htm, hl])
              exact absurd hr (hres hP h _ r rfl hg)
            · cases h
          · split at h
            · cases h
            · rw [if_neg (by rw [unseen_never hj hP (.inl hsl)]; simp)] at h
              obtain ⟨t, -, hr⟩ := Outcome.bind_eq_ok.1 h
              cases hr
    · split at h
      · exact .inl ⟨by assumption, by assumption⟩
      · cases h
    · cases h
  · cases h
  · cases h

namespace Spec

section

variable {a : Args} {w : World} {j : Job} {P : List Instr} {r : Ran} {t : List (Chan × Str)}

/-- C65: where without `--graceful` an exception ends the program once the input has been read, with `--graceful` the exception is caught, and what belongs to the end is written. -/
theorem c65_always_caught (hg : a.graceful = true) (hs : a.report = some "stats".toList → Countable j.layout) (hj : prepare a w = (Outcome.ok (Step.goes j) : Act _)) (hP : j.program = .ok (P, true))
    (h : program { a with graceful := false } w = .throws) :
    ∃ r t, r.phase = .failed ∧ (program a w = .ok (.caught j P r t) ∨ program a w = .ok (.sliced j P r t)) := by
  have hprep : prepare { a with graceful := false } w = prepare a w := prepare_congr rfl ⟨fun _ _ _ => rfl, fun _ _ _ => rfl, rfl, fun _ _ => rfl, rfl, rfl, rfl, rfl⟩
  have hrep : j.report = .stats → Countable j.layout := fun e => hs (stats_asked hj e)
  have hfail : ∀ {late r}, sliceT w late j P = some r → r.phase = .failed := by
    intro late r hr
    rcases sliceT_caught hj hr with rfl | ⟨ρ, R, rs, s, A, l, -, -, -, -, -, c, -⟩
    · rfl
    · exact c
  have done : ∀ {r}, sliceT w (clock a w) j P = some r → (∃ t, transcript a w j r = .ok t) ∧ r.phase = .failed := fun hr => ⟨transcript_ok hj hP hrep (.inr ⟨_, hr⟩), hfail hr⟩
  unfold program at h ⊢
  rw [hprep, hj] at h
  rw [hj]
  dsimp only at h ⊢
  unfold perform at h ⊢
  rw [hP] at h ⊢
  dsimp only at h ⊢
  rw [if_neg (by simp)] at h ⊢
  cases hsl : slice w j P with
  | ub => unfold ran at h; rw [hsl] at h; cases h
  | throws =>
    unfold ran
    rw [hsl]
    dsimp only
    rw [if_pos hg]
    cases hi : DSlice.init j.layout (coreQubits j.size) with
    | throws =>
      dsimp only
      obtain ⟨y, hy⟩ := reportText_ok (a := a) (w := w) (r := ⟨[], 0, 1, .failed⟩) hrep
      have ht : transcript a w j ⟨[], 0, 1, .failed⟩ = .ok (halted w ++ y ++ closing a j) := by
        unfold transcript
        dsimp only
        rw [hy]
        rfl
      refine ⟨⟨[], 0, 1, .failed⟩, halted w ++ y ++ closing a j, rfl, .inr ?_⟩
      rw [if_neg (by simp [outOfTime, shown]), if_neg (by simp [hg]), if_neg (by simp [unseen, visitAll]), ht]
      rfl
    | ok s =>
      obtain ⟨r, hr⟩ := slice_halts.throws (by rw [hi]; simp) hsl (clock a w)
      obtain ⟨⟨t, ht⟩, hf⟩ := done hr
      exact ⟨r, t, hf, .inl (caught_rescue hg hr ht)⟩
    | ub =>
      obtain ⟨r, hr⟩ := slice_halts.throws (by rw [hi]; simp) hsl (clock a w)
      obtain ⟨⟨t, ht⟩, hf⟩ := done hr
      exact ⟨r, t, hf, .inl (caught_rescue hg hr ht)⟩
  | ok o =>
    unfold ran at h ⊢
    rw [hsl] at h ⊢
    dsimp only at h ⊢
    cases o with
    | none =>
      dsimp only at h
      unfold rescue at h
      cases h
    | some r0 =>
      dsimp only at h ⊢
      by_cases hot : outOfTime a w r0 = true
      · rw [if_pos hot, if_pos hg]
        unfold outOfTime at hot
        rw [Bool.and_eq_true, List.any_eq_true] at hot
        obtain ⟨htm, k, hk, hl⟩ := hot
        obtain ⟨r, hr, -⟩ := slice_halts.given r0 (clock a w) k hsl (List.mem_range.1 hk) (by simp [clock, htm, hl])
        obtain ⟨⟨t, ht⟩, hf⟩ := done hr
        exact ⟨r, t, hf, .inl (caught_rescue hg hr ht)⟩
      · rw [if_neg (show ¬ outOfTime { a with graceful := false } w r0 = true from hot)] at h
        obtain ⟨t, ht⟩ := transcript_ok (a := { a with graceful := false }) (hprep.trans hj) hP hrep (.inl hsl)
        by_cases hf : r0.phase = .failed
        · obtain ⟨t', ht'⟩ := transcript_ok hj hP hrep (.inl hsl)
          refine ⟨r0, t', hf, .inr ?_⟩
          rw [if_neg hot, if_neg (by simp [hg]), if_neg (by rw [unseen_never hj hP (.inl hsl)]; simp), ht']
          rfl
        · rw [if_neg (by simp [hf]), if_neg (by simp), ht] at h
          cases h

/-- C66: what is written for the slices is a JSON array of their drawings, if any slice was shown, also when an exception was caught. -/
theorem c66_caught_json (h : program a w = .ok (.caught j P r t)) (hn : a.noSlices = false) (hl : a.printLli = none) (hne : shown r.obs ≠ []) :
    Json.Spec.Album j.layout (shown r.obs) (bulk t) := by
  obtain ⟨h1, h2, -, -, h5, h6⟩ := program_caught h
  have hp : prints a j = true := by simp [prints, hn, (asked h1).json hl]
  have hr : r.phase ≠ .running := by
    rcases sliceT_caught h1 h5 with rfl | ⟨ρ, R, rs, s, A, l, -, -, -, -, -, c, -⟩
    · nofun
    · rw [c]; nofun
  obtain ⟨x, e1, e2⟩ := transcript_bulk h6 hr
  have hw := visitAll_written hp e1
  obtain ⟨-, hd⟩ := slice_seen h1 h2 (.inr ⟨_, h5⟩)
  obtain ⟨tx, f1, f2⟩ := Json.Spec.c61_array (fun s hs => hd s (mem_shown.1 hs)) hne
  have e3 : bulk (closing a j) = "]\n".toList := by simp [closing, hp, lineEnd, (asked h1).json hl, bulk, arrives]
  have : Json.output j.layout (shown r.obs) = .ok (bulk t) := by
    unfold Json.output
    simp at hw
    rw [hw, Outcome.bind_ok, e2, e3]
  rw [this] at f1
  cases f1
  exact f2

/-- C66: with `--printlli sliced` the instructions are written slice by slice, also when an exception was caught. -/
theorem c66_caught_sliced (h : program a w = .ok (.caught j P r t)) (hl : a.printLli ≠ none) : Sliced.slicedLli r.obs = .ok (bulk t) := by
  obtain ⟨h1, h2, -, -, h5, h6⟩ := program_caught h
  have hj := (asked h1).sliced hl
  have hr : r.phase ≠ .running := by
    rcases sliceT_caught h1 h5 with rfl | ⟨ρ, R, rs, s, A, l, -, -, -, -, -, c, -⟩
    · nofun
    · rw [c]; nofun
  obtain ⟨x, e1, e2⟩ := transcript_bulk h6 hr
  have hp : prints a j = false := by simp [prints, hj]
  unfold Sliced.slicedLli
  rw [visitAll_sliced hj e1, Outcome.bind_ok, e2]
  congr 2
  simp [closing, hp, lineEnd, hj, bulk, arrives]

end

/-! ## Examples -/

/-- The hypotheses of `c65_always_caught`, with statistics. -/
example : ∃ j P, prepare { tightArgs with noSlices := true, report := some "stats".toList } bareWorld = (Outcome.ok (Step.goes j) : Act _) ∧ j.program = .ok (P, true) ∧ Countable j.layout ∧
    program { tightArgs with noSlices := true, report := some "stats".toList, graceful := false } bareWorld = .throws := by
  have h : (match prepare { tightArgs with noSlices := true, report := some "stats".toList } bareWorld with
    | .ok (.goes j) => (match j.program with | .ok (_, b) => b | _ => false) &&
      decide (Countable j.layout)
    | _ => false) = true := by decide +kernel
  have h' : (match program { tightArgs with noSlices := true, report := some "stats".toList, graceful := false } bareWorld with | .throws => true | _ => false) = true := by decide +kernel
  split at h
  · rename_i j e
    rw [Bool.and_eq_true] at h
    obtain ⟨h1, h2⟩ := h
    split at h1
    · rename_i P b e2
      subst h1
      refine ⟨j, P, e, e2, of_decide_eq_true h2, ?_⟩
      split at h'
      · assumption
      · cases h'
    · cases h1
  · cases h

/-- The hypotheses of `c66_caught_json`. -/
example : ∃ j P r t, program tightArgs bareWorld = .ok (.caught j P r t) ∧ tightArgs.noSlices = false ∧ tightArgs.printLli = none ∧ shown r.obs ≠ [] := by
  have h : caughtView (program tightArgs bareWorld) = some (1, 1, 1, 1) := by decide +kernel
  obtain ⟨j, P, r, t, h, -, -, e3, -⟩ := view_caught h
  exact ⟨j, P, r, t, h, rfl, rfl, fun e => by rw [e] at e3; cases e3⟩

/-- The hypotheses of `c66_caught_sliced`. -/
example : ∃ j P r t, program { tightArgs with printLli := some "sliced".toList } bareWorld = .ok (.caught j P r t) ∧ bulk t = "HGate 0;\nHGate 0;\n".toList := by
  have h : (match program { tightArgs with printLli := some "sliced".toList } bareWorld with
    | .ok (.caught _ _ _ t) => decide (bulk t = "HGate 0;\nHGate 0;\n".toList)
    | _ => false) = true := by decide +kernel
  split at h
  · rename_i j P r t e
    exact ⟨j, P, r, t, e, of_decide_eq_true h⟩
  · cases h

end Spec

end Verif.Slicer
