import Verif.Sliced
import Verif.LliProps

/-! # The instructions written slice by slice can be read back (C63) -/

namespace Verif.Sliced.Spec

open Verif Verif.Lli Verif.Lli.Spec Verif.Pipe Verif.Pipe.Spec Verif.Wave Verif.Apply Verif.Real.Spec Verif.Slices.Spec

section
variable {σ : Type}

/-- The instructions shown before the first slice, between the first and the second, and so on; at last those shown after the last slice. -/
def shares : List (Obs σ) → List (List Instr)
  | [] => [[]]
  | .slice _ :: L => [] :: shares L
  | .instr i :: L =>
    match shares L with
    | [] => [[i]]
    | g :: gs => (i :: g) :: gs

/-- The line has one entry for each of the instructions, in their order, which is what `operator<<` writes for it, and nothing else. -/
def Lists (g : List Instr) (line : Str) : Prop :=
  line = ((entries line).map (· ++ [';'])).flatten ∧ (entries line).length = g.length ∧
  ∀ (j : Nat) i, g[j]? = some i → ∃ w, (entries line)[j]? = some w ∧ printOp i.op = .ok w

/-! ## Proofs -/

theorem shares_length (L : List (Obs σ)) : (shares L).length = (slices L).length + 1 := by
  induction L with
  | nil => rfl
  | cons o L ih =>
    cases o with
    | slice s => simp only [shares, slices, List.length_cons, List.filterMap_cons] at *; omega
    | instr i =>
      simp only [shares, slices, List.filterMap_cons] at *
      split
      · rename_i e; rw [e] at ih; simp at ih
      · rename_i e; rw [e] at ih; simpa using ih

theorem lists_nil : Lists [] [] := ⟨rfl, rfl, by simp⟩

theorem lists_cons {i : Instr} {g : List Instr} {w line : Str} (hw : Shaped w) (hp : printOp i.op = .ok w) (h : Lists g line) : Lists (i :: g) (w ++ ';' :: line) := by
  unfold Lists
  rw [entries_shaped hw]
  obtain ⟨h1, h2, h3⟩ := h
  refine ⟨?_, by simp [h2], ?_⟩
  · rw [List.map_cons, List.flatten_cons, ← h1]; simp
  · intro j x hx
    cases j with
    | zero => cases hx; exact ⟨w, rfl, hp⟩
    | succ j => exact h3 j x hx

theorem go_lines : ∀ {L : List (Obs σ)} {t : Str}, (∀ i ∈ instrs L, ∀ ids, i.op ≠ .declare ids) → slicedGo L = .ok t →
    (pieces '\n' t).length = (shares L).length ∧ ∀ (j : Nat) g, (shares L)[j]? = some g → ∃ line, (pieces '\n' t)[j]? = some line ∧ Lists g line
  | [], t, _, h => by
    cases h
    refine ⟨rfl, ?_⟩
    intro j g hg
    cases j with
    | zero => cases hg; exact ⟨[], rfl, lists_nil⟩
    | succ j => simp [shares] at hg
  | .slice s :: L, t, hd, h => by
    rw [slicedGo] at h
    obtain ⟨b, h1, h⟩ := Outcome.bind_eq_ok.1 h
    cases h
    obtain ⟨h2, h3⟩ := go_lines (L := L) hd h1
    have e : pieces '\n' ('\n' :: b) = [] :: pieces '\n' b := by simp [pieces]
    rw [e, shares]
    refine ⟨by simp [h2], ?_⟩
    intro j g hg
    cases j with
    | zero => cases hg; exact ⟨[], rfl, lists_nil⟩
    | succ j => exact h3 j g hg
  | .instr i :: L, t, hd, h => by
    rw [slicedGo] at h
    obtain ⟨w, h0, h⟩ := Outcome.bind_eq_ok.1 h
    obtain ⟨b, h1, h⟩ := Outcome.bind_eq_ok.1 h
    cases h
    obtain ⟨h2, h3⟩ := go_lines (L := L) (fun j hj => hd j (by simp [instrs] at hj ⊢; exact .inr hj)) h1
    have hw := shaped_print (hd i (by simp [instrs])) h0
    have e : pieces '\n' (w ++ ';' :: b) = consHead (w ++ [';']) (pieces '\n' b) := by
      have key : ∀ (w b : Str), '\n' ∉ w → pieces '\n' (w ++ b) = consHead w (pieces '\n' b) := by
        intro w b hw
        induction w with
        | nil =>
          cases hp : pieces '\n' b with
          | nil => exact absurd hp (pieces_ne_nil _ _)
          | cons p ps => simp [consHead, hp]
        | cons c w ih =>
          simp only [List.mem_cons, not_or] at hw
          rw [List.cons_append, pieces, if_neg (fun e => hw.1 e.symm), ih hw.2]
          cases hp : pieces '\n' b with
          | nil => exact absurd hp (pieces_ne_nil _ _)
          | cons p ps => simp [consHead]
      rw [← key _ _ (by simp [hw.no_break])]
      simp
    cases hp : pieces '\n' b with
    | nil => exact absurd hp (pieces_ne_nil _ _)
    | cons p ps =>
      rw [hp] at h2 h3
      cases hs : shares L with
      | nil => rw [hs] at h2; simp at h2
      | cons g0 gs =>
        rw [hs] at h2 h3
        rw [e, hp, shares, hs]
        refine ⟨by simpa [consHead] using h2, ?_⟩
        intro j g hg
        cases j with
        | zero =>
          cases hg
          obtain ⟨line, e1, e2⟩ := h3 0 g0 rfl
          cases e1
          exact ⟨_, rfl, by simpa [consHead] using lists_cons hw h0 e2⟩
        | succ j => exact h3 (j + 1) g hg

theorem pieces_end : ∀ t : Str, pieces '\n' (t ++ ['\n']) = pieces '\n' t ++ [[]]
  | [] => by simp [pieces]
  | c :: t => by
    rw [List.cons_append, pieces, pieces, pieces_end t]
    split
    · rfl
    · cases hp : pieces '\n' t with
      | nil => exact absurd hp (pieces_ne_nil _ _)
      | cons p ps => simp

theorem go_ok : ∀ {L : List (Obs σ)}, (∀ i ∈ instrs L, Windowed i) → ∃ t, slicedGo L = .ok t
  | [], _ => ⟨[], rfl⟩
  | .slice s :: L, h => by
    obtain ⟨t, ht⟩ := go_ok (L := L) h
    exact ⟨_, by rw [slicedGo, ht]; rfl⟩
  | .instr i :: L, h => by
    obtain ⟨t, ht⟩ := go_ok (L := L) (fun j hj => h j (by simp [instrs] at hj ⊢; exact .inr hj))
    obtain ⟨w, hw⟩ := windowed_print (h i (by simp [instrs]))
    exact ⟨_, by rw [slicedGo, hw, Outcome.bind_ok, ht]; rfl⟩

end

/-! ## C63 -/

section
variable {ρ : Type} {ctx : Ctx ρ} {realloc : Nat → Bool} {P : List Instr} {s : Mach ρ} {k : Loop} {A : List (Obs (Mach ρ))} {t : Str}

/-- C63: in every pipeline, what is written has one line for each slice shown and one more; the entries of a line are the
instructions shown since the slice before, as they are printed. -/
theorem c63_lines (h : Account (Real.env ctx realloc) P s k A) (ht : slicedLli A = .ok t) :
    ∃ lines, pieces '\n' t = lines ++ [[]] ∧ lines.length = (slices A).length + 1 ∧
      ∀ (j : Nat) g, (shares A)[j]? = some g → ∃ line, lines[j]? = some line ∧ Lists g line := by
  obtain ⟨b, h1, h2⟩ := Outcome.bind_eq_ok.1 ht
  cases h2
  obtain ⟨h3, h4⟩ := go_lines (account_declare h) h1
  exact ⟨_, pieces_end b, by rw [h3, shares_length], h4⟩

/-- C63: from what is written one can tell how many slices were shown and how the instructions shown between two slices look. -/
theorem c63_faithful {ρ' : Type} {ctx' : Ctx ρ'} {realloc' : Nat → Bool} {P' : List Instr} {s' : Mach ρ'} {k' : Loop} {A' : List (Obs (Mach ρ'))}
    (h : Account (Real.env ctx realloc) P s k A) (h' : Account (Real.env ctx' realloc') P' s' k' A') (ht : slicedLli A = .ok t) (ht' : slicedLli A' = .ok t) :
    (slices A).length = (slices A').length ∧ ∀ (j : Nat) g g', (shares A)[j]? = some g → (shares A')[j]? = some g' →
      g.length = g'.length ∧ ∀ (n : Nat) i i', g[n]? = some i → g'[n]? = some i' → printOp i.op = printOp i'.op := by
  obtain ⟨l, e, h1, h2⟩ := c63_lines h ht
  obtain ⟨l', e', h1', h2'⟩ := c63_lines h' ht'
  rw [e] at e'
  have el := List.append_cancel_right e'
  subst el
  refine ⟨by omega, ?_⟩
  intro j g g' hg hg'
  obtain ⟨line, a1, -, a2, a3⟩ := h2 j g hg
  obtain ⟨line', b1, -, b2, b3⟩ := h2' j g' hg'
  rw [a1] at b1
  cases b1
  refine ⟨by omega, ?_⟩
  intro n i i' hi hi'
  obtain ⟨w, c1, c2⟩ := a3 n i hi
  obtain ⟨w', d1, d2⟩ := b3 n i' hi'
  rw [c1] at d1
  cases d1
  rw [c2, d2]

/-- C63: entries of the kinds the text can carry (C03) read back to the operation that was shown. -/
theorem c63_read (h : Account (Real.env ctx realloc) P s k A) (ht : slicedLli A = .ok t) {j n : Nat} {g : List Instr} {i : Instr}
    (hg : (shares A)[j]? = some g) (hi : g[n]? = some i) (hc : Carried i.op) :
    ∃ line w r, (pieces '\n' t)[j]? = some line ∧ (entries line)[n]? = some w ∧ parseInstr w = .ok r ∧ r.op = i.op := by
  obtain ⟨l, e, h1, h2⟩ := c63_lines h ht
  obtain ⟨line, a1, -, -, a3⟩ := h2 j g hg
  obtain ⟨w, c1, c2⟩ := a3 n i hi
  obtain ⟨w', r, d1, d2, d3⟩ := c02_roundtrip_partial i.op hc
  rw [c2] at d1
  cases d1
  refine ⟨line, w, r, ?_, c1, d2, d3⟩
  rw [e, List.getElem?_append_left (List.getElem?_eq_some_iff.1 a1).1]
  exact a1

/-- C63: printing what is shown before a slice never fails and never reads past the end of a list of local operations. -/
theorem c63_defined (hP : ∀ i ∈ P, Plain i ∧ ∀ q d, i.op ≠ .sq q .I d) {B : List (Obs (Mach ρ))} {m : Mach ρ} (h : Account (Real.env ctx realloc) P s k (A ++ .slice m :: B)) :
    ∃ t, slicedLli (A ++ [.slice m]) = .ok t := by
  obtain ⟨L', g1, g2, g3⟩ := account_ghost h
  have hw := Real.account_lift g3 (fun x hx => account_keeps (fine_keeps realloc) (Real.ghost_one (Real.one_followup ctx realloc)) (Real.ghost_alone (Real.fails_alone ctx realloc))
    (by simp) (fun i hi => plain_windowed (hP i hi).1 (hP i hi).2) g1 hx) g2
  obtain ⟨t, ht⟩ := go_ok (L := A ++ [.slice m]) (by rw [instrs_append]; simpa [instrs] using hw)
  exact ⟨_, by unfold slicedLli; rw [ht]; rfl⟩

/-- C63: when a run of the streamed pipeline has ended, the whole text has been written. -/
theorem c63_streamed (hP : ∀ i ∈ P, Plain i ∧ ∀ q d, i.op ≠ .sq q .I d) {n : Nat} {c : Ctl} {st : SSt (Mach ρ)} (h : srun (Real.env ctx realloc) n (sstart s P) = .ok (c, st))
    (hc : c ≠ .go) : ∃ t, slicedLli (st.events.filterMap Ev.obs) = .ok t := by
  obtain ⟨L, e, -⟩ := (c57_streamed _ _ _ _ _ h).2 hc
  have ha := Account.streamed n h
  rw [e] at ha ⊢
  exact c63_defined hP ha

end

/-! ### Examples -/

/-- What is written for the run of the example of C59 in the streamed pipeline. -/
def stayText : Str := ("BellBasedCNOT 8 7 11 12 [BellPrepare (0,1),(0,2);BellPrepare (1,2),(1,3)];\n" ++
  "BellBasedCNOT 8 7 11 12 [MergeContract (0,3),(1,3);MergeContract (0,0),(0,1);BellMeasure (0,2),(1,2)];\n" ++
  "HGate 7;XGate 8;RotateSingleCellPatch 7;\nBusyRegion (0,0),(0,1),StepsToClear(2);\nBusyRegion (0,0),(0,1),StepsToClear(1);\n" ++
  "BusyRegion (0,0),(0,1),StepsToClear(0);XGate 7;\n\n").toList

theorem stay_text : (do let L ← stayStreamed; slicedLli L) = .ok stayText := by decide +kernel

theorem stay_written : ∃ s L, DSlice.init stayLayout [7, 8] = .ok s ∧ Account (Real.env stayCtx fun _ => false) stayProg ⟨s, (), 1⟩ .streamed L ∧ slicedLli L = .ok stayText := by
  obtain ⟨L, h1, h2⟩ := Outcome.bind_eq_ok.1 stay_text
  obtain ⟨s, hs, h⟩ := Outcome.bind_eq_ok.1 h1
  obtain ⟨x, hx, h⟩ := Outcome.bind_eq_ok.1 h
  cases h
  exact ⟨s, _, hs, .streamed 60 hx, h2⟩

/-- The hypotheses of `c63_lines` and (with the same run twice) `c63_faithful` are met by a run that writes seven lines. -/
example : ∃ (s : DSlice) (L : List (Obs (Mach Unit))), Account (Real.env stayCtx fun _ => false) stayProg ⟨s, (), 1⟩ .streamed L ∧ slicedLli L = .ok stayText ∧
    (pieces '\n' stayText).length = 8 := by
  obtain ⟨s, L, -, h1, h2⟩ := stay_written
  exact ⟨s, L, h1, h2, by decide +kernel⟩

/-- The hypotheses of `c63_read` are met by the gate and by the rotation shown before the third slice. -/
example : ∃ (s : DSlice) (L : List (Obs (Mach Unit))) (g : List Instr) (i j : Instr), Account (Real.env stayCtx fun _ => false) stayProg ⟨s, (), 1⟩ .streamed L ∧
    slicedLli L = .ok stayText ∧ (shares L)[2]? = some g ∧ g[0]? = some i ∧ i.op = .sq 7 .H false ∧ Carried i.op ∧ g[2]? = some j ∧ j.op = .rotate 7 ∧ Carried j.op := by
  obtain ⟨s, L, hs, h1, h2⟩ := stay_written
  have hv : view stayStreamed (fun L => (shares L)[2]?.map fun g => g.map (·.op)) = some (some [.sq 7 .H false, .sq 8 .X false, .rotate 7]) := by decide +kernel
  obtain ⟨L', e1, e2⟩ := view_some hv
  obtain ⟨g, hg, e3⟩ := Option.map_eq_some_iff.1 e2
  obtain ⟨s, hs, h⟩ := Outcome.bind_eq_ok.1 e1
  obtain ⟨x, hx, h⟩ := Outcome.bind_eq_ok.1 h
  cases h
  have key : ∀ (n : Nat) o, (g.map (·.op))[n]? = some o → ∃ i : Instr, g[n]? = some i ∧ i.op = o := by
    intro n o h
    rw [List.getElem?_map] at h
    obtain ⟨i, h1, h2⟩ := Option.map_eq_some_iff.1 h
    exact ⟨i, h1, h2⟩
  rw [e3] at key
  obtain ⟨a, ga, ea⟩ := key 0 _ rfl
  obtain ⟨c, gc, ec⟩ := key 2 _ rfl
  refine ⟨s, _, _, a, c, .streamed 60 hx, ?_, hg, ga, ea, by rw [ea]; exact ⟨by omega, .inl rfl, rfl⟩, gc, ec, by rw [ec]; exact (by omega : 7 < 2 ^ 31)⟩
  have := stay_text
  rw [e1] at this
  exact this

theorem stay_named : ∀ i ∈ stayProg, Plain i ∧ ∀ q d, i.op ≠ .sq q .I d := by
  intro i hi
  refine ⟨stay_plain i hi, ?_⟩
  simp only [stayProg, List.mem_cons, List.not_mem_nil, or_false] at hi
  rcases hi with rfl | rfl | rfl | rfl | rfl <;> simp [laneCnot]

/-- The hypotheses of `c63_defined` and `c63_streamed` are met by the same run. -/
example : (∀ i ∈ stayProg, Plain i ∧ ∀ q d, i.op ≠ .sq q .I d) ∧
    view (do let s ← DSlice.init stayLayout [7, 8]; srun (Real.env stayCtx fun _ => false) 60 (sstart ⟨s, (), 1⟩ stayProg)) (fun x => decide (x.1 ≠ .go)) = some true :=
  ⟨stay_named, by decide +kernel⟩

/-- C63 fails for readers that cut at every semicolon, as the description of the option has it: in this run the first line
has one instruction and two semicolons. -/
theorem c63_semicolons : ∃ (s : DSlice) (L : List (Obs (Mach Unit))) (t line : Str), DSlice.init stayLayout [7, 8] = .ok s ∧
    Account (Real.env stayCtx fun _ => false) stayProg ⟨s, (), 1⟩ .streamed L ∧ slicedLli L = .ok t ∧ (pieces '\n' t)[0]? = some line ∧
    (entries line).length = 1 ∧ pieces ';' line = ["BellBasedCNOT 8 7 11 12 [BellPrepare (0,1),(0,2)".toList, "BellPrepare (1,2),(1,3)]".toList, []] := by
  obtain ⟨s, L, hs, h1, h2⟩ := stay_written
  exact ⟨s, L, stayText, "BellBasedCNOT 8 7 11 12 [BellPrepare (0,1),(0,2);BellPrepare (1,2),(1,3)];".toList, hs, h1, h2, by decide +kernel, by decide +kernel, by decide +kernel⟩

end Verif.Sliced.Spec
