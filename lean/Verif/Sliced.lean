import Verif.Lli
import Verif.StayProps
import Verif.BellRun
import Verif.LliLemmas

/-! # The instructions written slice by slice (model and lemmas)

Models the visitors that `run_slicer_program` uses with `--printlli sliced` (`/repo/src/pipelines/slicer.cpp:634-648, 688-689`).
The progress line (written once a second to the standard output) and the report at the end are left out; with `-o` they go elsewhere.
-/

namespace Verif.Sliced

open Verif Verif.Lli Verif.Pipe Verif.Pipe.Spec Verif.Wave Verif.Apply Verif.Slices.Spec

section
variable {σ : Type}

/-- slicer.cpp:637-648: an instruction is written with a semicolon, a slice as the end of the line. -/
def slicedGo : List (Obs σ) → Outcome Str
  | [] => .ok []
  | .instr i :: L => do
    let a ← printOp i.op
    let b ← slicedGo L
    .ok (a ++ ';' :: b)
  | .slice _ :: L => do
    let b ← slicedGo L
    .ok ('\n' :: b)

/-- slicer.cpp:688-689: at the end of the run one more line is ended. -/
def slicedLli (L : List (Obs σ)) : Outcome Str := do
  let a ← slicedGo L
  .ok (a ++ ['\n'])

end

/-! ## A reader -/

/-- The entries of a line: each is ended by a semicolon outside square brackets; what follows the last one is dropped. -/
def entriesGo : Bool → Str → Str → List Str
  | _, _, [] => []
  | true, cur, c :: t => entriesGo (c ≠ ']') (cur ++ [c]) t
  | false, cur, c :: t => if c = ';' then cur :: entriesGo false [] t else entriesGo (c = '[') (cur ++ [c]) t

def entries (line : Str) : List Str := entriesGo false [] line

/-! ## Printed instructions have semicolons in brackets only -/

/-- Neither a separator nor a bracket. -/
def Dull (w : Str) : Prop := ∀ c ∈ w, c ≠ ';' ∧ c ≠ '[' ∧ c ≠ ']' ∧ c ≠ '\n'

/-- May stand in brackets. -/
def Inner (w : Str) : Prop := ∀ c ∈ w, c ≠ ']' ∧ c ≠ '\n'

theorem Dull.append {a b : Str} (ha : Dull a) (hb : Dull b) : Dull (a ++ b) := by
  intro c hc
  rcases List.mem_append.1 hc with h | h
  · exact ha c h
  · exact hb c h

theorem Dull.cons {c : Char} {b : Str} (hc : c ≠ ';' ∧ c ≠ '[' ∧ c ≠ ']' ∧ c ≠ '\n') (hb : Dull b) : Dull (c :: b) := by
  intro x hx
  rcases List.mem_cons.1 hx with rfl | h
  · exact hc
  · exact hb x h

theorem dull_nil : Dull [] := by intro c hc; cases hc

theorem Inner.append {a b : Str} (ha : Inner a) (hb : Inner b) : Inner (a ++ b) := by
  intro c hc
  rcases List.mem_append.1 hc with h | h
  · exact ha c h
  · exact hb c h

theorem Dull.inner {a : Str} (h : Dull a) : Inner a := fun c hc => ⟨(h c hc).2.2.1, (h c hc).2.2.2⟩

theorem dull_showNat (n : Nat) : Dull (showNat n) := by
  intro c hc
  have := showNat_digits n c hc
  refine ⟨?_, ?_, ?_, ?_⟩ <;> (rintro rfl; revert this; decide)

theorem dull_showInt (z : Int) : Dull (showInt z) := by
  unfold showInt
  split
  · exact .cons (by decide) (dull_showNat _)
  · exact dull_showNat _

theorem dull_pauli (p : Pauli) : Dull (pauliStr p) := by cases p <;> (unfold Dull pauliStr; decide)

theorem dull_state (s : InitState) : Dull (stateStr s) := by cases s <;> (unfold Dull stateStr; decide)

theorem dull_next (n : NextTo) : Dull (nextStr n) := (dull_showNat _).append (.cons (by decide) (dull_pauli _))

theorem dull_cell (c : Cell) : Dull (cellStr c) := by
  unfold cellStr
  exact .append (.append (.cons (by decide) (dull_showInt _)) (.cons (by decide) (dull_showInt _))) (.cons (by decide) dull_nil)

theorem dull_local (l : LocalInstr) : Dull (localStr l) := by
  have h2 : ∀ (n : Str) (a b : Cell), Dull n → Dull (n ++ cellStr a ++ ',' :: cellStr b) := fun n a b h =>
    (h.append (dull_cell a)).append (.cons (by decide) (dull_cell b))
  cases l with
  | prepareY _ c => exact .append (by unfold Dull; decide) (dull_cell c)
  | bellPrepare _ _ a b => exact h2 _ a b (by unfold Dull; decide)
  | bellMeasure a b => exact h2 _ a b (by unfold Dull; decide)
  | twoPatchMeasure a b => exact h2 _ a b (by unfold Dull; decide)
  | extendSplit _ a b => exact h2 _ a b (by unfold Dull; decide)
  | mergeContract a b => exact h2 _ a b (by unfold Dull; decide)
  | move a b _ => exact h2 _ a b (by unfold Dull; decide)

theorem inner_range {v : List LocalInstr} {second : Nat} : ∀ {n i : Nat} {t : Str}, localRange v second n i = .ok t → Inner t
  | 0, i, t, h => by cases h; exact dull_nil.inner
  | n + 1, i, t, h => by
    rw [localRange] at h
    split at h
    · split at h
      · cases h
      · obtain ⟨rest, h1, h⟩ := Outcome.bind_eq_ok.1 h
        cases h
        refine .append (.append (dull_local _).inner ?_) (inner_range h1)
        intro c hc
        split at hc
        · rw [List.mem_singleton.1 hc]; decide
        · cases hc
    · cases h; exact dull_nil.inner

theorem inner_phases {pairs : List (Nat × Nat)} : ∀ {vs : List (List LocalInstr)} {k : Nat} {t : Str}, phasesStr pairs vs k = .ok t → Inner t
  | [], k, t, h => by cases h; exact dull_nil.inner
  | v :: vs, k, t, h => by
    rw [phasesStr] at h
    split at h
    · cases h
    · obtain ⟨a, h1, h⟩ := Outcome.bind_eq_ok.1 h
      obtain ⟨b, h2, h⟩ := Outcome.bind_eq_ok.1 h
      cases h
      exact (inner_range h1).append (inner_phases h2)

/-- Text that may be followed by text in brackets. -/
def Shaped (w : Str) : Prop := Dull w ∨ ∃ a b, w = a ++ " [".toList ++ b ++ [']'] ∧ Dull a ∧ Inner b

theorem dull_join (obs : List (Nat × Pauli)) : Dull (joinStr (obs.map obsEntry) [',']) := by
  have he : ∀ e : Nat × Pauli, Dull (obsEntry e) := fun e => (dull_showNat _).append (.cons (by decide) (dull_pauli _))
  have hf : ∀ (l : List (Nat × Pauli)) (x : Str), Dull x → Dull ((l.map obsEntry).foldl (fun acc v => acc ++ [','] ++ v) x) := by
    intro l
    induction l with
    | nil => intro x hx; exact hx
    | cons e l ih => intro x hx; exact ih _ ((hx.append (.cons (by decide) dull_nil)).append (he e))
  cases obs with
  | nil => exact dull_nil
  | cons e l => exact hf l _ (he e)

theorem dull_opt (b : Bool) (c : Char) (hc : c ≠ ';' ∧ c ≠ '[' ∧ c ≠ ']' ∧ c ≠ '\n') : Dull (if b then [c] else []) := by
  split
  · exact .cons hc dull_nil
  · exact dull_nil

theorem shaped_loc {a : Str} (ha : Dull a) (loc : Option LocalInstr) :
    Shaped (a ++ (match loc with | none => [] | some l => " [".toList ++ localStr l ++ [']'])) := by
  cases loc with
  | none => exact .inl (ha.append dull_nil)
  | some l => exact .inr ⟨a, localStr l, by simp, ha, (dull_local l).inner⟩

theorem shaped_print {op : Operation} {w : Str} (hd : ∀ ids, op ≠ .declare ids) (h : printOp op = .ok w) : Shaped w := by
  have hs : ∀ {t : Str}, Dull t → Dull (' ' :: t) := fun ht => .cons (by decide) ht
  cases op with
  | declare ids => exact absurd rfl (hd ids)
  | measure t o neg =>
    cases h
    refine .inl (.append (.append (by unfold Dull; decide) (dull_showNat _)) (hs (.append ?_ (dull_pauli o))))
    exact dull_opt neg '-' (by decide)
  | multi obs neg loc =>
    cases h
    exact shaped_loc (.append (.append (by unfold Dull; decide) (dull_opt neg '-' (by decide))) (dull_join obs)) loc
  | init t s nx =>
    cases h
    have h1 : Dull ("Init ".toList ++ showNat t ++ ' ' :: stateStr s) := .append (.append (by unfold Dull; decide) (dull_showNat _)) (hs (dull_state s))
    cases nx with
    | none => exact .inl (h1.append dull_nil)
    | some n => exact .inl (h1.append (hs (dull_next n)))
  | bell b =>
    have h1 : Dull ("BellPairInit ".toList ++ showNat b.side1 ++ ' ' :: showNat b.side2 ++ ' ' :: nextStr b.loc1 ++ ',' :: nextStr b.loc2) :=
      .append (.append (.append (.append (by unfold Dull; decide) (dull_showNat _)) (hs (dull_showNat _))) (hs (dull_next _))) (.cons (by decide) (dull_next _))
    unfold printOp at h
    obtain ⟨tail, h2, h⟩ := Outcome.bind_eq_ok.1 h
    cases h
    split at h2
    · obtain ⟨s, h3, h2⟩ := Outcome.bind_eq_ok.1 h2
      cases h2
      exact .inr ⟨_, s, by simp, h1, inner_range h3⟩
    · cases h2; exact .inl (h1.append dull_nil)
  | magic t n => cases h; exact .inl (.append (.append (by unfold Dull; decide) (dull_showNat _)) (hs (dull_showNat _)))
  | ystate t n loc =>
    cases h
    exact shaped_loc (.append (.append (by unfold Dull; decide) (dull_showNat _)) (hs (dull_showNat _))) loc
  | sq t o dg =>
    unfold printOp at h
    obtain ⟨nm, h2, h⟩ := Outcome.bind_eq_ok.1 h
    cases h
    refine .inl (.append (.append ?_ (by unfold Dull; decide)) (dull_showNat _))
    cases o <;> cases h2 <;> (unfold Dull; decide)
  | rotate t => cases h; exact .inl (.append (by unfold Dull; decide) (dull_showNat _))
  | busy r st af =>
    cases h
    refine .inl (.append (.append (.append (.append (by unfold Dull; decide) ?_) (by unfold Dull; decide)) (dull_showNat _)) (by unfold Dull; decide))
    intro c hc
    obtain ⟨o, -, hc⟩ := List.mem_flatMap.1 hc
    have : Dull ('(' :: showInt o.cell.row ++ ',' :: showInt o.cell.col ++ "),".toList) :=
      .append (.append (.cons (by decide) (dull_showInt _)) (.cons (by decide) (dull_showInt _))) (by unfold Dull; decide)
    exact this c hc
  | bellCnot c =>
    have h1 : Dull ("BellBasedCNOT ".toList ++ showNat c.control ++ ' ' :: showNat c.target ++ ' ' :: showNat c.side1 ++ ' ' :: showNat c.side2) :=
      .append (.append (.append (.append (by unfold Dull; decide) (dull_showNat _)) (hs (dull_showNat _))) (hs (dull_showNat _))) (hs (dull_showNat _))
    unfold printOp at h
    obtain ⟨tail, h2, h⟩ := Outcome.bind_eq_ok.1 h
    cases h
    split at h2
    · obtain ⟨s, h3, h2⟩ := Outcome.bind_eq_ok.1 h2
      cases h2
      exact .inr ⟨_, s, by simp, h1, inner_phases h3⟩
    · cases h2; exact .inl (h1.append dull_nil)
  | reset t => cases h; exact .inl (.append (by unfold Dull; decide) (dull_showNat _))

theorem Shaped.no_break {w : Str} (h : Shaped w) : '\n' ∉ w := by
  rcases h with h | ⟨a, b, rfl, ha, hb⟩
  · exact fun hm => (h _ hm).2.2.2 rfl
  · intro hm
    simp only [List.mem_append, List.mem_cons, List.not_mem_nil, or_false] at hm
    rcases hm with ((hm | hm) | hm) | hm
    · exact (ha _ hm).2.2.2 rfl
    · revert hm; decide
    · exact (hb _ hm).2 rfl
    · revert hm; decide

theorem entriesGo_dull {a : Str} (h : Dull a) : ∀ (cur t : Str), entriesGo false cur (a ++ t) = entriesGo false (cur ++ a) t := by
  induction a with
  | nil => intro cur t; simp
  | cons c a ih =>
    intro cur t
    have hc := h c (by simp)
    rw [List.cons_append, entriesGo, if_neg hc.1, show decide (c = '[') = false from decide_eq_false hc.2.1, ih (fun x hx => h x (List.mem_cons_of_mem _ hx))]
    simp

theorem entriesGo_inner {b : Str} (h : Inner b) : ∀ (cur t : Str), entriesGo true cur (b ++ t) = entriesGo true (cur ++ b) t := by
  induction b with
  | nil => intro cur t; simp
  | cons c b ih =>
    intro cur t
    have hc := h c (by simp)
    rw [List.cons_append, entriesGo, show decide (c ≠ ']') = true from decide_eq_true hc.1, ih (fun x hx => h x (List.mem_cons_of_mem _ hx))]
    simp

theorem entries_shaped {w : Str} (h : Shaped w) (t : Str) : entries (w ++ ';' :: t) = w :: entries t := by
  unfold entries
  rcases h with h | ⟨a, b, rfl, ha, hb⟩
  · rw [entriesGo_dull h, entriesGo]; simp
  · have e : a ++ " [".toList ++ b ++ [']'] ++ ';' :: t = a ++ (' ' :: '[' :: (b ++ (']' :: ';' :: t))) := by simp
    rw [e, entriesGo_dull ha, entriesGo, if_neg (by decide), show decide (' ' = '[') = false from rfl, entriesGo, if_neg (by decide)]
    rw [show decide ('[' = '[') = true from rfl, entriesGo_inner hb, entriesGo]
    rw [show decide (']' ≠ ']') = false from rfl, entriesGo, if_pos rfl]
    simp

/-! ## Printing never reads past the end of a list of local operations -/

/-- The windows of local operations to be printed lie in the lists; the operation is none that has no name. -/
def Windowed (i : Instr) : Prop :=
  match i.op with
  | .bell b => ∀ w ls, b.counter = some w → b.localInstrs = some ls → w.2 ≤ ls.length
  | .bellCnot c => ∀ ws sets, c.counterPairs = some ws → c.localSets = some sets →
      sets.length ≤ ws.length ∧ ∀ (k : Nat) w ls, ws[k]? = some w → sets[k]? = some ls → w.2 ≤ ls.length
  | .sq _ o _ => o ≠ .I
  | _ => True

theorem range_ok {v : List LocalInstr} {second : Nat} (h : second ≤ v.length) : ∀ n i, ∃ t, localRange v second n i = .ok t
  | 0, i => ⟨[], rfl⟩
  | n + 1, i => by
    obtain ⟨t, ht⟩ := range_ok h n (i + 1)
    rw [localRange]
    split
    · rw [List.getElem?_eq_getElem (by omega)]
      dsimp only
      rw [ht]
      exact ⟨_, rfl⟩
    · exact ⟨[], rfl⟩

theorem phases_ok {ws : List (Nat × Nat)} : ∀ {sets : List (List LocalInstr)} {k : Nat}, k + sets.length ≤ ws.length →
    (∀ (j : Nat) w ls, ws[k + j]? = some w → sets[j]? = some ls → w.2 ≤ ls.length) → ∃ t, phasesStr ws sets k = .ok t
  | [], k, _, _ => ⟨[], rfl⟩
  | ls :: sets, k, h1, h2 => by
    simp only [List.length_cons] at h1
    have hk : ws[k]? = some ws[k] := List.getElem?_eq_getElem (by omega)
    obtain ⟨a, ha⟩ := range_ok (h2 0 ws[k] ls hk rfl) (ws[k].2 - ws[k].1) ws[k].1
    obtain ⟨b, hb⟩ := phases_ok (ws := ws) (sets := sets) (k := k + 1) (by omega) (fun j w l e1 e2 => h2 (j + 1) w l (by rw [← e1]; congr 1; omega) e2)
    rw [phasesStr, hk]
    dsimp only [localsStr]
    rw [ha, Outcome.bind_ok, hb]
    exact ⟨_, rfl⟩

theorem windowed_print {i : Instr} (h : Windowed i) : ∃ w, printOp i.op = .ok w := by
  unfold Windowed at h
  cases e : i.op with
  | bell b =>
    rw [e] at h
    cases h1 : b.counter with
    | none => simp [printOp, h1]
    | some w =>
      cases h2 : b.localInstrs with
      | none => simp [printOp, h1, h2]
      | some ls =>
        obtain ⟨t, ht⟩ := range_ok (h w ls h1 h2) (w.2 - w.1) w.1
        simp [printOp, h1, h2, localsStr, ht]
  | bellCnot c =>
    rw [e] at h
    cases h1 : c.counterPairs with
    | none => simp [printOp, h1]
    | some w =>
      cases h2 : c.localSets with
      | none => simp [printOp, h1, h2]
      | some sets =>
        obtain ⟨h3, h4⟩ := h w sets h1 h2
        obtain ⟨t, ht⟩ := phases_ok (ws := w) (sets := sets) (k := 0) (by omega) (by simpa using h4)
        simp [printOp, h1, h2, ht]
  | sq t o dg =>
    rw [e] at h
    cases o <;> first | exact ⟨_, rfl⟩ | exact absurd rfl h
  | _ => exact ⟨_, rfl⟩

theorem windowed_wait {i : Instr} (k : Nat) (h : Windowed i) : Windowed { i with wait := k } := h

theorem plain_windowed {i : Instr} (h : Plain i) (hn : ∀ t d, i.op ≠ .sq t .I d) : Windowed i := by
  unfold Windowed
  unfold Plain at h
  cases e : i.op with
  | bell b => rw [e] at h; intro w ls h1; rw [h.1] at h1; cases h1
  | bellCnot c => rw [e] at h; intro w ls h1; rw [h.2.1] at h1; cases h1
  | sq t o d => rw [e] at hn; rintro rfl; exact hn t d rfl
  | _ => trivial

section
variable {ρ : Type} {ctx : Ctx ρ} {m : Mach ρ} {i : Instr} {r : Res (Mach ρ)}

/-- What an attempt leaves can be printed. -/
def Fine (r : Res (Mach ρ)) : Prop := Windowed r.instr ∧ ∀ f ∈ r.followups, Windowed f

theorem fine_same (h : Windowed i) (h1 : r.instr = i) (h2 : r.followups = []) : Fine r := by
  refine ⟨by rw [h1]; exact h, ?_⟩
  rw [h2]; simp

theorem fine_unchanged (h : Windowed i) (h1 : Unchanged i r) : Fine r := fine_same h h1.1 h1.2.2

theorem fine_self (h : Windowed r.instr) (h2 : r.followups = [] ∨ r.followups = [r.instr]) : Fine r := by
  refine ⟨h, ?_⟩
  rcases h2 with e | e <;> rw [e] <;> simp [h]

theorem fine_bell {b : BellInit} (hi : Windowed i) (e : i.op = .bell b) (h : applyBell ctx m i b = .ok r) : Fine r := by
  have key : ∀ {m : Mach ρ} {ls k}, k ≤ ls.length → bellInitRun ctx m i b ls k = .ok r → Fine r := by
    intro m ls k hk h
    obtain ⟨n, h1, h2, -, h3⟩ := bellInitRun_ok h
    refine fine_self ?_ (by rcases h3 with h3 | h3 <;> simp [h3])
    rw [h2]
    intro w l e1 e2
    cases e1; cases e2
    simp only [List.length_drop] at h1
    dsimp only
    omega
  rcases applyBell_ok h with h | ⟨w, ls, h1, h2, h⟩ | ⟨-, _, _, ls, -, -, -, h⟩
  · exact fine_unchanged hi h
  · unfold Windowed at hi; rw [e] at hi
    exact key (hi w ls h1 h2) h
  · exact key (by omega) h

theorem fine_cnotRun {c : BellCNOT} {ws : List (Nat × Nat)} {sets : List (List LocalInstr)} (hl : sets.length ≤ ws.length)
    (hw : ∀ (k : Nat) w ls, ws[k]? = some w → sets[k]? = some ls → w.2 ≤ ls.length) (h : cnotRun ctx m i c sets ws = .ok r) : Fine r := by
  obtain ⟨w, k, ps, ls, rest, n, e1, e2, h1, h2, -, h3⟩ := cnotRun_ok h
  refine fine_self ?_ (by rcases h3 with h3 | h3 <;> simp [h3])
  subst e1; subst e2
  have h0 := hw 0 (w, k) ls rfl rfl
  rw [h2]
  intro ws' sets' g1 g2
  cases g1; cases g2
  refine ⟨hl, ?_⟩
  intro j w' l' g3 g4
  cases j with
  | zero =>
    cases g3; cases g4
    simp only [List.length_drop] at h1
    dsimp only at h0 ⊢
    omega
  | succ j => exact hw (j + 1) w' l' g3 g4

theorem closeWindow_get {ws : List (Nat × Nat)} {k j : Nat} {w : Nat × Nat} (h : (closeWindow ws k)[j]? = some w) : ∃ w', ws[j]? = some w' ∧ w'.2 = w.2 := by
  unfold closeWindow at h
  rw [List.getElem?_modify] at h
  obtain ⟨w', h1, h2⟩ := Option.map_eq_some_iff.1 h
  refine ⟨w', h1, ?_⟩
  split at h2 <;> rw [← h2]

theorem closeWindow_length (ws : List (Nat × Nat)) (k : Nat) : (closeWindow ws k).length = ws.length := by simp [closeWindow]

theorem fine_cnotPhase {c : BellCNOT} {ws : List (Nat × Nat)} {sets : List (List LocalInstr)} {ph : Nat} (hc : c.localSets = some sets) (hl : sets.length ≤ ws.length)
    (hw : ∀ (k : Nat) w ls, ws[k]? = some w → sets[k]? = some ls → w.2 ≤ ls.length) (h : cnotPhase ctx m i c sets ws ph = .ok r) : Fine r := by
  obtain ⟨w, k, ls, n, e1, e2, h1, -, h3⟩ := cnotPhase_ok h
  have h0 := hw ph (w, k) ls e1 e2
  have hset : ∀ (ws' : List (Nat × Nat)), ws'.length = ws.length → (∀ (j : Nat) v, ws'[j]? = some v → ∃ v', ws[j]? = some v' ∧ v'.2 = v.2) →
      ∀ ph', Windowed { i with op := .bellCnot { c with counterPairs := some (ws'.set ph (k, k + n)), phase := ph' } } := by
    intro ws' g1 g2 ph' a b ea eb
    cases ea
    dsimp only at eb
    rw [hc] at eb
    cases eb
    refine ⟨by simp [g1, hl], ?_⟩
    intro j v l g3 g4
    rw [List.getElem?_set] at g3
    split at g3
    · rename_i ej
      subst ej
      split at g3
      · cases g3
        rw [e2] at g4
        cases g4
        simp only [List.length_drop] at h1
        dsimp only at h0 ⊢
        omega
      · cases g3
    · obtain ⟨v', g5, g6⟩ := g2 j v g3
      rw [← g6]
      exact hw j v' l g5 g4
  have hcl : ∀ ph', Windowed { i with op := .bellCnot { c with counterPairs := some ((closeWindow (if ph ≠ 0 then closeWindow ws (ph - 1) else ws) ph).set ph (k, k + n)), phase := ph' } } := by
    refine hset _ ?_ ?_
    · rw [closeWindow_length]; split <;> simp [closeWindow_length]
    · intro j v hv
      obtain ⟨v', h4, h5⟩ := closeWindow_get hv
      split at h4
      · obtain ⟨v2, h6, h7⟩ := closeWindow_get h4
        exact ⟨v2, h6, h7.trans h5⟩
      · exact ⟨v', h4, h5⟩
  rcases h3 with ⟨h4, h5⟩ | ⟨-, -, h4, h5⟩ | ⟨-, -, h4, h5⟩
  · refine fine_self ?_ (.inr h4); rw [h5]; exact hcl _
  · refine fine_self ?_ (.inl h4); rw [h5]; exact hcl _
  · refine fine_self ?_ (.inr h4); rw [h5]; exact hcl _

theorem fine_cnot {c : BellCNOT} (hi : Windowed i) (e : i.op = .bellCnot c) (h : applyCnot ctx m i c = .ok r) : Fine r := by
  have hi' := hi
  unfold Windowed at hi'
  rw [e] at hi'
  dsimp only at hi'
  rcases applyCnot_ok h with h | ⟨-, h⟩ | ⟨-, h⟩
  · exact fine_unchanged hi h
  · rcases applyCnotEdpc_ok h with h | ⟨h1, _, _, _, _, region', -, -, -, -, -, h2, -, h3⟩ | ⟨_, _, p, -, -, -, -, h2, -, h3⟩ | ⟨_, pairs, ph, sets, -, h2, -, h4, h⟩
    · exact fine_unchanged hi h
    · refine fine_self ?_ (.inr h3)
      rw [h2]
      exact hi'
    · refine fine_self ?_ (.inl h3)
      rw [h2]
      intro a b ea eb
      cases ea; cases eb
      refine ⟨by simp, ?_⟩
      intro k w l g1 g2
      match k, g1 with
      | 0, g1 => cases g1; exact Nat.zero_le _
      | 1, g1 => cases g1; exact Nat.zero_le _
      | 2, g1 => cases g1; exact Nat.zero_le _
      | 3, g1 => cases g1; exact Nat.zero_le _
      | k + 4, g1 => simp at g1
    · obtain ⟨g1, g2⟩ := hi' pairs sets h2 h4
      exact fine_cnotPhase h4 g1 g2 h
  · rcases applyCnotPlain_ok h with h | ⟨pairs, sets, h2, h4, h⟩ | ⟨-, _, _, _, l, -, -, -, -, h⟩
    · exact fine_unchanged hi h
    · obtain ⟨g1, g2⟩ := hi' pairs sets h2 h4
      exact fine_cnotRun g1 g2 h
    · refine fine_cnotRun (by simp) ?_ h
      intro k w l' g1 g2
      cases k with
      | zero => cases g1; exact Nat.zero_le _
      | succ k => simp at g1

/-- How the instruction an attempt leaves behind looks. -/
inductive Leaves (ctx : Ctx ρ) (m : Mach ρ) (i : Instr) (r : Res (Mach ρ)) : Prop
  | same (hd : ∀ ids, i.op ≠ .declare ids) (h1 : r.instr = i) (h2 : ∀ f ∈ r.followups, Windowed f) (h3 : ∀ f ∈ r.followups, (∃ q o d, f.op = .sq q o d) ∨ ∃ c n l, f.op = .busy c n l)
  | multi {obs neg loc} (h1 : r.instr.op = .multi obs neg loc) (h2 : r.followups = [])
  | ystate {t n loc n' loc'} (h0 : i.op = .ystate t n' loc') (h1 : r.instr.op = .ystate t n loc) (h2 : r.followups = [])
  | bell {b} (e : i.op = .bell b) (h : applyBell ctx m i b = .ok r)
  | cnot {c} (e : i.op = .bellCnot c) (h : applyCnot ctx m i c = .ok r)

theorem apply_leaves (h : apply ctx m i = .ok r) : Leaves ctx m i r := by
  have hd : ∀ ids, i.op ≠ .declare ids := by
    intro ids e
    unfold apply at h
    rw [e] at h
    cases h
  have hf : ∀ {m' : Mach ρ}, fail m' i = .ok r → Leaves ctx m i r := fun h => by cases h; exact .same hd rfl (by simp) (by simp)
  have hs : ∀ {m' : Mach ρ}, success m' i = .ok r → Leaves ctx m i r := fun h => by cases h; exact .same hd rfl (by simp) (by simp)
  unfold apply at h
  split at h
  · unfold applyMeasure at h
    split at h
    · exact hf h
    · exact hs h
  · unfold applySq at h
    split at h
    · split at h
      · split at h
        · cases h
        · obtain ⟨x, -, h⟩ := Outcome.bind_eq_ok.1 h
          dsimp only at h
          split at h
          · cases h
            exact .same hd rfl (by intro f hf; rw [List.mem_singleton.1 hf]; exact (by decide : SqOp.Z ≠ .I)) (by intro f hf; rw [List.mem_singleton.1 hf]; exact .inl ⟨_, _, _, rfl⟩)
          · exact hf h
      · split at h
        · exact hf h
        · split at h
          · exact hs h
          · exact hs h
    · exact hf h
  · rename_i obs neg loc e
    unfold applyMulti at h
    split at h
    · split at h
      · split at h
        · unfold applyMultiLocal at h
          obtain ⟨b1, -, h⟩ := Outcome.bind_eq_ok.1 h
          split at h
          · cases h
          · obtain ⟨b2, -, h⟩ := Outcome.bind_eq_ok.1 h
            split at h
            · cases h
            · obtain ⟨x, -, h⟩ := Outcome.bind_eq_ok.1 h
              cases h
              exact .multi rfl rfl
        · split at h
          · cases h
          · obtain ⟨x, -, h⟩ := Outcome.bind_eq_ok.1 h
            dsimp only at h
            split at h
            · exact hs h
            · exact hf h
      · exact hf h
    · cases h
  · unfold applyInit at h
    obtain ⟨x, -, h⟩ := Outcome.bind_eq_ok.1 h
    split at h
    · exact hf h
    · obtain ⟨y, -, h⟩ := Outcome.bind_eq_ok.1 h
      exact hs h
  · rename_i b e; exact .bell e h
  · rename_i c e; exact .cnot e h
  · unfold applyRotate at h
    split at h
    · obtain ⟨x, -, h⟩ := Outcome.bind_eq_ok.1 h
      split at h
      · exact hf h
      · obtain ⟨y, -, h⟩ := Outcome.bind_eq_ok.1 h
        obtain ⟨z, -, h⟩ := Outcome.bind_eq_ok.1 h
        cases h
        exact .same hd rfl (by intro f hf; rw [List.mem_singleton.1 hf]; trivial) (by intro f hf; rw [List.mem_singleton.1 hf]; exact .inr ⟨_, _, _, rfl⟩)
    · exact hf h
  · unfold applyMagic at h
    split at h
    · cases h
    · split at h
      · exact hf h
      · split at h
        · cases h
        · split at h
          · cases h
          · obtain ⟨x, -, h⟩ := Outcome.bind_eq_ok.1 h
            split at h
            · cases h
            · exact hs h
  · rename_i e
    unfold applyY at h
    split at h
    · exact hs h
    · split at h
      · unfold yPredistilled at h
        obtain ⟨x, -, h⟩ := Outcome.bind_eq_ok.1 h
        split at h
        · exact hf h
        · split at h
          · cases h
          · split at h
            · exact hf h
            · exact hs h
      · split at h
        · unfold yTwist at h
          split at h
          · cases h
          · obtain ⟨x, -, h⟩ := Outcome.bind_eq_ok.1 h
            split at h
            · exact hf h
            · obtain ⟨y, -, h⟩ := Outcome.bind_eq_ok.1 h
              cases h
              exact .ystate e rfl rfl
        · exact hf h
  · unfold applyBusy at h
    split at h
    · obtain ⟨x, -, h⟩ := Outcome.bind_eq_ok.1 h
      obtain ⟨y, -, h⟩ := Outcome.bind_eq_ok.1 h
      split at h
      · exact hf h
      · exact hs h
    · obtain ⟨x, -, h⟩ := Outcome.bind_eq_ok.1 h
      cases h
      exact .same hd rfl (by intro f hf; rw [List.mem_singleton.1 hf]; trivial) (by intro f hf; rw [List.mem_singleton.1 hf]; exact .inr ⟨_, _, _, rfl⟩)
  · exact hs h
  · cases h

theorem fine_apply (hi : Windowed i) (h : apply ctx m i = .ok r) : Fine r := by
  cases apply_leaves h with
  | same hd h1 h2 h3 => exact ⟨by rw [h1]; exact hi, h2⟩
  | multi h1 h2 => exact ⟨by unfold Windowed; rw [h1]; trivial, by rw [h2]; simp⟩
  | ystate h0 h1 h2 => exact ⟨by unfold Windowed; rw [h1]; trivial, by rw [h2]; simp⟩
  | bell e h => exact fine_bell hi e h
  | cnot e h => exact fine_cnot hi e h

theorem left_declare (h : apply ctx m i = .ok r) (ids : List Nat) : r.instr.op ≠ .declare ids := by
  cases apply_leaves h with
  | same hd h1 h2 h3 => rw [h1]; exact hd ids
  | multi h1 h2 => rw [h1]; simp
  | ystate h0 h1 h2 => rw [h1]; simp
  | bell e h =>
    have : ∃ b, r.instr.op = .bell b := by
      rcases applyBell_ok h with h | ⟨w, ls, h1, h2, h⟩ | ⟨-, _, _, ls, -, -, -, h⟩
      · rw [h.1]; exact ⟨_, e⟩
      · obtain ⟨n, -, h2, -⟩ := bellInitRun_ok h; rw [h2]; exact ⟨_, rfl⟩
      · obtain ⟨n, -, h2, -⟩ := bellInitRun_ok h; rw [h2]; exact ⟨_, rfl⟩
    obtain ⟨b, hb⟩ := this
    rw [hb]; simp
  | cnot e h =>
    have hrun : ∀ {m : Mach ρ} {c sets ws}, cnotRun ctx m i c sets ws = .ok r → ∃ c, r.instr.op = .bellCnot c := by
      intro m c sets ws h
      obtain ⟨_, _, _, _, _, _, -, -, -, h2, -⟩ := cnotRun_ok h
      rw [h2]; exact ⟨_, rfl⟩
    have : ∃ c, r.instr.op = .bellCnot c := by
      rcases applyCnot_ok h with h | ⟨-, h⟩ | ⟨-, h⟩
      · rw [h.1]; exact ⟨_, e⟩
      · rcases applyCnotEdpc_ok h with h | ⟨h1, _, _, _, _, region', -, -, -, -, -, h2, -, h3⟩ | ⟨_, _, p, -, -, -, -, h2, -, h3⟩ | ⟨_, pairs, ph, sets, -, h2, -, h4, h⟩
        · rw [h.1]; exact ⟨_, e⟩
        · rw [h2]; exact ⟨_, rfl⟩
        · rw [h2]; exact ⟨_, rfl⟩
        · obtain ⟨w, k, ls, n, e1, e2, h1, -, h3⟩ := cnotPhase_ok h
          rcases h3 with ⟨h4, h5⟩ | ⟨-, -, h4, h5⟩ | ⟨-, -, h4, h5⟩ <;> rw [h5] <;> exact ⟨_, rfl⟩
      · rcases applyCnotPlain_ok h with h | ⟨pairs, sets, h2, h4, h⟩ | ⟨-, _, _, _, l, -, -, -, -, h⟩
        · rw [h.1]; exact ⟨_, e⟩
        · exact hrun h
        · exact hrun h
    obtain ⟨c, hc⟩ := this
    rw [hc]; simp

theorem play_declare {realloc : Nat → Bool} {resets : Bool} {s t : Mach ρ} {L : List (Obs (Mach ρ))} (h : Play (Real.env ctx realloc) resets s L t) :
    ∀ i ∈ instrs L, ∀ ids, i.op ≠ .declare ids := by
  induction h with
  | start => intro i hi; cases hi
  | done _ ha he ih =>
    intro j hj
    rw [instrs_append] at hj
    rcases List.mem_append.1 hj with hj | hj
    · exact ih j hj
    · simp only [instrs, List.filterMap_cons, List.filterMap_nil, List.mem_singleton] at hj
      rw [hj]
      exact fun ids => left_declare ha ids
  | refused _ _ _ ih => exact ih
  | reset _ _ _ ih => exact ih
  | next _ _ ih =>
    intro j hj
    rw [instrs_append] at hj
    rcases List.mem_append.1 hj with hj | hj
    · exact ih j hj
    · simp [instrs] at hj

/-- No declaration is ever shown. -/
theorem account_declare {realloc : Nat → Bool} {P : List Instr} {s : Mach ρ} {k : Real.Spec.Loop} {A : List (Obs (Mach ρ))} (h : Real.Spec.Account (Real.env ctx realloc) P s k A) :
    ∀ i ∈ instrs A, ∀ ids, i.op ≠ .declare ids := by
  cases h with
  | @streamed n c st h =>
    obtain ⟨h1, h2⟩ := c57_streamed _ _ _ _ _ h
    by_cases hc : c = .go
    · exact play_declare (h1 hc)
    · obtain ⟨L, e, hp⟩ := h2 hc
      rw [e, instrs_append]
      intro i hi
      rcases List.mem_append.1 hi with hi | hi
      · exact play_declare hp i hi
      · simp [instrs] at hi
  | @dag n b st0 st h0 h => exact play_declare (c57_dag _ _ _ _ _ _ h0 h).1
  | @wave depth n hf b w h => exact play_declare (c57_wave _ _ _ _ _ _ h).1

/-- Printable, and shown only if printable. -/
theorem fine_keeps (realloc : Nat → Bool) : Keeps (ghost (Real.env ctx realloc)) (fun x => ∀ i ∈ x.2, Windowed i) (fun _ i => Windowed i) where
  apply := by
    intro s i r h hi hr
    obtain ⟨r0, h1, rfl⟩ := ghost_apply hr
    have h2 : Apply.apply ctx s.1 i = .ok r0 := h1
    obtain ⟨f1, f2⟩ := fine_apply hi h2
    refine ⟨?_, f1, f2, fun _ h => h⟩
    intro j hj
    dsimp only at hj
    split at hj
    · exact h j hj
    · rcases List.mem_append.1 hj with hj | hj
      · exact h j hj
      · rw [List.mem_singleton.1 hj]; exact f1
  waits _ h := h
  advance := by
    intro s s' h ha
    unfold ghost at ha
    dsimp only at ha
    obtain ⟨t, h1, ha⟩ := Outcome.bind_eq_ok.1 ha
    cases ha
    exact ⟨h, fun _ h => h⟩
  reset := by
    intro s s' h ha
    unfold ghost at ha
    dsimp only at ha
    obtain ⟨t, h1, ha⟩ := Outcome.bind_eq_ok.1 ha
    cases ha
    exact ⟨h, fun _ h => h⟩

end

end Verif.Sliced
