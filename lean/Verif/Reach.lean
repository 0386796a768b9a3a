import Verif.RealEnv
import Verif.PipelineAmbient
import Verif.SlicePropsIds

/-! # Every slice a pipeline shows is reached by a history: lemmas -/

namespace Verif.Real

open Verif Apply Verif.Wave Verif.Slices.Spec

section
variable {ρ : Type}

/-- An attempt leaves nothing behind that names a patch the instruction did not name. -/
def Named (i : Instr) (r : Res (Mach ρ)) : Prop := ∀ j, (j = r.instr ∨ j ∈ r.followups) → ∀ n ∈ j.op.ids, n ∈ i.op.ids

theorem named_of {i : Instr} {r : Res (Mach ρ)} (h1 : r.instr.op.ids = i.op.ids) (h2 : r.followups = [] ∨ r.followups = [r.instr]) : Named i r := by
  intro j hj n hn
  have : j = r.instr := by
    rcases hj with h | h
    · exact h
    · rcases h2 with e | e <;> simpa [e] using h
  rw [this, h1] at hn
  exact hn

theorem named_fail {m : Mach ρ} {i : Instr} {r : Res (Mach ρ)} (h : fail m i = .ok r) : Named i r := by
  cases h; exact named_of rfl (.inl rfl)

theorem named_success {m : Mach ρ} {i : Instr} {r : Res (Mach ρ)} (h : success m i = .ok r) : Named i r := by
  cases h; exact named_of rfl (.inl rfl)

theorem named_bellRun {ctx : Ctx ρ} {m : Mach ρ} {i : Instr} {b : BellInit} (hi : i.op = .bell b) {b' : BellInit} (hb : (Operation.bell b').ids = (Operation.bell b).ids)
    {l : List LocalInstr} {k : Nat} {r : Res (Mach ρ)} (h : bellInitRun ctx m i b' l k = .ok r) : Named i r := by
  unfold bellInitRun at h
  obtain ⟨x, -, h⟩ := Outcome.bind_eq_ok.1 h
  split at h
  · cases h; exact named_of (by rw [hi]; exact hb) (.inl rfl)
  · cases h; exact named_of (by rw [hi]; exact hb) (.inr rfl)

theorem named_cnotRun {ctx : Ctx ρ} {m : Mach ρ} {i : Instr} {c c' : BellCNOT} {sets : List (List LocalInstr)} {ps : List (Nat × Nat)} {r : Res (Mach ρ)}
    (hi : i.op = .bellCnot c) (hc : (Operation.bellCnot c').ids = (Operation.bellCnot c).ids) (h : cnotRun ctx m i c' sets ps = .ok r) : Named i r := by
  unfold cnotRun at h
  split at h
  · obtain ⟨x, -, h⟩ := Outcome.bind_eq_ok.1 h
    dsimp only at h
    split at h
    · cases h; exact named_of (by rw [hi]; exact hc) (.inl rfl)
    · cases h; exact named_of (by rw [hi]; exact hc) (.inr rfl)
  · cases h

theorem named_cnot {ctx : Ctx ρ} {m : Mach ρ} {i : Instr} {c : BellCNOT} (hi : i.op = .bellCnot c) {r : Res (Mach ρ)} (h : applyCnot ctx m i c = .ok r) :
    Named i r := by
  unfold applyCnot at h
  split at h
  · cases h
  · split at h
    · split at h
      · exact named_fail h
      · split at h
        · unfold applyCnotEdpc at h
          split at h
          · rcases cnotRoute_shape h with ⟨h1, h2, h3⟩ | ⟨h1, h2, h3, x, h4⟩
            · exact named_of (by rw [h1]) (.inl h3)
            · exact named_of (by rw [h4, hi]; rfl) (.inr h3)
          · split at h
            · obtain ⟨h1, -, h3, s1, s2, s3, s4, ps, h4⟩ := cnotDecompose_shape h
              exact named_of (by rw [h4, hi]; rfl) (.inl h3)
            · split at h
              · obtain ⟨h1, h2, h3, -, ps', k', h4⟩ := cnotPhase_shape h
                exact named_of (by rw [h4, hi]; rfl) h3
              · cases h
        · unfold applyCnotPlain at h
          split at h
          · split at h
            · cases h
            · exact named_cnotRun hi rfl h
          · obtain ⟨⟨rt, rs⟩, -, h⟩ := Outcome.bind_eq_ok.1 h
            dsimp only at h
            cases rt with
            | none => exact named_fail h
            | some region =>
              dsimp only at h
              split at h
              · cases h
              · obtain ⟨reg, -, h⟩ := Outcome.bind_eq_ok.1 h
                obtain ⟨l, -, h⟩ := Outcome.bind_eq_ok.1 h
                exact named_cnotRun hi rfl h
    · exact named_fail h

theorem named_apply {ctx : Ctx ρ} {m : Mach ρ} {i : Instr} {r : Res (Mach ρ)} (h : Apply.apply ctx m i = .ok r) : Named i r := by
  unfold Apply.apply at h
  split at h
  · unfold applyMeasure at h
    split at h
    · exact named_fail h
    · exact named_success h
  · rename_i hi
    unfold applySq at h
    split at h
    · split at h
      · split at h
        · cases h
        · obtain ⟨⟨m', ok⟩, -, h⟩ := Outcome.bind_eq_ok.1 h
          dsimp only at h
          split at h
          · cases h
            rintro j (rfl | hj) n hn
            · exact hn
            · rw [List.mem_singleton.1 hj] at hn
              rw [hi]; exact hn
          · exact named_fail h
      · split at h
        · exact named_fail h
        · split at h <;> exact named_success h
    · exact named_fail h
  · rename_i hi
    unfold applyMulti at h
    split at h
    · split at h
      · split at h
        · unfold applyMultiLocal at h
          obtain ⟨b1, -, h⟩ := Outcome.bind_eq_ok.1 h
          split at h
          · cases h
          · obtain ⟨b2, -, h⟩ := Outcome.bind_eq_ok.1 h
            split at h
            · cases h
            · obtain ⟨x, -, h⟩ := Outcome.bind_eq_ok.1 h
              cases h
              exact named_of (by rw [hi]; rfl) (.inl rfl)
        · split at h
          · cases h
          · obtain ⟨⟨m', ok⟩, -, h⟩ := Outcome.bind_eq_ok.1 h
            dsimp only at h
            split at h
            · exact named_success h
            · exact named_fail h
      · exact named_fail h
    · cases h
  · unfold applyInit at h
    obtain ⟨o, -, h⟩ := Outcome.bind_eq_ok.1 h
    cases o with
    | none => exact named_fail h
    | some c =>
      obtain ⟨x, -, h⟩ := Outcome.bind_eq_ok.1 h
      exact named_success h
  · rename_i hi
    unfold applyBell at h
    split at h
    · cases h
    · split at h
      · exact named_fail h
      · split at h
        · exact named_fail h
        · split at h
          · split at h
            · cases h
            · exact named_bellRun hi rfl h
          · obtain ⟨⟨rt, rs⟩, -, h⟩ := Outcome.bind_eq_ok.1 h
            dsimp only at h
            cases rt with
            | none => exact named_fail h
            | some region =>
              dsimp only at h
              split at h
              · exact named_fail h
              · obtain ⟨l, -, h⟩ := Outcome.bind_eq_ok.1 h
                exact named_bellRun hi rfl h
  · rename_i hi
    exact named_cnot hi h
  · rename_i t hi
    rcases applyRotate_ok h with rfl | ⟨c, p, n, reg, x, hc, hpc, -, -, h3, rfl⟩
    · exact named_of rfl (.inl rfl)
    · rintro j (rfl | hj) n hn
      · exact hn
      · rw [List.mem_singleton.1 hj] at hn
        obtain ⟨hid, -⟩ := cellById_holds hc
        have hpid : p.id = some t := by unfold DSlice.idAt at hid; rw [hpc] at hid; exact hid
        rw [hi]
        simpa [Operation.ids, rotated_id, hpid] using hn
  · unfold applyMagic at h
    split at h
    · cases h
    · split at h
      · exact named_fail h
      · split at h
        · cases h
        · split at h
          · cases h
          · obtain ⟨o, -, h⟩ := Outcome.bind_eq_ok.1 h
            cases o with
            | none => cases h
            | some p => exact named_success h
  · rename_i hi
    unfold applyY at h
    split at h
    · exact named_success h
    · split at h
      · unfold yPredistilled at h
        obtain ⟨l, -, h⟩ := Outcome.bind_eq_ok.1 h
        split at h
        · exact named_fail h
        · split at h
          · cases h
          · split at h
            · exact named_fail h
            · exact named_success h
      · split at h
        · unfold yTwist at h
          split at h
          · cases h
          · obtain ⟨o, -, h⟩ := Outcome.bind_eq_ok.1 h
            cases o with
            | none => exact named_fail h
            | some c =>
              dsimp only at h
              obtain ⟨x, -, h⟩ := Outcome.bind_eq_ok.1 h
              cases h
              exact named_of (by rw [hi]; rfl) (.inl rfl)
        · exact named_fail h
  · rename_i hi
    unfold applyBusy at h
    split at h
    · obtain ⟨s, -, h⟩ := Outcome.bind_eq_ok.1 h
      obtain ⟨x, -, h⟩ := Outcome.bind_eq_ok.1 h
      split at h
      · exact named_fail h
      · exact named_success h
    · obtain ⟨s, -, h⟩ := Outcome.bind_eq_ok.1 h
      cases h
      rintro j (rfl | hj) n hn
      · exact hn
      · rw [List.mem_singleton.1 hj] at hn
        rw [hi]; exact hn
  · exact named_success h
  · cases h

theorem left_eq {ctx : Ctx ρ} {m : Mach ρ} {i : Instr} {r : Res (Mach ρ)} (h : Apply.apply ctx m i = .ok r) :
    left r = remaining r ∧ (left r).length ≤ 1 ∧ ∀ j ∈ left r, ∀ n ∈ j.op.ids, n ∈ i.op.ids := by
  have hn := named_apply h
  rcases (kept_apply h).shape with h1 | ⟨f, h1, h2, -⟩ | ⟨c, hi, hr, x, hx, h1, h2, h3⟩
  · refine ⟨by simp [left, remaining, h1], by unfold left; split <;> simp [h1], ?_⟩
    intro j hj
    unfold left at hj
    split at hj
    · exact hn j (.inl (by simpa using hj))
    · exact hn j (.inr hj)
  · refine ⟨by simp [left, remaining, h1, h2], by simp [left, h1, h2], ?_⟩
    intro j hj
    refine hn j (.inr ?_)
    simpa [left, h2] using hj
  · refine ⟨by simp [left, remaining, h1, h2], by simp [left, h2], ?_⟩
    intro j hj
    refine hn j (.inl ?_)
    simpa [left, h2] using hj

/-! ### The statement that is kept up -/

/-- The ids for new patches, except for `Y` states. -/
def fixedIds (i : Instr) : List Nat :=
  match i.op with
  | .ystate _ _ _ => []
  | _ => newIds i

/-- The instruction requests a `Y` state, or gives it back. -/
def asksY (i : Instr) : Bool :=
  match i.op with
  | .ystate _ _ _ => true
  | _ => false

/-- The unfinished instructions are those not attempted yet (`U`) and those that were (`S`). -/
structure Split (A : Operation → Prop) (ctx : Ctx ρ) (ids : List Nat) (P : List Instr) (m : Mach ρ) (w U S : List (Nat × Instr)) : Prop where
  perm : w.Perm (U ++ S)
  nodup : (w.map (fun x => x.1)).Nodup
  hist : History A ctx ids m (S.map (fun x => x.2))
  fresh : ∀ x ∈ U, ∃ i, P[x.1]? = some i ∧ x.2.op = i.op
  known : ∀ x ∈ S, ∃ i, P[x.1]? = some i ∧ ∀ n ∈ x.2.op.ids, n ∈ i.op.ids
  order : ∀ x ∈ S, ∀ y ∈ w, y.1 < x.1 → Apart P y.1 x.1
  inv : DSlice.Inv m.slice (S.flatMap (fun x => creates x.2) ++ U.flatMap (fun x => fixedIds x.2))

def Started (A : Operation → Prop) (ctx : Ctx ρ) (ids : List Nat) (P : List Instr) (m : Mach ρ) (w : List (Nat × Instr)) : Prop :=
  ∃ U S, Split A ctx ids P m w U S

/-- Conditions on a program: nothing is routed or compiled yet, the ids for new patches are new, except that several
requests may name the same `Y` state. -/
structure Proper (A : Operation → Prop) (ids : List Nat) (P : List Instr) : Prop where
  plain : ∀ i ∈ P, Plain i ∧ A i.op
  nodup : ∀ i ∈ P, (newIds i).Nodup
  fresh : ∀ i ∈ P, asksY i = false → ∀ n ∈ newIds i, n ∉ ids
  once : P.Pairwise (fun x y => ∀ n ∈ newIds x, n ∈ newIds y → asksY x = true ∧ asksY y = true)

theorem Proper.apart {A : Operation → Prop} {ids : List Nat} {P : List Instr} (h : Proper A ids P) (a b : Nat) (x y : Instr) (hab : a ≠ b) (hx : P[a]? = some x) (hy : P[b]? = some y)
    (ha : asksY x = false) (n : Nat) (hn : n ∈ newIds x) : n ∉ newIds y := by
  intro hm
  obtain ⟨h1, rfl⟩ := List.getElem?_eq_some_iff.1 hx
  obtain ⟨h2, rfl⟩ := List.getElem?_eq_some_iff.1 hy
  have hp := List.pairwise_iff_getElem.1 h.once
  rcases Nat.lt_or_gt_of_ne hab with hl | hl
  · have := (hp a b h1 h2 hl n hn hm).1
    rw [ha] at this; cases this
  · have := (hp b a h2 h1 hl n hm hn).2
    rw [ha] at this; cases this

theorem newIds_ids {i : Instr} {n : Nat} (h : n ∈ newIds i) : n ∈ i.op.ids := by
  obtain ⟨op, wt, cl⟩ := i
  cases op with
  | busy r k after =>
    simp only [newIds, List.mem_flatMap, Option.mem_toList] at h
    obtain ⟨p, hp, h⟩ := h
    simp only [Operation.ids, List.mem_filterMap]
    exact ⟨p, hp, h⟩
  | init t s x => exact h
  | magic t x => exact h
  | ystate t x l => exact h
  | bell b => simp only [newIds, List.mem_cons, List.not_mem_nil, or_false] at h; rcases h with rfl | rfl <;> simp [Operation.ids]
  | bellCnot c => simp only [newIds, List.mem_cons, List.not_mem_nil, or_false] at h; rcases h with rfl | rfl <;> simp [Operation.ids]
  | _ => cases h

theorem fixed_new {i : Instr} {n : Nat} (h : n ∈ fixedIds i) : asksY i = false ∧ n ∈ newIds i := by
  unfold fixedIds at h
  unfold asksY
  split at h
  · cases h
  · exact ⟨rfl, h⟩

theorem fixed_of_not {i : Instr} (h : asksY i = false) : fixedIds i = newIds i := by
  unfold fixedIds
  unfold asksY at h
  split
  · rename_i e; rw [e] at h; cases h
  · rfl

theorem newIds_op {i j : Instr} (h : i.op = j.op) : newIds i = newIds j := by unfold newIds; rw [h]
theorem fixedIds_op {i j : Instr} (h : i.op = j.op) : fixedIds i = fixedIds j := by unfold fixedIds newIds; rw [h]
theorem asksY_op {i j : Instr} (h : i.op = j.op) : asksY i = asksY j := by unfold asksY; rw [h]
theorem plain_op {i j : Instr} (h : i.op = j.op) (hp : Plain j) : Plain i := by unfold Plain at hp ⊢; rw [h]; exact hp

/-- One attempt, given what it does to history and ids. -/
theorem split_step {A : Operation → Prop} {ctx : Ctx ρ} {ids : List Nat} {P : List Instr} {m m' : Mach ρ} {w U S U1 S1 : List (Nat × Instr)} {o : Nat} {i : Instr}
    (h : Split A ctx ids P m ((o, i) :: w) U S) (hlt : ∀ x ∈ w, x.1 < o → Apart P x.1 o) (hw : w.Perm (U1 ++ S1)) (hU : ∀ x ∈ U1, x ∈ U) (hS : ∀ x ∈ S1, x ∈ S)
    {J : List Instr} (hJ : J.length ≤ 1) {i0 : Instr} (hi0 : P[o]? = some i0) (hids : ∀ j ∈ J, ∀ n ∈ j.op.ids, n ∈ i0.op.ids) (hhist : History A ctx ids m' (J ++ S1.map (fun x => x.2)))
    (hinv : DSlice.Inv m'.slice (J.flatMap creates ++ (S1.flatMap (fun x => creates x.2) ++ U1.flatMap (fun x => fixedIds x.2)))) :
    Split A ctx ids P m' (J.map (fun j => (o, j)) ++ w) U1 (J.map (fun j => (o, j)) ++ S1) := by
  have hmem : ∀ y ∈ J.map (fun j => (o, j)) ++ w, y.1 = o ∨ y ∈ w := by
    intro y hy
    rcases List.mem_append.1 hy with hy | hy
    · obtain ⟨j, -, rfl⟩ := List.mem_map.1 hy
      exact .inl rfl
    · exact .inr hy
  refine ⟨?_, ?_, ?_, fun x hx => h.fresh x (hU x hx), ?_, ?_, ?_⟩
  · refine (List.Perm.append_left _ hw).trans ?_
    rw [← List.append_assoc, ← List.append_assoc]
    exact List.Perm.append_right _ List.perm_append_comm
  · have hn := h.nodup
    rw [List.map_cons, List.nodup_cons] at hn
    match J, hJ with
    | [], _ => simpa using hn.2
    | [j], _ => simpa using hn
  · simpa [Function.comp_def] using hhist
  · intro x hx
    rcases List.mem_append.1 hx with hx | hx
    · obtain ⟨j, hj, rfl⟩ := List.mem_map.1 hx
      exact ⟨i0, hi0, hids j hj⟩
    · exact h.known x (hS x hx)
  · intro x hx y hy hyx
    rcases List.mem_append.1 hx with hx | hx
    · obtain ⟨j, -, rfl⟩ := List.mem_map.1 hx
      rcases hmem y hy with e | hy
      · simp only at hyx; omega
      · exact hlt y hy hyx
    · rcases hmem y hy with e | hy
      · have := h.order x (hS x hx) (o, i) (by simp) (by simp only; omega)
        rw [e]; exact this
      · exact h.order x (hS x hx) y (by simp [hy]) hyx
  · simpa [List.flatMap_append, List.flatMap_map] using hinv

theorem started_apply {A : Operation → Prop} {ctx : Ctx ρ} {ids : List Nat} (hids : ids.Nodup) {P : List Instr} (hP : Proper A ids P) {m : Mach ρ} {o : Nat} {i : Instr} {w : List (Nat × Instr)}
    {r : Res (Mach ρ)} (h : Started A ctx ids P m ((o, i) :: w)) (hlt : ∀ x ∈ w, x.1 < o → Apart P x.1 o) (ha : Apply.apply ctx m i = .ok r) :
    Started A ctx ids P r.slice ((left r).map (fun j => (o, j)) ++ w) := by
  obtain ⟨U, S, h⟩ := h
  obtain ⟨l1, l2, l3⟩ := left_eq ha
  have lo : left r = leftover r := l1.trans (remaining_eq r)
  have hnd := h.nodup
  rw [List.map_cons, List.nodup_cons] at hnd
  rcases List.mem_append.1 (h.perm.mem_iff.1 (List.mem_cons_self)) with hm | hm
  · obtain ⟨a, b, rfl⟩ := List.append_of_mem hm
    have hw : w.Perm ((a ++ b) ++ S) := by
      refine List.Perm.cons_inv (a := (o, i)) (h.perm.trans ?_)
      rw [← List.cons_append]
      exact List.Perm.append_right _ List.perm_middle
    have hU : ∀ x ∈ a ++ b, x ∈ a ++ (o, i) :: b := by
      intro x hx
      rcases List.mem_append.1 hx with hx | hx <;> simp [hx]
    obtain ⟨i0, hi0, hop⟩ := h.fresh (o, i) (by simp)
    simp only at hi0 hop
    have hi0m : i0 ∈ P := List.mem_of_getElem? hi0
    obtain ⟨hplain, hA⟩ := hP.plain i0 hi0m
    have hcr : creates i = newIds i := plain_creates (plain_op hop hplain)
    have hsub : ∀ j ∈ left r, ∀ n ∈ j.op.ids, n ∈ i0.op.ids := by
      intro j hj n hn
      rw [← hop]; exact l3 j hj n hn
    have hxw : ∀ x ∈ (a ++ b) ++ S, x ∈ w := fun x hx => hw.mem_iff.2 hx
    -- ids of instructions attempted before
    have clash : ∀ x ∈ S, ∀ n ∈ i.op.ids, n ∉ newIds x.2 := by
      intro x hx n hn hnx
      obtain ⟨ix, hix, hsx⟩ := h.known x hx
      have h1 := hsx n (newIds_ids hnx)
      have hxw' := hxw x (by simp [hx])
      have hne : x.1 ≠ o := fun e => hnd.1 (List.mem_map.2 ⟨x, hxw', e⟩)
      rw [hop] at hn
      rcases Nat.lt_or_gt_of_ne hne with hl | hl
      · exact hlt x hxw' hl ix i0 hix hi0 n (mem_deps.2 (.inr h1)) (mem_deps.2 (.inr hn))
      · exact h.order x hx (o, i) (by simp) hl i0 ix hi0 hix n (mem_deps.2 (.inr hn)) (mem_deps.2 (.inr h1))
    have hrest : DSlice.Inv m.slice (S.flatMap (fun x => creates x.2) ++ (a ++ b).flatMap (fun x => fixedIds x.2)) ∧
        (asksY i = false → DSlice.Inv m.slice (fixedIds i ++ (S.flatMap (fun x => creates x.2) ++ (a ++ b).flatMap (fun x => fixedIds x.2)))) := by
      have hp : (S.flatMap (fun x => creates x.2) ++ (a ++ (o, i) :: b).flatMap (fun x => fixedIds x.2)).Perm
          (fixedIds i ++ (S.flatMap (fun x => creates x.2) ++ (a ++ b).flatMap (fun x => fixedIds x.2))) := by
        refine (List.Perm.append_left _ (List.Perm.flatMap_right _ (List.perm_middle (a := (o, i))))).trans ?_
        rw [List.flatMap_cons, ← List.append_assoc, ← List.append_assoc]
        exact List.Perm.append_right _ List.perm_append_comm
      have hi := h.inv.perm hp
      refine ⟨⟨hi.uniq, fun n hn => hi.fresh n (by simp only [List.mem_append]; exact .inr (by simpa using hn)), ?_, hi.inside⟩, fun _ => hi⟩
      exact (List.nodup_append.1 hi.nodup).2.1
    -- the attempt is the first one in the sense of histories
    have program : (∀ n ∈ newIds i, ¬ m.slice.Owns n) → DSlice.Inv m.slice (creates i ++ (S.flatMap (fun x => creates x.2) ++ (a ++ b).flatMap (fun x => fixedIds x.2))) →
        Started A ctx ids P r.slice ((left r).map (fun j => (o, j)) ++ w) := by
      intro hno hinv
      refine ⟨a ++ b, _, split_step h hlt hw hU (fun _ h => h) l2 hi0 hsub ?_ ?_⟩
      · rw [l1]
        refine History.program h.hist (by rw [hop]; exact hA) (plain_op hop hplain) (by rw [newIds_op hop]; exact hP.nodup i0 hi0m) ?_ ha
        intro n hn
        refine ⟨by rw [present_iff]; exact hno n hn, ?_⟩
        intro j hj
        obtain ⟨x, hx, rfl⟩ := List.mem_map.1 hj
        exact clash x hx n (newIds_ids hn)
      · rw [lo]
        exact (apply_fine (plain_tidy (plain_op hop hplain)) ha).inv _ hinv
    cases hy : asksY i with
    | false =>
      have hi := hrest.2 hy
      rw [fixed_of_not hy] at hi
      refine program (fun n hn => hi.fresh n (by simp [hn])) ?_
      rw [hcr]; exact hi
    | true =>
      obtain ⟨t, near, loc, hop'⟩ : ∃ t near loc, i.op = .ystate t near loc := by
        unfold asksY at hy
        split at hy
        · rename_i e; exact ⟨_, _, _, e⟩
        · cases hy
      have hnew : newIds i = [t] := by simp [newIds, hop']
      cases hc : m.slice.cellById t with
      | some c =>
        obtain ⟨h1, h2⟩ := unbind_inv hop' hc ha hrest.1
        refine ⟨a ++ b, _, split_step h hlt hw hU (fun _ h => h) l2 hi0 hsub ?_ ?_⟩
        · rw [l1]
          exact History.release h.hist hop' (by simp [hc]) ha
        · rw [lo, h2]
          simpa using h1
      | none =>
        have habs := absent hids h.hist hc
        rw [present_iff] at habs
        refine program (by simpa [hnew] using habs) ?_
        rw [hcr, hnew]
        refine ⟨hrest.1.uniq, ?_, ?_, hrest.1.inside⟩
        · intro n hn
          rcases List.mem_append.1 hn with hn | hn
          · rw [List.mem_singleton.1 hn]; exact habs
          · exact hrest.1.fresh n hn
        · rw [List.singleton_append, List.nodup_cons]
          refine ⟨?_, hrest.1.nodup⟩
          intro hn
          rcases List.mem_append.1 hn with hn | hn
          · obtain ⟨x, hx, hn⟩ := List.mem_flatMap.1 hn
            refine clash x hx t (by simp [hop', Operation.ids]) ?_
            exact ((history_inv hids h.hist).2 x.2 (List.mem_map.2 ⟨x, hx, rfl⟩)).2 t hn
          · obtain ⟨x, hx, hn⟩ := List.mem_flatMap.1 hn
            obtain ⟨ix, hix, hopx⟩ := h.fresh x (hU x hx)
            obtain ⟨h1, h2⟩ := fixed_new hn
            have hne : x.1 ≠ o := fun e => hnd.1 (List.mem_map.2 ⟨x, hxw x (List.mem_append_left _ hx), e⟩)
            rw [asksY_op hopx] at h1
            rw [newIds_op hopx] at h2
            exact hP.apart x.1 o ix i0 hne hix hi0 h1 t h2 (by rw [← newIds_op hop, hnew]; simp)
  · obtain ⟨a, b, rfl⟩ := List.append_of_mem hm
    have hw : w.Perm (U ++ (a ++ b)) := by
      refine List.Perm.cons_inv (a := (o, i)) (h.perm.trans ?_)
      rw [← List.append_assoc, ← List.append_assoc]
      exact List.perm_middle
    obtain ⟨i0, hi0, hsub⟩ := h.known (o, i) (by simp)
    have hS : ∀ x ∈ a ++ b, x ∈ a ++ (o, i) :: b := by
      intro x hx
      rcases List.mem_append.1 hx with hx | hx <;> simp [hx]
    have hhist := h.hist
    rw [List.map_append, List.map_cons] at hhist
    have ht := ((history_inv hids hhist).2 i (by simp)).1
    refine ⟨U, _, split_step h hlt hw (fun _ h => h) hS l2 hi0 (fun j hj n hn => hsub n (l3 j hj n hn)) ?_ ?_⟩
    · rw [l1, List.map_append]
      exact History.again hhist ha
    · rw [lo]
      refine (apply_fine ht ha).inv _ (h.inv.perm ?_)
      refine (List.Perm.append_right _ (List.Perm.flatMap_right _ (List.perm_middle (a := (o, i))))).trans ?_
      rw [List.flatMap_cons, List.append_assoc]

theorem started_ambient {A : Operation → Prop} {ctx : Ctx ρ} {ids : List Nat} (hids : ids.Nodup) {P : List Instr} (hP : Proper A ids P) (realloc : Nat → Bool) :
    Ambient (env ctx realloc) P (Started A ctx ids P) where
  perm := by
    rintro s w w' ⟨U, S, h⟩ hp
    refine ⟨U, S, hp.symm.trans h.perm, (hp.map _).nodup_iff.1 h.nodup, h.hist, h.fresh, h.known, ?_, h.inv⟩
    intro x hx y hy
    exact h.order x hx y (hp.mem_iff.2 hy)
  apply := fun h hlt ha => started_apply hids hP h hlt ha
  waits := by
    rintro s o i w k ⟨U, S, h⟩
    have hnd := h.nodup
    have hord : ∀ x ∈ S, ∀ y ∈ (o, { i with wait := k }) :: w, y.1 < x.1 → Apart P y.1 x.1 := by
      intro x hx y hy hyx
      rcases List.mem_cons.1 hy with rfl | hy
      · exact h.order x hx (o, i) (by simp) hyx
      · exact h.order x hx y (by simp [hy]) hyx
    rcases List.mem_append.1 (h.perm.mem_iff.1 (List.mem_cons_self)) with hm | hm
    · obtain ⟨a, b, rfl⟩ := List.append_of_mem hm
      have hw : w.Perm ((a ++ b) ++ S) := by
        refine List.Perm.cons_inv (a := (o, i)) (h.perm.trans ?_)
        rw [← List.cons_append]
        exact List.Perm.append_right _ List.perm_middle
      refine ⟨a ++ (o, { i with wait := k }) :: b, S, ?_, by simpa using hnd, h.hist, ?_, h.known, hord, ?_⟩
      · refine (List.Perm.cons _ hw).trans ?_
        rw [← List.cons_append]
        exact List.Perm.append_right _ List.perm_middle.symm
      · intro x hx
        rcases List.mem_append.1 hx with hx | hx
        · exact h.fresh x (by simp [hx])
        · rcases List.mem_cons.1 hx with rfl | hx
          · exact h.fresh (o, i) (by simp)
          · exact h.fresh x (by simp [hx])
      · have := h.inv
        simpa only [List.flatMap_append, List.flatMap_cons, show fixedIds { i with wait := k } = fixedIds i from rfl] using this
    · obtain ⟨a, b, rfl⟩ := List.append_of_mem hm
      have hw : w.Perm (U ++ (a ++ b)) := by
        refine List.Perm.cons_inv (a := (o, i)) (h.perm.trans ?_)
        rw [← List.append_assoc, ← List.append_assoc]
        exact List.perm_middle
      have hhist := h.hist
      rw [List.map_append, List.map_cons] at hhist
      refine ⟨U, a ++ (o, { i with wait := k }) :: b, ?_, by simpa using hnd, ?_, h.fresh, ?_, ?_, ?_⟩
      · refine (List.Perm.cons _ hw).trans ?_
        rw [← List.append_assoc, ← List.append_assoc]
        exact List.perm_middle.symm
      · rw [List.map_append, List.map_cons]
        exact History.waits hhist k
      · intro x hx
        rcases List.mem_append.1 hx with hx | hx
        · exact h.known x (by simp [hx])
        · rcases List.mem_cons.1 hx with rfl | hx
          · exact h.known (o, i) (by simp)
          · exact h.known x (by simp [hx])
      · intro x hx y hy hyx
        have hmem : ∃ x' ∈ a ++ (o, i) :: b, x'.1 = x.1 := by
          rcases List.mem_append.1 hx with hx | hx
          · exact ⟨x, by simp [hx], rfl⟩
          · rcases List.mem_cons.1 hx with rfl | hx
            · exact ⟨(o, i), by simp, rfl⟩
            · exact ⟨x, by simp [hx], rfl⟩
        obtain ⟨x', hx', e⟩ := hmem
        rw [← e] at hyx ⊢
        exact hord x' hx' y hy hyx
      · have := h.inv
        simpa only [List.flatMap_append, List.flatMap_cons, show creates { i with wait := k } = creates i from rfl] using this
  advance := by
    rintro s s' w ⟨U, S, h⟩ ha
    have ha' : Apply.step ctx s = .ok s' := ha
    refine ⟨U, S, h.perm, h.nodup, .next h.hist ha', h.fresh, h.known, h.order, ?_⟩
    unfold Apply.step at ha'
    obtain ⟨sl, h1, ha'⟩ := Outcome.bind_eq_ok.1 ha'
    cases ha'
    simpa using h.inv.grow (l := []) (l' := []) (grow_advance h1) (by simp)
  reset := by
    rintro s s' w ⟨U, S, h⟩ ha
    have ha' : (do let sl ← resetMarked s.slice; Outcome.ok { s with slice := sl }) = .ok s' := ha
    obtain ⟨sl, h1, ha'⟩ := Outcome.bind_eq_ok.1 ha'
    cases ha'
    refine ⟨U, S, h.perm, h.nodup, .reset h.hist h1, h.fresh, h.known, h.order, ?_⟩
    simpa using h.inv.grow (l := []) (l' := []) (DSlice.resetMarked_same h1).grow (by simp)

theorem nodup_flatMap_fixed {P : List Instr} {A : Operation → Prop} {ids : List Nat} (hP : Proper A ids P) : ∀ (w : List (Nat × Instr)), (w.map (fun x => x.1)).Nodup →
    (∀ x ∈ w, P[x.1]? = some x.2) → (w.flatMap (fun x => fixedIds x.2)).Nodup
  | [], _, _ => by simp
  | x :: w, hn, hm => by
    rw [List.map_cons, List.nodup_cons] at hn
    rw [List.flatMap_cons, List.nodup_append]
    have hx := hm x (by simp)
    refine ⟨?_, nodup_flatMap_fixed hP w hn.2 (fun y hy => hm y (by simp [hy])), ?_⟩
    · cases hy : asksY x.2 with
      | false => rw [fixed_of_not hy]; exact hP.nodup x.2 (List.mem_of_getElem? hx)
      | true =>
        unfold asksY at hy
        unfold fixedIds
        split at hy
        · simp
        · cases hy
    · rintro n hn1 n' hn2 rfl
      obtain ⟨y, hy, hn2⟩ := List.mem_flatMap.1 hn2
      obtain ⟨h1, h2⟩ := fixed_new hn1
      obtain ⟨-, h4⟩ := fixed_new hn2
      refine hP.apart x.1 y.1 x.2 y.2 ?_ hx (hm y (by simp [hy])) h1 n h2 h4
      intro e
      exact hn.1 (List.mem_map.2 ⟨y, hy, e.symm⟩)

theorem started_start {A : Operation → Prop} {ctx : Ctx ρ} {ids : List Nat} (hids : ids.Nodup) {P : List Instr} (hP : Proper A ids P) {s : DSlice}
    (h : DSlice.init ctx.layout ids = .ok s) (rs : ρ) (k : Nat) : Started A ctx ids P ⟨s, rs, k⟩ (indexed P) := by
  refine ⟨indexed P, [], by simp, by rw [indexed_fst]; exact List.nodup_range, .start h rs k, ?_, by simp, by simp, ?_⟩
  · intro x hx
    exact ⟨x.2, mem_indexed.1 hx, rfl⟩
  · refine init_inv_rest ?_ h
    rw [List.nodup_append]
    refine ⟨hids, ?_, ?_⟩
    · exact nodup_flatMap_fixed hP (indexed P) (by rw [indexed_fst]; exact List.nodup_range) (fun x hx => mem_indexed.1 hx)
    · rintro n hn n' hn' rfl
      simp only [List.flatMap_nil, List.nil_append] at hn'
      obtain ⟨x, hx, hn'⟩ := List.mem_flatMap.1 hn'
      obtain ⟨h1, h2⟩ := fixed_new hn'
      exact hP.fresh x.2 (List.mem_of_getElem? (mem_indexed.1 hx)) h1 n h2 hn

theorem fails_alone (ctx : Ctx ρ) (realloc : Nat → Bool) : Pipe.FailsAlone (env ctx realloc) := by
  intro s i r h he
  rcases (kept_apply h).shape with h1 | ⟨f, h1, h2, -⟩ | ⟨c, hi, hr, x, hx, h1, h2, h3⟩
  · exact .inl h1
  · rw [h2] at he; cases he
  · exact .inr h1

end

end Verif.Real
