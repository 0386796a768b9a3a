import Verif.SliceIds

/-!
# Ids on the lattice: instructions
-/

namespace Verif

open Apply

namespace DSlice

/-- Ids are unique, and those still to come are new and different. -/
structure Inv (s : DSlice) (l : List Nat) : Prop where
  uniq : s.Unique
  fresh : ∀ n ∈ l, ¬ s.Owns n
  nodup : l.Nodup
  inside : ∀ c, s.inRange c = false → s.cells c = none

theorem Inv.grow {s s' : DSlice} {l l' rest g : List Nat} (h : Inv s (l ++ rest)) (hg : Grow s s' g)
    (hc : ∀ n, g.count n + l'.count n ≤ l.count n) : Inv s' (l' ++ rest) := by
  have cnt : ∀ n, l.count n + rest.count n ≤ 1 := fun n => by
    have := List.nodup_iff_count.1 h.nodup n
    rwa [List.count_append] at this
  have mem : ∀ n, 0 < l.count n + rest.count n → ¬ s.Owns n := fun n hn => h.fresh n (by
    rw [← List.count_pos_iff, List.count_append]; exact hn)
  refine ⟨?_, ?_, ?_, fun c hc => hg.out c (by rw [← hg.inRange]; exact hc) (h.inside c (by rw [← hg.inRange]; exact hc))⟩
  · refine hg.uniq h.uniq (fun n hn => mem n ?_) (nodup_of_count fun n => ?_)
    · have := List.count_pos_iff.2 hn; have := hc n; omega
    · have := hc n; have := cnt n; omega
  · intro n hn ho
    have hn' := List.count_pos_iff.2 hn
    rw [List.count_append] at hn'
    have := hc n
    rcases hg.owns n ho with h1 | h1
    · exact mem n (by omega) h1
    · have := List.count_pos_iff.2 h1; have := cnt n; omega
  · refine nodup_of_count fun n => ?_
    rw [List.count_append]
    have := hc n; have := cnt n; omega

theorem Inv.perm {s : DSlice} {l l' : List Nat} (h : Inv s l) (hp : l.Perm l') : Inv s l' :=
  ⟨h.uniq, fun n hn => h.fresh n (hp.mem_iff.2 hn), hp.nodup_iff.1 h.nodup, h.inside⟩

end DSlice

namespace Apply

open DSlice

/-- The ids the rest of a list of compiled phases will put on the lattice. -/
def restIds (pairs : List (Nat × Nat)) (sets : List (List LocalInstr)) : List Nat :=
  (List.zip pairs sets).flatMap fun x => allLocalIds (x.2.drop x.1.2)

/-- The ids an instruction may still put on the lattice. -/
def creates (i : Instr) : List Nat :=
  match i.op with
  | .init t _ _ => [t]
  | .magic t _ => [t]
  | .ystate t _ _ => [t]
  | .bell b =>
    match b.counter, b.localInstrs with
    | some (_, k), some l => allLocalIds (l.drop k)
    | _, _ => [b.side1, b.side2]
  | .bellCnot c =>
    match c.counterPairs, c.localSets with
    | some ps, some sets => restIds ps sets
    | _, _ => [c.side1, c.side2]
  | .busy _ _ after => after.flatMap fun p => p.id.toList
  | _ => []

/-- The ids for new patches an instruction mentions. -/
def mentions (i : Instr) : List Nat :=
  match i.op with
  | .init t _ _ => [t]
  | .magic t _ => [t]
  | .ystate t _ _ => [t]
  | .bell b => [b.side1, b.side2]
  | .bellCnot c => [c.side1, c.side2]
  | .busy _ _ after => after.flatMap fun p => p.id.toList
  | _ => []

/-- The instructions of the library never hold more than one patch for later. -/
def Tidy (i : Instr) : Prop := ∀ r n after, i.op = .busy r n after → ∃ p o, after = [p] ∧ p.cells = .single o

/-- What is left to do after an attempt: the follow-ups, or the instruction itself if it failed. -/
def leftover {σ : Type} (r : Wave.Res σ) : List Instr :=
  if r.followups ≠ [] then r.followups else if r.err then [r.instr] else []

/-- The outcome of an attempt in terms of ids. -/
structure Fine (m : Mach ρ) (i : Instr) (r : Wave.Res (Mach ρ)) : Prop where
  inv : ∀ rest, Inv m.slice (creates i ++ rest) → Inv r.slice.slice ((leftover r).flatMap creates ++ rest)
  tidy : Tidy i → ∀ j ∈ leftover r, Tidy j
  named : (∀ n ∈ creates i, n ∈ mentions i) → ∀ j ∈ leftover r, ∀ n ∈ creates j, n ∈ mentions j

theorem tidy_of_op {i : Instr} (h : ∀ r n after, i.op ≠ .busy r n after) : Tidy i := fun r n after e => absurd e (h r n after)

theorem Fine.of_grow {m : Mach ρ} {i : Instr} {r : Wave.Res (Mach ρ)} {g : List Nat} (hg : Grow m.slice r.slice.slice g)
    (hc : ∀ n, g.count n + ((leftover r).flatMap creates).count n ≤ (creates i).count n) (ht : Tidy i → ∀ j ∈ leftover r, Tidy j)
    (hm : ∀ j ∈ leftover r, creates j = [] ∨ mentions j = mentions i) : Fine m i r := by
  refine ⟨fun _ h => h.grow hg hc, ht, ?_⟩
  intro hn j hj n hnj
  rcases hm j hj with e | e
  · rw [e] at hnj; cases hnj
  · rw [e]
    apply hn
    have h1 : n ∈ (leftover r).flatMap creates := List.mem_flatMap.2 ⟨j, hj, hnj⟩
    have := List.count_pos_iff.2 h1
    have := hc n
    exact List.count_pos_iff.1 (by omega)

theorem fine_fail {m m' : Mach ρ} {i : Instr} (h : Grow m.slice m'.slice []) : Fine m i ⟨m', i, true, []⟩ :=
  .of_grow h (by simp [leftover]) (by simp [leftover]) (by simp [leftover])

theorem fine_success {m m' : Mach ρ} {i i' : Instr} {g : List Nat} (h : Grow m.slice m'.slice g) (hc : ∀ n, g.count n ≤ (creates i).count n) :
    Fine m i ⟨m', i', false, []⟩ :=
  .of_grow h (by simpa [leftover] using hc) (by simp [leftover]) (by simp [leftover])

theorem fine_followup {m m' : Mach ρ} {i i' f : Instr} {b : Bool} {g : List Nat} (h : Grow m.slice m'.slice g)
    (hc : ∀ n, g.count n + (creates f).count n ≤ (creates i).count n) (ht : Tidy i → Tidy f)
    (hm : creates f = [] ∨ mentions f = mentions i) : Fine m i ⟨m', i', b, [f]⟩ :=
  .of_grow h (by simpa [leftover] using hc) (by simpa [leftover] using ht) (by simpa [leftover] using hm)

theorem fine_again {m m' : Mach ρ} {i i' : Instr} {g : List Nat} (h : Grow m.slice m'.slice g)
    (hc : ∀ n, g.count n + (creates i').count n ≤ (creates i).count n) (ht : Tidy i → Tidy i')
    (hm : creates i' = [] ∨ mentions i' = mentions i) : Fine m i ⟨m', i', true, []⟩ :=
  .of_grow h (by simpa [leftover] using hc) (by simpa [leftover] using ht) (by simpa [leftover] using hm)

theorem fine_measure {m : Mach ρ} {i : Instr} {t : Nat} {r : Wave.Res (Mach ρ)} (h : applyMeasure m i t = .ok r) : Fine m i r := by
  unfold applyMeasure at h
  split at h
  · cases h; exact fine_fail (.refl _)
  · cases h; exact fine_success (grow_setActivity _ _ _) (by simp)

theorem merge_grow {ctx : Ctx ρ} {m : Mach ρ} {a b : Nat} {opA opB : Pauli} {x : Mach ρ × Bool} (h : merge ctx m a opA b opB = .ok x) :
    Grow m.slice x.1.slice [] := by
  unfold merge at h
  split at h
  · split at h
    · cases h; exact .refl _
    · obtain ⟨⟨r, rs⟩, h1, h⟩ := Outcome.bind_eq_ok.1 h
      simp only at h
      split at h
      · cases h; exact .refl _
      · split at h
        · obtain ⟨s, h2, h⟩ := Outcome.bind_eq_ok.1 h
          obtain ⟨y, h3, h⟩ := Outcome.bind_eq_ok.1 h
          cases h
          exact (stitch_same h2).grow.trans (mark_filled h3).1.grow
        · cases h
  · cases h

theorem fine_sq {ctx : Ctx ρ} {m : Mach ρ} {i : Instr} {t : Nat} {op : SqOp} {r : Wave.Res (Mach ρ)} (h : applySq ctx m i t op = .ok r) : Fine m i r := by
  unfold applySq at h
  split at h
  · split at h
    · split at h
      · cases h
      · obtain ⟨⟨m', ok⟩, h1, h⟩ := Outcome.bind_eq_ok.1 h
        have := merge_grow h1
        simp only at h
        split at h
        · cases h; exact fine_followup this (by simp [creates]) (fun _ => tidy_of_op (by simp)) (.inl rfl)
        · cases h; exact fine_fail this
    · split at h
      · cases h; exact fine_fail (.refl _)
      · split at h
        · cases h; exact fine_success (grow_modPatch _ _ _ fun _ _ h => h) (by simp)
        · cases h; exact fine_success (.refl _) (by simp)
  · cases h; exact fine_fail (.refl _)

theorem fine_multi {ctx : Ctx ρ} {m : Mach ρ} {i : Instr} {obs : List (Nat × Pauli)} {neg : Bool} {lo : Option LocalInstr} (hi : i.op = .multi obs neg lo)
    {r : Wave.Res (Mach ρ)} (h : applyMulti ctx m i obs neg = .ok r) : Fine m i r := by
  unfold applyMulti at h
  split at h
  · split at h
    · split at h
      · unfold applyMultiLocal at h
        obtain ⟨b1, h1, h⟩ := Outcome.bind_eq_ok.1 h
        split at h
        · cases h
        obtain ⟨b2, h2, h⟩ := Outcome.bind_eq_ok.1 h
        split at h
        · cases h
        · obtain ⟨x, h3, h⟩ := Outcome.bind_eq_ok.1 h
          cases h
          have := (grow_applyLocal h3).1
          refine .of_grow this ?_ (by unfold leftover; intro _; simp only [ne_eq, not_true_eq_false, if_false]; split <;> simp <;> exact tidy_of_op (by simp))
            (by unfold leftover; simp only [ne_eq, not_true_eq_false, if_false]; split <;> simp [creates])
          intro n
          unfold leftover
          simp only [ne_eq, not_true_eq_false, if_false]
          split <;> simp [creates, localIds]
      · split at h
        · cases h
        · obtain ⟨⟨m', ok⟩, h1, h⟩ := Outcome.bind_eq_ok.1 h
          have := merge_grow h1
          simp only at h
          split at h
          · cases h; exact fine_success this (by simp)
          · cases h; exact fine_fail this
    · cases h; exact fine_fail (.refl _)
  · cases h

theorem fine_init {ctx : Ctx ρ} {m : Mach ρ} {i : Instr} {t : Nat} {st : InitState} {next : Option NextTo} (hi : i.op = .init t st next)
    {r : Wave.Res (Mach ρ)} (h : applyInit ctx m i t next = .ok r) : Fine m i r := by
  unfold applyInit at h
  obtain ⟨c, h1, h⟩ := Outcome.bind_eq_ok.1 h
  split at h
  · cases h; exact fine_fail (.refl _)
  · obtain ⟨x, h2, h⟩ := Outcome.bind_eq_ok.1 h
    cases h
    refine fine_success ((grow_placeSingle rfl h2).trans (grow_setId _ _ t _ fun _ => rfl)) ?_
    simp [creates, hi, basicSquare]

theorem allLocalIds_split (l : List LocalInstr) (k j n : Nat) :
    (allLocalIds ((l.drop k).take j)).count n + (allLocalIds (l.drop (k + j))).count n = (allLocalIds (l.drop k)).count n := by
  unfold allLocalIds
  rw [← List.count_append, ← List.flatMap_append, ← List.drop_drop, List.take_append_drop]

theorem bellInitRun_fine {ctx : Ctx ρ} {m : Mach ρ} {i : Instr} {b : BellInit} {locals : List LocalInstr} {k : Nat} {r : Wave.Res (Mach ρ)}
    (hi : mentions i = [b.side1, b.side2]) (h : bellInitRun ctx m i b locals k = .ok r) (hc : ∀ n, (allLocalIds (locals.drop k)).count n ≤ (creates i).count n) : Fine m i r := by
  obtain ⟨ci, hci⟩ : ∃ x, x = creates i := ⟨_, rfl⟩
  rw [← hci] at hc
  unfold bellInitRun at h
  obtain ⟨x, h1, h⟩ := Outcome.bind_eq_ok.1 h
  obtain ⟨g, -, -⟩ := grow_runLocals h1
  have hs := fun n => allLocalIds_split locals k x.2.1 n
  simp only at h
  split at h
  · cases h
    refine fine_success g fun n => ?_
    rw [← hci]
    have := hs n; have := hc n; omega
  · cases h
    refine fine_followup g (fun n => ?_) (fun _ => tidy_of_op (by simp)) (.inr (by first | exact hi.symm | simp [mentions, hi]))
    rw [← hci]
    have := hs n; have := hc n
    simp only [creates]
    omega

theorem fine_bell {ctx : Ctx ρ} {m : Mach ρ} {i : Instr} {b : BellInit} (hi : i.op = .bell b) {r : Wave.Res (Mach ρ)}
    (h : applyBell ctx m i b = .ok r) : Fine m i r := by
  unfold applyBell at h
  split at h
  · cases h
  split at h
  · cases h; exact fine_fail (.refl _)
  split at h
  · cases h; exact fine_fail (.refl _)
  split at h
  · rename_i hk
    split at h
    · cases h
    · rename_i hl
      refine bellInitRun_fine (by simp [mentions, hi]) h fun n => ?_
      simp [creates, hi, hk, hl]
  · rename_i hk
    obtain ⟨⟨x, rs⟩, h1, h⟩ := Outcome.bind_eq_ok.1 h
    simp only at h
    split at h
    · cases h; exact fine_fail (.refl _)
    · split at h
      · cases h; exact fine_fail (.refl _)
      · obtain ⟨locals, h2, h⟩ := Outcome.bind_eq_ok.1 h
        suffices hf : Fine { m with rs := rs } i r from ⟨hf.inv, hf.tidy, hf.named⟩
        refine bellInitRun_fine (by simp [mentions, hi]) h fun n => ?_
        unfold bellInitLocals at h2
        obtain ⟨l, h3, h2⟩ := Outcome.bind_eq_ok.1 h2
        cases h2
        have := compile_names (n := n) h3
        simp only [namesIn, allLocalIds, List.flatMap_nil, List.count_nil, Option.toList_some] at this
        simp only [creates, hi, hk, List.drop_zero, allLocalIds, List.flatMap_append, List.count_append]
        have e : [b.side1, b.side2].count n = [b.side1].count n + [b.side2].count n := by
          rw [← List.count_append]; rfl
        rw [e]; omega

theorem cnotRun_fine {ctx : Ctx ρ} {m : Mach ρ} {i : Instr} {c : BellCNOT} {sets : List (List LocalInstr)} {pairs : List (Nat × Nat)}
    {r : Wave.Res (Mach ρ)} (hi : mentions i = [c.side1, c.side2]) (h : cnotRun ctx m i c sets pairs = .ok r) (hc : ∀ n, (restIds pairs sets).count n ≤ (creates i).count n) : Fine m i r := by
  obtain ⟨ci, hci⟩ : ∃ x, x = creates i := ⟨_, rfl⟩
  rw [← hci] at hc
  unfold cnotRun at h
  split at h
  · rename_i a k ps locals ss
    obtain ⟨x, h1, h⟩ := Outcome.bind_eq_ok.1 h
    obtain ⟨g, -, -⟩ := grow_runLocals h1
    have hs := fun n => allLocalIds_split locals k x.2.1 n
    simp only [restIds, List.zip_cons_cons, List.flatMap_cons, List.count_append] at hc
    simp only at h
    split at h
    · cases h
      refine fine_success g fun n => ?_
      rw [← hci]
      have := hs n; have := hc n; omega
    · cases h
      refine fine_followup g (fun n => ?_) (fun _ => tidy_of_op (by simp)) (.inr (by first | exact hi.symm | simp [mentions, hi]))
      rw [← hci]
      have := hs n; have := hc n
      simp only [creates, restIds, List.zip_cons_cons, List.flatMap_cons, List.count_append]
      omega
  · cases h

theorem compileWhole_names {n : Nat} {c : BellCNOT} {route : List Cell} {l l' : Layers} (h : compileWhole c route l = .ok l') :
    namesIn n l' ≤ namesIn n l + [c.side1].count n + [c.side2].count n := by
  unfold compileWhole at h
  simp only at h
  split at h
  · obtain ⟨l1, h1, h⟩ := Outcome.bind_eq_ok.1 h
    obtain ⟨l2, h2, h⟩ := Outcome.bind_eq_ok.1 h
    have e1 := compile_names (n := n) h1
    have e2 := compile_names (n := n) h2
    have e3 := compile_names (n := n) h
    simp only [Option.toList_none, List.count_nil, Option.toList_some] at e1 e2 e3
    omega
  · obtain ⟨l1, h1, h⟩ := Outcome.bind_eq_ok.1 h
    have e1 := compile_names (n := n) h1
    have e3 := compile_names (n := n) h
    simp only [Option.toList_none, List.count_nil, Option.toList_some] at e1 e3
    omega

theorem count_pair (a b n : Nat) : [a, b].count n = [a].count n + [b].count n := by rw [← List.count_append]; rfl

theorem namesIn_nil (n : Nat) : namesIn n {} = 0 := rfl

theorem fine_cnotPlain {ctx : Ctx ρ} {m : Mach ρ} {i : Instr} {c : BellCNOT} (hi : i.op = .bellCnot c) {r : Wave.Res (Mach ρ)}
    (h : applyCnotPlain ctx m i c = .ok r) : Fine m i r := by
  unfold applyCnotPlain at h
  split at h
  · rename_i hk
    split at h
    · cases h
    · rename_i hl
      exact cnotRun_fine (by simp [mentions, hi]) h fun n => by simp [creates, hi, hk, hl]
  · rename_i hk
    obtain ⟨⟨x, rs⟩, h1, h⟩ := Outcome.bind_eq_ok.1 h
    simp only at h
    split at h
    · cases h; exact fine_fail (.refl _)
    · split at h
      · cases h
      · obtain ⟨reg, h2, h⟩ := Outcome.bind_eq_ok.1 h
        obtain ⟨l, h3, h⟩ := Outcome.bind_eq_ok.1 h
        suffices hf : Fine { m with rs := rs } i r from ⟨hf.inv, hf.tidy, hf.named⟩
        refine cnotRun_fine (by simp [mentions, hi]) h fun n => ?_
        have := compileWhole_names (n := n) h3
        rw [namesIn_nil] at this
        simp only [namesIn, allLocalIds] at this
        simp [creates, hi, hk, restIds, allLocalIds, List.flatMap_append, List.count_append, count_pair]
        omega

theorem compileSegment_names {n : Nat} {c : BellCNOT} {route : List Cell} {last k : Nat} {a b : Nat × BoundaryType} {p p' : Phases}
    (h : compileSegment c route last k a b p = .ok p') :
    namesIn n p'.p1 + namesIn n p'.p2 ≤ namesIn n p.p1 + namesIn n p.p2 + (if k = 0 then [c.side2].count n else if k = last then [c.side1].count n else 0) := by
  unfold compileSegment at h
  split at h
  · simp only at h
    split at h
    · obtain ⟨l, h1, h⟩ := Outcome.bind_eq_ok.1 h
      cases h
      have e := compile_names (n := n) h1
      rename_i hk
      simp only [hk, if_true, Option.toList_none, List.count_nil, Option.toList_some] at e ⊢
      omega
    · split at h
      all_goals
        obtain ⟨l, h1, h⟩ := Outcome.bind_eq_ok.1 h
        cases h
        have e := compile_names (n := n) h1
        rename_i hk hk'
        rw [if_neg hk]
        first | rw [if_pos hk'] | rw [if_neg hk']
        simp only [Option.toList_none, List.count_nil, Option.toList_some] at e ⊢
        omega
  · simp only at h
    split at h
    · obtain ⟨l, h1, h⟩ := Outcome.bind_eq_ok.1 h
      cases h
      have e := compile_names (n := n) h1
      simp only [Option.toList_none, List.count_nil, Option.toList_some] at e ⊢
      omega
    · split at h
      all_goals
        obtain ⟨l, h1, h⟩ := Outcome.bind_eq_ok.1 h
        cases h
        have e := compile_names (n := n) h1
        simp only [Option.toList_none, List.count_nil, Option.toList_some] at e ⊢
        omega
  · cases h

theorem compileSegments_names {n : Nat} {c : BellCNOT} {route : List Cell} {last : Nat} : ∀ {l : List (Nat × BoundaryType)} {k : Nat} {p p' : Phases},
    compileSegments c route last l k p = .ok p' →
    namesIn n p'.p1 + namesIn n p'.p2 ≤ namesIn n p.p1 + namesIn n p.p2 + (if k = 0 then [c.side2].count n else 0) + (if k ≤ last then [c.side1].count n else 0)
  | [], k, p, p', h => by rw [compileSegments] at h; cases h; omega; simp
  | [a], k, p, p', h => by rw [compileSegments] at h; cases h; omega; simp
  | a :: b :: rest, k, p, p', h => by
    rw [compileSegments] at h
    obtain ⟨q, h1, h⟩ := Outcome.bind_eq_ok.1 h
    have e1 := compileSegment_names (n := n) h1
    have e2 := compileSegments_names (n := n) h
    simp only [Nat.add_eq_zero_iff, Nat.one_ne_zero, and_false, if_false] at e2
    by_cases hk : k = 0
    · subst hk
      simp only [if_true] at e1 ⊢
      split at e2 <;> split <;> omega
    · rw [if_neg hk] at e1 ⊢
      by_cases hl : k = last
      · rw [if_pos hl] at e1
        rw [if_neg (by omega)] at e2
        rw [if_pos (by omega)]
        omega
      · rw [if_neg hl] at e1
        split at e2
        · rw [if_pos (by omega)]; omega
        · omega

theorem compileEdpc_names {n : Nat} {c : BellCNOT} {route : List Cell} {eps : List (Nat × BoundaryType)} {cur : BoundaryType} {p : Phases}
    (h : compileEdpc c route eps cur = .ok p) : namesIn n p.p1 + namesIn n p.p2 ≤ [c.side1, c.side2].count n := by
  rw [count_pair]
  unfold compileEdpc at h
  split at h
  · obtain ⟨l, h1, h⟩ := Outcome.bind_eq_ok.1 h
    cases h
    have := compileWhole_names (n := n) h1
    simpa [namesIn_nil] using this
  · split at h
    · obtain ⟨l, h1, h⟩ := Outcome.bind_eq_ok.1 h
      cases h
      have := compileWhole_names (n := n) h1
      simpa [namesIn_nil] using this
    · have := compileSegments_names (n := n) h
      simp only [namesIn_nil, if_true] at this
      split at this <;> omega

theorem restIds_modify (pairs : List (Nat × Nat)) (sets : List (List LocalInstr)) (k : Nat) : restIds (closeWindow pairs k) sets = restIds pairs sets := by
  unfold closeWindow restIds
  induction pairs generalizing sets k with
  | nil => simp
  | cons p ps ih =>
    cases sets with
    | nil => simp
    | cons s ss =>
      cases k with
      | zero => simp
      | succ k =>
        simp only [List.modify_succ_cons, List.zip_cons_cons, List.flatMap_cons]
        rw [ih]

theorem restIds_set {pairs : List (Nat × Nat)} {sets : List (List LocalInstr)} {k a b : Nat} {locals : List LocalInstr} (hp : pairs[k]? = some (a, b))
    (hl : sets[k]? = some locals) (a' j n : Nat) :
    (allLocalIds ((locals.drop b).take j)).count n + (restIds (pairs.set k (a', b + j)) sets).count n = (restIds pairs sets).count n := by
  unfold restIds
  induction pairs generalizing sets k with
  | nil => simp at hp
  | cons p ps ih =>
    cases sets with
    | nil => simp at hl
    | cons s ss =>
      cases k with
      | zero =>
        simp only [List.getElem?_cons_zero, Option.some.injEq] at hp hl
        subst hp hl
        simp only [List.set_cons_zero, List.zip_cons_cons, List.flatMap_cons, List.count_append]
        have := allLocalIds_split s b j n
        omega
      | succ k =>
        simp only [List.getElem?_cons_succ] at hp hl
        simp only [List.set_cons_succ, List.zip_cons_cons, List.flatMap_cons, List.count_append]
        have := ih hp hl
        omega

theorem closeWindow_get {pairs : List (Nat × Nat)} {k j a b : Nat} (h : pairs[j]? = some (a, b)) : ∃ a', (closeWindow pairs k)[j]? = some (a', b) := by
  unfold closeWindow
  rw [List.getElem?_modify]
  split
  · rw [h]; exact ⟨b, rfl⟩
  · rw [h]; exact ⟨a, rfl⟩

theorem cnotPhase_fine {ctx : Ctx ρ} {m : Mach ρ} {i : Instr} {c : BellCNOT} {sets : List (List LocalInstr)} {pairs : List (Nat × Nat)} {phase : Nat}
    (hi : i.op = .bellCnot c) (hp : c.counterPairs = some pairs) (hs : c.localSets = some sets) {r : Wave.Res (Mach ρ)}
    (h : cnotPhase ctx m i c sets pairs phase = .ok r) : Fine m i r := by
  unfold cnotPhase at h
  split at h
  · rename_i a k locals hk hl
    obtain ⟨x, h1, h⟩ := Outcome.bind_eq_ok.1 h
    obtain ⟨g, -, -⟩ := grow_runLocals h1
    have hci : creates i = restIds pairs sets := by simp [creates, hi, hp, hs]
    have key : ∀ ps' n, (ps' = closeWindow (if phase ≠ 0 then closeWindow pairs (phase - 1) else pairs) phase) →
        (allLocalIds ((locals.drop k).take x.2.1)).count n + (restIds (ps'.set phase (k, k + x.2.1)) sets).count n = (creates i).count n := by
      intro ps' n e
      have h1 : ∃ a', (if phase ≠ 0 then closeWindow pairs (phase - 1) else pairs)[phase]? = some (a', k) := by
        split
        · exact closeWindow_get hk
        · exact ⟨a, hk⟩
      obtain ⟨a1, h1⟩ := h1
      obtain ⟨a2, h2⟩ := closeWindow_get (k := phase) h1
      rw [e, restIds_set h2 hl, restIds_modify, hci]
      split
      · rw [restIds_modify]
      · rfl
    have key := fun n => key _ n rfl
    obtain ⟨ci, hci'⟩ : ∃ x, x = creates i := ⟨_, rfl⟩
    rw [← hci'] at key
    simp only at h
    split at h
    · cases h
      refine fine_followup g (fun n => ?_) (fun _ => tidy_of_op (by simp)) (.inr (by first | exact hi.symm | simp [mentions, hi]))
      rw [← hci']
      have := key n
      simp only [creates, hs]
      omega
    · split at h
      · cases h
        refine fine_success g fun n => ?_
        rw [← hci']
        have := key n
        omega
      · cases h
        refine fine_followup g (fun n => ?_) (fun _ => tidy_of_op (by simp)) (.inr (by first | exact hi.symm | simp [mentions, hi]))
        rw [← hci']
        have := key n
        simp only [creates, hs]
        omega
  · cases h

theorem fine_cnot {ctx : Ctx ρ} {m : Mach ρ} {i : Instr} {c : BellCNOT} (hi : i.op = .bellCnot c) {r : Wave.Res (Mach ρ)}
    (h : applyCnot ctx m i c = .ok r) : Fine m i r := by
  unfold applyCnot at h
  split at h
  · cases h
  split at h
  · split at h
    · cases h; exact fine_fail (.refl _)
    split at h
    · unfold applyCnotEdpc at h
      split at h
      · unfold cnotRoute at h
        obtain ⟨⟨x, rs⟩, h1, h⟩ := Outcome.bind_eq_ok.1 h
        simp only at h
        split at h
        · cases h; exact fine_fail (.refl _)
        · split at h
          · cases h
          · obtain ⟨reg, h2, h⟩ := Outcome.bind_eq_ok.1 h
            obtain ⟨y, h3, h⟩ := Outcome.bind_eq_ok.1 h
            cases h
            refine fine_followup (mark_filled h3).1.grow (fun n => ?_) (fun _ => tidy_of_op (by simp)) (.inr (by first | exact hi.symm | simp [mentions, hi]))
            simp [creates, hi]
      · split at h
        · rename_i hk
          unfold cnotDecompose at h
          obtain ⟨e, h1, h⟩ := Outcome.bind_eq_ok.1 h
          obtain ⟨p, h2, h⟩ := Outcome.bind_eq_ok.1 h
          cases h
          refine fine_again (.refl _) (fun n => ?_) (fun _ => tidy_of_op (by simp)) (.inr (by first | exact hi.symm | simp [mentions, hi]))
          have := compileEdpc_names (n := n) h2
          simp only [namesIn] at this
          simp [creates, hi, hk, restIds]
          omega
        · rename_i hk
          split at h
          · rename_i h1 h2
            exact cnotPhase_fine hi hk h2 h
          · cases h
    · exact fine_cnotPlain hi h
  · cases h; exact fine_fail (.refl _)

theorem fine_magic {ctx : Ctx ρ} {m : Mach ρ} {i : Instr} {t near : Nat} (hi : i.op = .magic t near) {r : Wave.Res (Mach ρ)}
    (h : applyMagic ctx m i t near = .ok r) : Fine m i r := by
  unfold applyMagic at h
  split at h
  · cases h
  split at h
  · cases h; exact fine_fail (.refl _)
  split at h
  · cases h
  split at h
  · cases h
  obtain ⟨p, h1, h⟩ := Outcome.bind_eq_ok.1 h
  split at h
  · cases h
  · cases h
    refine fine_success (g := [t]) ?_ (by simp [creates, hi])
    exact grow_fields (grow_setId m.slice _ t (fun p => { p with id := some t, type := .qubit, activity := .none }) fun _ => rfl) rfl rfl rfl

theorem fine_y {ctx : Ctx ρ} {m : Mach ρ} {i : Instr} {t near : Nat} {lo : Option LocalInstr} (hi : i.op = .ystate t near lo) {r : Wave.Res (Mach ρ)}
    (h : applyY ctx m i t near = .ok r) : Fine m i r := by
  unfold applyY at h
  split at h
  · cases h
    refine fine_success (g := []) ?_ (by simp)
    exact grow_fields (grow_modPatch m.slice _ (fun p => { p with id := none }) fun _ _ h => by simp at h) rfl rfl rfl
  · split at h
    · unfold yPredistilled at h
      obtain ⟨cs, h1, h⟩ := Outcome.bind_eq_ok.1 h
      split at h
      · cases h; exact fine_fail (.refl _)
      · split at h
        · cases h
        · split at h
          · cases h; exact fine_fail (.refl _)
          · cases h
            refine fine_success (g := [t]) ?_ (by simp [creates, hi])
            exact grow_fields (grow_setId m.slice _ t (fun p => { p with id := some t }) fun _ => rfl) rfl rfl rfl
    · split at h
      · unfold yTwist at h
        split at h
        · cases h
        · obtain ⟨c, h1, h⟩ := Outcome.bind_eq_ok.1 h
          split at h
          · cases h; exact fine_fail (.refl _)
          · obtain ⟨x, h2, h⟩ := Outcome.bind_eq_ok.1 h
            cases h
            exact fine_success (grow_applyLocal h2).1 (by simp [creates, hi, localIds])
      · cases h; exact fine_fail (.refl _)

theorem grow_clear {asserts : Bool} : ∀ {l : List OccCell} {s s' : DSlice}, clear asserts l s = .ok s' → Grow s s' []
  | [], s, s', h => by cases h; exact .refl _
  | o :: l, s, s', h => by
    rw [clear] at h
    obtain ⟨p, -, h⟩ := Outcome.bind_eq_ok.1 h
    split at h
    · cases h
    · exact (grow_put_none s o.cell).trans (grow_clear h)

theorem fine_busy {ctx : Ctx ρ} {m : Mach ρ} {i : Instr} {reg : RoutingRegion} {steps : Nat} {after : List SparsePatch} (hi : i.op = .busy reg steps after)
    (ht : Tidy i) {r : Wave.Res (Mach ρ)} (h : applyBusy ctx m i reg steps after = .ok r) : Fine m i r := by
  obtain ⟨p, o, rfl, hp⟩ := ht _ _ _ hi
  unfold applyBusy at h
  split at h
  · obtain ⟨s, h1, h⟩ := Outcome.bind_eq_ok.1 h
    obtain ⟨x, h2, h⟩ := Outcome.bind_eq_ok.1 h
    have g := grow_clear h1
    rw [restore] at h2
    obtain ⟨f, -, h2⟩ := Outcome.bind_eq_ok.1 h2
    split at h2
    · cases h2
      simp only [if_true] at h
      cases h
      exact fine_fail g
    · obtain ⟨s2, h3, h2⟩ := Outcome.bind_eq_ok.1 h2
      rw [restore] at h2
      cases h2
      simp only [Bool.false_eq_true, if_false] at h
      cases h
      unfold place at h3
      rw [hp] at h3
      simp only at h3
      obtain ⟨y, h4, h3⟩ := Outcome.bind_eq_ok.1 h3
      cases h3
      exact fine_success (g.trans (grow_placeSingle hp h4)) (by simp [creates, hi])
  · obtain ⟨_, -, h⟩ := Outcome.bind_eq_ok.1 h
    cases h
    exact fine_followup (.refl _) (by simp [creates, hi]) (fun _ => fun _ _ _ e => by cases e; exact ⟨_, _, rfl, hp⟩) (.inr (by simp [mentions, hi]))

theorem cellById_holds {s : DSlice} {t : Nat} {c : Cell} (h : s.cellById t = some c) : s.idAt c = some t ∧ c ∈ s.allCells := by
  unfold cellById at h
  have hm : c ∈ s.allCells.filter (s.holdsId t) := List.mem_of_getLast? h
  obtain ⟨h1, h2⟩ := List.mem_filter.1 hm
  refine ⟨?_, h1⟩
  unfold holdsId at h2
  unfold idAt
  split at h2
  · rename_i e; rw [e]; simpa using h2
  · cases h2

/-- The patch a rotation of `p` at `c` restores. -/
def rotated (p : DensePatch) (c : Cell) : SparsePatch :=
  let q := if p.activity = .unitary then { p with activity := .none } else p
  { q.toSparse c with cells := .single { cell := c, bounds := q.bounds.instantRotate } }

/-- The two cells a rotation keeps busy. -/
def rotationRegion (c n : Cell) : Option RoutingRegion :=
  match (bareCell c).setBoundaryWith n (fun _ => ⟨.connected, true⟩), (bareCell n).setBoundaryWith c (fun _ => ⟨.connected, true⟩) with
  | some a, some b => some ⟨[a, b], none⟩
  | _, _ => none

theorem rotated_id (p : DensePatch) (c : Cell) : (rotated p c).id = p.id := by
  unfold rotated DensePatch.toSparse
  split <;> rfl

/-- What a rotation does when it does not fail. -/
theorem applyRotate_ok {ctx : Ctx ρ} {m : Mach ρ} {i : Instr} {t : Nat} {r : Wave.Res (Mach ρ)} (h : applyRotate ctx m i t = .ok r) :
    r = ⟨m, i, true, []⟩ ∨ ∃ c p n reg x, m.slice.cellById t = some c ∧ m.slice.cells c = some p ∧
      lastFree m.slice (c.neighboursIn ⟨0, 0⟩ ctx.layout.furthest) none = .ok (some n) ∧ rotationRegion c n = some reg ∧
      mark ctx.layout ctx.asserts (m.slice.put c none) reg .rotation = .ok x ∧
      r = ⟨{ m with slice := x.1 }, i, false, [{ op := .busy x.2 2 [rotated p c] }]⟩ := by
  unfold applyRotate at h
  split at h
  · rename_i c p hc hp
    have hpc : m.slice.cells c = some p := by unfold patchById at hp; rw [hc] at hp; exact hp
    obtain ⟨n, h1, h⟩ := Outcome.bind_eq_ok.1 h
    split at h
    · cases h; exact .inl rfl
    · rename_i n
      right
      obtain ⟨y, h2, h⟩ := Outcome.bind_eq_ok.1 h
      obtain ⟨x, h3, h⟩ := Outcome.bind_eq_ok.1 h
      unfold rotation at h2
      simp only [DensePatch.toSparse] at h2
      split at h2
      · rename_i ha hb
        have h2 := Outcome.ok.inj h2
        refine ⟨c, p, n, y.1, x, hc, hpc, h1, ?_, h3, ?_⟩
        · unfold rotationRegion; simp only [ha, hb]; rw [← h2]
        · cases h
          rw [← h2]
          rfl
      · cases h2
  · cases h; exact .inl rfl

theorem fine_rotate {ctx : Ctx ρ} {m : Mach ρ} {i : Instr} {t : Nat} (hi : i.op = .rotate t) {r : Wave.Res (Mach ρ)}
    (h : applyRotate ctx m i t = .ok r) : Fine m i r := by
  rcases applyRotate_ok h with rfl | ⟨c, p, n, reg, x, hc, hpc, -, -, h3, rfl⟩
  · exact fine_fail (.refl _)
  · obtain ⟨hid, -⟩ := cellById_holds hc
    have hpid : p.id = some t := by unfold idAt at hid; rw [hpc] at hid; exact hid
    have g := (grow_put_none m.slice c).trans (mark_filled h3).1.grow
    refine ⟨?_, ?_, ?_⟩
    · intro rest hinv
      have hcr : creates i = [] := by simp [creates, hi]
      rw [hcr] at hinv
      have i1 : Inv x.1 rest := by simpa using hinv.grow (l' := []) g (by simp)
      have hown : m.slice.Owns t := ⟨c, hid⟩
      have hno : ¬ x.1.Owns t := by
        rintro ⟨d, hd⟩
        have hd' : (m.slice.put c none).idAt d = some t := by
          rcases (mark_filled h3).1.cell d with hx | ⟨-, -, -, q, hq, -, -, hqid⟩
          · rw [← idAt_of_core hx]; exact hd
          · simp [idAt, hq, hqid] at hd
        rw [idAt_put] at hd'
        split at hd'
        · cases hd'
        · rename_i hne; exact hne (hinv.uniq d c t hd' hid)
      simp only [leftover, ne_eq, List.cons_ne_self, not_false_eq_true, if_true, List.flatMap_cons, List.flatMap_nil, creates, List.append_nil,
        rotated_id, hpid, Option.toList_some, List.singleton_append]
      refine ⟨i1.uniq, ?_, ?_, i1.inside⟩
      · intro n hn
        rcases List.mem_cons.1 hn with rfl | hn
        · exact hno
        · exact i1.fresh n hn
      · exact List.nodup_cons.2 ⟨fun hm => hinv.fresh t (by simpa using hm) hown, i1.nodup⟩
    · intro _ j hj
      simp only [leftover, ne_eq, List.cons_ne_self, not_false_eq_true, if_true, List.mem_singleton] at hj
      subst hj
      intro _ _ _ e
      cases e
      exact ⟨_, _, rfl, rfl⟩
    · intro _ j hj
      simp only [leftover, ne_eq, List.cons_ne_self, not_false_eq_true, if_true, List.mem_singleton] at hj
      subst hj
      exact fun n hn => hn

theorem apply_fine {ctx : Ctx ρ} {m : Mach ρ} {i : Instr} (ht : Tidy i) {r : Wave.Res (Mach ρ)} (h : apply ctx m i = .ok r) : Fine m i r := by
  unfold apply at h
  split at h
  · exact fine_measure h
  · exact fine_sq h
  · rename_i e; exact fine_multi e h
  · rename_i e; exact fine_init e h
  · rename_i e; exact fine_bell e h
  · rename_i e; exact fine_cnot e h
  · rename_i e; exact fine_rotate e h
  · rename_i e; exact fine_magic e h
  · rename_i e; exact fine_y e h
  · rename_i e; exact fine_busy e ht h
  · cases h; exact fine_success (.refl _) (by simp)
  · cases h

/-- Giving a `Y` state back needs no fresh id. -/
theorem unbind_inv {ctx : Ctx ρ} {m : Mach ρ} {i : Instr} {t near : Nat} {lo : Option LocalInstr} (hi : i.op = .ystate t near lo) {c : Cell}
    (hc : m.slice.cellById t = some c) {r : Wave.Res (Mach ρ)} (h : apply ctx m i = .ok r) {rest : List Nat} (hinv : Inv m.slice rest) :
    Inv r.slice.slice rest ∧ leftover r = [] := by
  unfold apply at h
  rw [hi] at h
  simp only [applyY, hc] at h
  cases h
  refine ⟨?_, by simp [leftover]⟩
  refine Inv.grow (s := m.slice) (l := []) (l' := []) (g := []) hinv ?_ (by simp)
  exact grow_fields (grow_modPatch m.slice c (fun p => { p with id := none }) fun _ _ h => by simp at h) rfl rfl rfl

/-! ### The next slice -/

theorem age_id {p q : DensePatch} (h : age p = some q) : q.id = p.id := by
  rcases p with ⟨⟨type, act, id, label, op⟩, b⟩
  cases act <;> simp [age] at h <;> rw [← h]

theorem grow_ageAll (s : DSlice) : Grow s s.ageAll [] := by
  refine .of_ids (fun c n e => ?_) rfl rfl fun c _ h => by simp [ageAll, h]
  unfold idAt ageAll at e
  unfold idAt
  cases hc : s.cells c with
  | none => simp [hc] at e
  | some p =>
    simp only [hc, Option.bind_some] at e ⊢
    cases ha : age p with
    | none => simp [ha] at e
    | some q => rw [ha] at e; simpa [age_id ha] using e

theorem grow_spawn {s s' : DSlice} {c : Cell} (h : s.spawn c = .ok s') : Grow s s' [] := by
  unfold spawn at h
  obtain ⟨r, h1, h⟩ := Outcome.bind_eq_ok.1 h
  cases h
  exact grow_fields (grow_placeSingle (p := { basicSquare c none (some "Magic State") with type := .preparedState }) rfl h1) rfl rfl rfl

theorem grow_respawn {L : Layout} : ∀ {cs : List Cell} {i : Nat} {s s' : DSlice}, respawn L cs i s = .ok s' → Grow s s' []
  | [], _, s, s', h => by cases h; exact .refl _
  | c :: cs, i, s, s', h => by
    rw [respawn] at h
    obtain ⟨s1, h1, h⟩ := Outcome.bind_eq_ok.1 h
    obtain ⟨s2, h2, h⟩ := Outcome.bind_eq_ok.1 h
    have g1 : Grow s s1 [] := by
      unfold respawnCount at h1
      obtain ⟨p, h0, h1⟩ := Outcome.bind_eq_ok.1 h1
      obtain ⟨hr, -⟩ := patchAt_ok h0
      split at h1
      · split at h1
        · cases h1
          exact grow_fields (grow_put s c (distillationPatch (.all ⟨.connected, false⟩)) (.inl hr)) rfl rfl rfl
        · cases h1
      · split at h1
        · split at h1
          · cases h1; exact grow_fields (.refl _) rfl rfl rfl
          · cases h1
        · cases h1; exact .refl _
    have g2 : Grow s1 s2 [] := by
      unfold respawnPlace at h2
      split at h2
      · split at h2
        · exact grow_spawn h2
        · cases h2; exact .refl _
      · cases h2
    exact (g1.trans g2).trans (grow_respawn h)

theorem grow_factories {L : Layout} : ∀ {n i : Nat} {s s' : DSlice}, factories L n i s = .ok s' → Grow s s' []
  | 0, _, s, s', h => by cases h; exact .refl _
  | n + 1, i, s, s', h => by
    rw [factories] at h
    have g0 : Grow s { s with times := s.times.set i (dec32 (s.times.getD i 0)) } [] := grow_fields (.refl _) rfl rfl rfl
    split at h
    · obtain ⟨s1, h1, h⟩ := Outcome.bind_eq_ok.1 h
      suffices g1 : Grow { s with times := s.times.set i (dec32 (s.times.getD i 0)) } s1 [] from (g0.trans g1).trans (grow_factories h)
      unfold deliver at h1
      split at h1
      · obtain ⟨o, h2, h1⟩ := Outcome.bind_eq_ok.1 h1
        split at h1
        · obtain ⟨s2, h3, h1⟩ := Outcome.bind_eq_ok.1 h1
          cases h1
          exact grow_fields (grow_spawn h3) rfl rfl rfl
        · cases h1; exact grow_fields (.refl _) rfl rfl rfl
      · cases h1
    · exact g0.trans (grow_factories h)

theorem grow_advance {L : Layout} {s s' : DSlice} (h : s.advance L = .ok s') : Grow s s' [] := by
  unfold advance at h
  simp only at h
  split at h
  all_goals
    obtain ⟨s1, h1, h⟩ := Outcome.bind_eq_ok.1 h
    cases h
    refine grow_fields (b := s1) (g := [] ++ []) ((grow_ageAll s).trans ?_) rfl rfl rfl
    first | exact grow_respawn h1 | exact grow_factories h1

/-! ### The first slice -/

theorem put_modPatch (s : DSlice) (c : Cell) (p : DensePatch) (f : DensePatch → DensePatch) : (s.put c (some p)).modPatch c f = s.put c (some (f p)) := by
  unfold modPatch
  simp only [put_cells, upd_same, Option.map_some]
  unfold put
  simp only [DSlice.mk.injEq, true_and, and_true]
  funext x
  unfold upd
  split <;> rfl

theorem placeSingle_single {s : DSlice} {p : SparsePatch} {b : Bool} {r : DSlice × Cell} (h : s.placeSingle p b = .ok r) : ∃ o, p.cells = .single o := by
  cases hp : p.cells with
  | single o => exact ⟨o, rfl⟩
  | multi os => unfold placeSingle at h; rw [hp] at h; cases h

theorem grow_placeCore : ∀ {ps : List SparsePatch} {ids : List Nat} {s s' : DSlice}, placeCore ps ids s = .ok s' → Grow s s' ids
  | [], ids, s, s', h => by rw [placeCore] at h; cases h; exact (Grow.refl s).mono (by simp); simp
  | p :: ps, [], s, s', h => by rw [placeCore] at h; cases h; exact (Grow.refl s).mono (by simp); simp
  | p :: ps, i :: is, s, s', h => by
    rw [placeCore] at h
    obtain ⟨r, h1, h⟩ := Outcome.bind_eq_ok.1 h
    obtain ⟨o, ho⟩ := placeSingle_single h1
    obtain ⟨hr, -, rfl⟩ := placeSingle_ok ho h1
    simp only [put_modPatch] at h
    exact (grow_put s o.cell _ (.inl hr)).trans (grow_placeCore h)

theorem grow_placeY : ∀ {cs : List Cell} {s s' : DSlice}, placeY cs s = .ok s' → Grow s s' []
  | [], s, s', h => by cases h; exact .refl _
  | c :: cs, s, s', h => by
    rw [placeY] at h
    obtain ⟨r, h1, h⟩ := Outcome.bind_eq_ok.1 h
    exact (grow_fields (b' := { r.1 with yAvail := r.1.yAvail + 1 }) (grow_placeSingle (p := basicSquare c none none) rfl h1) rfl rfl rfl).trans (grow_placeY h)

theorem grow_assignAll : ∀ {l : List (Cell × DensePatch)} {s s' : DSlice}, (∀ x ∈ l, x.2.id = none) → assignAll l s = .ok s' → Grow s s' []
  | [], s, s', _, h => by cases h; exact .refl _
  | (c, p) :: l, s, s', hid, h => by
    rw [assignAll] at h
    obtain ⟨s1, h1, h⟩ := Outcome.bind_eq_ok.1 h
    have hp : p.id = none := hid (c, p) (by simp)
    unfold assign at h1
    split at h1
    · rename_i hr
      cases h1
      have := grow_put s c p (.inl hr)
      rw [hp] at this
      exact this.trans (grow_assignAll (fun x hx => hid x (by simp [hx])) h)
    · cases h1

theorem init_inv_rest {L : Layout} {ids rest : List Nat} {s : DSlice} (hn : (ids ++ rest).Nodup) (h : DSlice.init L ids = .ok s) : Inv s rest := by
  unfold DSlice.init at h
  split at h
  · cases h
  · obtain ⟨s1, h1, h⟩ := Outcome.bind_eq_ok.1 h
    obtain ⟨s2, h2, h⟩ := Outcome.bind_eq_ok.1 h
    obtain ⟨s3, h3, h⟩ := Outcome.bind_eq_ok.1 h
    obtain ⟨s4, h4, h⟩ := Outcome.bind_eq_ok.1 h
    have g := (((grow_placeCore h1).trans (grow_placeY h2)).trans (grow_assignAll (fun x hx => by obtain ⟨o, -, rfl⟩ := List.mem_map.1 hx; rfl) h3)).trans
      (grow_assignAll (by simp [distillationPatch]) h4)
    have g' : Grow (empty L) s ids := by
      simpa using (grow_fields (b' := { s4 with times := L.times }) g rfl rfl rfl).trans (grow_assignAll (by simp [deadPatch]) h)
    have e : Inv (empty L) (ids ++ rest) := by
      refine ⟨?_, ?_, hn, fun _ _ => rfl⟩
      · intro c c' n h1; simp [idAt, empty] at h1
      · rintro n - ⟨c, hc⟩; simp [idAt, empty] at hc
    simpa using Inv.grow (l := ids) (rest := rest) (l' := []) e g' (by simp)

theorem init_inv {L : Layout} {ids : List Nat} {s : DSlice} (hn : ids.Nodup) (h : DSlice.init L ids = .ok s) : Inv s [] :=
  init_inv_rest (by simpa using hn) h

end Apply

end Verif
