import Verif.SliceCalm

/-! # The marks of edge-disjoint routing carry no id (lemmas) -/

namespace Verif

open Apply

/-- A routing mark has no id. -/
def Patch.Unnamed (p : Patch) : Prop := p.activity = .edpc → p.id = none

namespace DSlice

/-- No routing mark of the slice has an id. -/
def Marks (s : DSlice) : Prop := ∀ x p, s.core x = some p → p.Unnamed

section
variable {s s' : DSlice}

theorem Marks.get (h : Marks s) {x : Cell} {p : DensePatch} (hp : s.cells x = some p) : p.toPatch.Unnamed := h x _ (by unfold core; rw [hp]; rfl)

theorem Marks.same (h : Marks s) (hs : SameCore s s') : Marks s' := fun x p hp => h x p (by rw [← hs.core x]; exact hp)

theorem Marks.filled {Y : List Cell} {act : PatchActivity} (h : Marks s) (hs : Filled Y act s s') : Marks s' := by
  intro x p hp
  rcases hs.cell x with e | ⟨-, -, -, d, h1, -, -, h2⟩
  · exact h x p (by rw [← e]; exact hp)
  · intro _
    unfold core at hp
    rw [h1] at hp
    cases hp
    exact h2

theorem Marks.put (h : Marks s) {x : Cell} {p : Option DensePatch} (hp : ∀ d, p = some d → d.toPatch.Unnamed) : Marks (s.put x p) := by
  intro y d hd
  rw [core_put] at hd
  split at hd
  · obtain ⟨e, he, rfl⟩ := Option.map_eq_some_iff.1 hd
    exact hp e he
  · exact h y d hd

theorem Marks.vacate (h : Marks s) (e : Bool) (x : Cell) : Marks (Apply.vacate e s x) := by
  unfold Apply.vacate
  split
  · exact h.put (by simp)
  · exact h

theorem Marks.modPatch (h : Marks s) {x : Cell} {f : DensePatch → DensePatch} (hf : ∀ d, s.cells x = some d → d.toPatch.Unnamed → (f d).toPatch.Unnamed) : Marks (s.modPatch x f) := by
  refine h.put ?_
  intro d hd
  obtain ⟨e, he, rfl⟩ := Option.map_eq_some_iff.1 hd
  exact hf e he (h.get he)

theorem Marks.cells (h : Marks s) (h1 : s'.cells = s.cells) : Marks s' := by
  intro x p hp
  exact h x p (by unfold core at *; rw [← h1]; exact hp)

theorem Marks.place {p : SparsePatch} {r : DSlice × Cell} (h : Marks s) (hq : p.toPatch.Unnamed) (hp : s.placeSingle p false = .ok r) : Marks r.1 := by
  obtain ⟨o, ho⟩ := placeSingle_single hp
  obtain ⟨-, -, rfl⟩ := placeSingle_ok ho hp
  refine h.put ?_
  intro d hd
  cases hd
  exact hq

theorem basic_unnamed (c : Cell) (id : Option Nat) (l : Option String) : (basicSquare c id l).toPatch.Unnamed := fun h => by cases h

end

end DSlice

namespace Apply

open DSlice

section
variable {s s' : DSlice}

theorem marks_setActivity (h : Marks s) {x : Cell} {a : PatchActivity} (ha : a ≠ .edpc) : Marks (setActivity s x a) :=
  h.modPatch fun _ _ _ e => absurd e ha

theorem marks_local {e : Bool} {l : LocalInstr} {r : DSlice × Bool} (hs : Marks s) (h : applyLocal e s l = .ok r) : Marks r.1 := by
  cases l with
  | prepareY id x =>
    simp only [applyLocal, prepareY] at h
    obtain ⟨f, h1, h⟩ := Outcome.bind_eq_ok.1 h
    split at h
    · cases h
    · obtain ⟨y, h2, h⟩ := Outcome.bind_eq_ok.1 h
      cases h
      exact (hs.place (basic_unnamed _ _ _) h2).modPatch fun _ _ _ e => by cases e
  | bellPrepare id1 id2 c1 c2 =>
    simp only [applyLocal, bellPrepare] at h
    obtain ⟨a1, h1, h⟩ := Outcome.bind_eq_ok.1 h
    split at h
    · cases h; exact hs
    · obtain ⟨a2, h2, h⟩ := Outcome.bind_eq_ok.1 h
      split at h
      · cases h; exact hs
      · obtain ⟨s3, h3, h⟩ := Outcome.bind_eq_ok.1 h
        cases h
        unfold bellPlace at h3
        obtain ⟨x1, g1, h3⟩ := Outcome.bind_eq_ok.1 h3
        obtain ⟨x2, g2, h3⟩ := Outcome.bind_eq_ok.1 h3
        obtain ⟨x3, g3, h3⟩ := Outcome.bind_eq_ok.1 h3
        exact (((((hs.vacate e _).vacate e _).place (basic_unnamed _ _ _) g1).place (basic_unnamed _ _ _) g2).same (activateOrFail_same g3)).same (activateOrFail_same h3)
  | bellMeasure c1 c2 =>
    simp only [applyLocal, bellMeasure] at h
    obtain ⟨a1, h1, h⟩ := Outcome.bind_eq_ok.1 h
    split at h
    · cases h; exact hs
    · obtain ⟨x1, g1, h⟩ := Outcome.bind_eq_ok.1 h
      obtain ⟨x2, g2, h⟩ := Outcome.bind_eq_ok.1 h
      cases h
      exact marks_setActivity (marks_setActivity ((hs.same (activateOrFail_same g1)).same (activateOrFail_same g2)) (by decide)) (by decide)
  | move src dst newId =>
    simp only [applyLocal, move] at h
    obtain ⟨a1, h1, h⟩ := Outcome.bind_eq_ok.1 h
    split at h
    · cases h; exact hs
    · obtain ⟨a2, h2, h⟩ := Outcome.bind_eq_ok.1 h
      split at h
      · cases h; exact hs
      · obtain ⟨s3, h3, h⟩ := Outcome.bind_eq_ok.1 h
        cases h
        unfold movePlace at h3
        split at h3
        · cases h3
        · obtain ⟨x1, g1, h3⟩ := Outcome.bind_eq_ok.1 h3
          obtain ⟨x2, g2, h3⟩ := Outcome.bind_eq_ok.1 h3
          obtain ⟨x3, g3, h3⟩ := Outcome.bind_eq_ok.1 h3
          cases h3
          exact ((((hs.vacate e _).place (basic_unnamed _ _ _) g1).same (activateOrFail_same g2)).same (activateOrFail_same g3)).modPatch fun _ _ _ _ => rfl
  | twoPatchMeasure c1 c2 =>
    simp only [applyLocal, twoPatchMeasure] at h
    obtain ⟨a1, h1, h⟩ := Outcome.bind_eq_ok.1 h
    split at h
    · cases h; exact hs
    · obtain ⟨x1, g1, h⟩ := Outcome.bind_eq_ok.1 h
      obtain ⟨x2, g2, h⟩ := Outcome.bind_eq_ok.1 h
      cases h
      exact (hs.same (activateOrFail_same g1)).same (activateOrFail_same g2)
  | extendSplit id target ext =>
    simp only [applyLocal, extendSplit] at h
    obtain ⟨a1, h1, h⟩ := Outcome.bind_eq_ok.1 h
    split at h
    · cases h; exact hs
    · obtain ⟨a2, h2, h⟩ := Outcome.bind_eq_ok.1 h
      split at h
      · cases h; exact hs
      · obtain ⟨x1, g1, h⟩ := Outcome.bind_eq_ok.1 h
        obtain ⟨x2, g2, h⟩ := Outcome.bind_eq_ok.1 h
        obtain ⟨x3, g3, h⟩ := Outcome.bind_eq_ok.1 h
        cases h
        exact (((hs.vacate e _).place (basic_unnamed _ _ _) g1).same (activateOrFail_same g2)).same (activateOrFail_same g3)
  | mergeContract p m =>
    simp only [applyLocal, mergeContract] at h
    obtain ⟨a1, h1, h⟩ := Outcome.bind_eq_ok.1 h
    split at h
    · cases h; exact hs
    · obtain ⟨x1, g1, h⟩ := Outcome.bind_eq_ok.1 h
      obtain ⟨x2, g2, h⟩ := Outcome.bind_eq_ok.1 h
      cases h
      exact marks_setActivity ((hs.same (activateOrFail_same g1)).same (activateOrFail_same g2)) (by decide)

theorem marks_runLocals {e : Bool} : ∀ {ls : List LocalInstr} {s : DSlice} {x : DSlice × Nat × Bool}, Marks s → runLocals e ls s = .ok x → Marks x.1
  | [], s, x, hs, h => by cases h; exact hs
  | l :: ls, s, x, hs, h => by
    rw [runLocals] at h
    obtain ⟨r, h1, h⟩ := Outcome.bind_eq_ok.1 h
    have g1 := marks_local hs h1
    split at h
    · cases h; exact g1
    · obtain ⟨y, h2, h⟩ := Outcome.bind_eq_ok.1 h
      cases h
      exact marks_runLocals (x := y) g1 h2

/-- What an instruction puts back has an id only if it is no routing mark. -/
def Quiet (i : Instr) : Prop :=
  match i.op with
  | .busy _ _ after => ∀ p ∈ after, p.toPatch.Unnamed
  | _ => True

/-- An attempt names no routing mark. -/
structure Kept {ρ : Type} (r : Wave.Res (Mach ρ)) : Prop where
  slice : Marks r.slice.slice
  instr : Quiet r.instr
  followups : ∀ j ∈ r.followups, Quiet j

variable {ρ : Type} {ctx : Ctx ρ} {m : Mach ρ} {i : Instr} {r : Wave.Res (Mach ρ)}

theorem kept_fail {m' : Mach ρ} (hs : Marks m'.slice) (hi : Quiet i) (h : fail m' i = .ok r) : Kept r := by
  cases h; exact ⟨hs, hi, by simp⟩

theorem kept_success {m' : Mach ρ} (hs : Marks m'.slice) (hi : Quiet i) (h : success m' i = .ok r) : Kept r := by
  cases h; exact ⟨hs, hi, by simp⟩

theorem kept_followup {m' : Mach ρ} {f : Instr} (hs : Marks m'.slice) (hi : Quiet i) (hf : Quiet f) (h : followup m' i f = .ok r) : Kept r := by
  cases h; exact ⟨hs, hi, by simpa using hf⟩

theorem marks_merge (hs : Marks m.slice) {a b : Nat} {opA opB : Pauli} {x : Mach ρ × Bool} (h : merge ctx m a opA b opB = .ok x) : Marks x.1.slice := by
  unfold merge at h
  split at h
  · split at h
    · cases h; exact hs
    · obtain ⟨⟨o, rs⟩, h1, h⟩ := Outcome.bind_eq_ok.1 h
      simp only at h
      split at h
      · cases h; exact hs
      · split at h
        · obtain ⟨s, h2, h⟩ := Outcome.bind_eq_ok.1 h
          obtain ⟨y, h3, h⟩ := Outcome.bind_eq_ok.1 h
          cases h
          exact (hs.same (stitch_same h2)).filled (mark_filled h3).1
        · cases h
  · cases h

theorem kept_sq (hs : Marks m.slice) {t : Nat} {op : SqOp} (hi : Quiet i) (h : applySq ctx m i t op = .ok r) : Kept r := by
  unfold applySq at h
  split at h
  · split at h
    · split at h
      · cases h
      · obtain ⟨⟨m', ok⟩, h1, h⟩ := Outcome.bind_eq_ok.1 h
        have := marks_merge hs h1
        simp only at h
        split at h
        · cases h; exact ⟨this, hi, by simp [Quiet]⟩
        · exact kept_fail this hi h
    · split at h
      · exact kept_fail hs hi h
      · split at h
        · cases h
          exact ⟨hs.modPatch (fun _ _ _ e => by cases e), hi, by simp⟩
        · exact kept_success hs hi h
  · exact kept_fail hs hi h

theorem kept_multi (hs : Marks m.slice) {obs : List (Nat × Pauli)} {neg : Bool} (hi : Quiet i) (h : applyMulti ctx m i obs neg = .ok r) : Kept r := by
  unfold applyMulti at h
  split at h
  · split at h
    · split at h
      · unfold applyMultiLocal at h
        obtain ⟨b1, -, h⟩ := Outcome.bind_eq_ok.1 h
        split at h
        · cases h
        · obtain ⟨b2, -, h⟩ := Outcome.bind_eq_ok.1 h
          split at h
          · cases h
          · obtain ⟨x, h1, h⟩ := Outcome.bind_eq_ok.1 h
            cases h
            exact ⟨marks_local hs h1, trivial, by simp⟩
      · split at h
        · cases h
        · obtain ⟨⟨m', ok⟩, h1, h⟩ := Outcome.bind_eq_ok.1 h
          have := marks_merge hs h1
          simp only at h
          split at h
          · exact kept_success this hi h
          · exact kept_fail this hi h
    · exact kept_fail hs hi h
  · cases h

theorem kept_init (hs : Marks m.slice) {t : Nat} {next : Option NextTo} (hi : Quiet i) (h : applyInit ctx m i t next = .ok r) : Kept r := by
  unfold applyInit at h
  obtain ⟨o, -, h⟩ := Outcome.bind_eq_ok.1 h
  split at h
  · exact kept_fail hs hi h
  · rename_i x
    obtain ⟨y, h2, h⟩ := Outcome.bind_eq_ok.1 h
    obtain ⟨-, hf, rfl⟩ := placeSingle_ok rfl h2
    cases h
    refine ⟨(hs.put ?_).modPatch ?_, hi, by simp⟩
    · intro d hd e; cases hd; cases e
    · intro d hd _ e
      simp only [put_cells, upd_same, Option.some.injEq] at hd
      rw [← hd] at e
      cases e

theorem kept_bellRun {b : BellInit} {ls : List LocalInstr} {k : Nat} (hs : Marks m.slice) (h : bellInitRun ctx m i b ls k = .ok r) : Kept r := by
  unfold bellInitRun at h
  obtain ⟨x, h1, h⟩ := Outcome.bind_eq_ok.1 h
  have g := marks_runLocals hs h1
  split at h
  · cases h; exact ⟨g, trivial, by simp⟩
  · cases h; exact ⟨g, trivial, by simp [Quiet]⟩

theorem kept_bell (hs : Marks m.slice) {b : BellInit} (hi : Quiet i) (h : applyBell ctx m i b = .ok r) : Kept r := by
  unfold applyBell at h
  split at h
  · cases h
  · split at h
    · exact kept_fail hs hi h
    · split at h
      · exact kept_fail hs hi h
      · split at h
        · split at h
          · cases h
          · exact kept_bellRun hs h
        · obtain ⟨⟨rt, rs⟩, h1, h⟩ := Outcome.bind_eq_ok.1 h
          dsimp only at h
          cases rt with
          | none => exact kept_fail (m' := { m with rs := rs }) hs hi h
          | some reg =>
            dsimp only at h
            split at h
            · exact kept_fail (m' := { m with rs := rs }) hs hi h
            · obtain ⟨ls, h2, h⟩ := Outcome.bind_eq_ok.1 h
              exact kept_bellRun (m := { m with rs := rs }) hs h

theorem kept_cnotRun {b : BellCNOT} {sets : List (List LocalInstr)} {ps : List (Nat × Nat)} (hs : Marks m.slice) (h : cnotRun ctx m i b sets ps = .ok r) : Kept r := by
  unfold cnotRun at h
  split at h
  · obtain ⟨x, h1, h⟩ := Outcome.bind_eq_ok.1 h
    have g := marks_runLocals hs h1
    dsimp only at h
    split at h
    · cases h; exact ⟨g, trivial, by simp⟩
    · cases h; exact ⟨g, trivial, by simp [Quiet]⟩
  · cases h

theorem kept_cnotPhase {b : BellCNOT} {sets : List (List LocalInstr)} {ps : List (Nat × Nat)} {k : Nat} (hs : Marks m.slice) (h : cnotPhase ctx m i b sets ps k = .ok r) : Kept r := by
  unfold cnotPhase at h
  split at h
  · obtain ⟨x, h1, h⟩ := Outcome.bind_eq_ok.1 h
    have g := marks_runLocals hs h1
    dsimp only at h
    split at h
    · cases h; exact ⟨g, trivial, by simp [Quiet]⟩
    · split at h
      · cases h; exact ⟨g, trivial, by simp⟩
      · cases h; exact ⟨g, trivial, by simp [Quiet]⟩
  · cases h

theorem kept_cnot (hs : Marks m.slice) {b : BellCNOT} (hi : Quiet i) (h : applyCnot ctx m i b = .ok r) : Kept r := by
  unfold applyCnot at h
  split at h
  · cases h
  · split at h
    · split at h
      · exact kept_fail hs hi h
      · split at h
        · unfold applyCnotEdpc at h
          split at h
          · unfold cnotRoute at h
            obtain ⟨⟨rt, rs⟩, h1, h⟩ := Outcome.bind_eq_ok.1 h
            dsimp only at h
            cases rt with
            | none => exact kept_fail (m' := { m with rs := rs }) hs hi h
            | some reg =>
              dsimp only at h
              split at h
              · cases h
              · obtain ⟨reg', h2, h⟩ := Outcome.bind_eq_ok.1 h
                obtain ⟨x, h3, h⟩ := Outcome.bind_eq_ok.1 h
                cases h
                exact ⟨hs.filled (mark_filled h3).1, trivial, by simp [Quiet]⟩
          · split at h
            · unfold cnotDecompose at h
              obtain ⟨x, h1, h⟩ := Outcome.bind_eq_ok.1 h
              obtain ⟨p, h2, h⟩ := Outcome.bind_eq_ok.1 h
              cases h; exact ⟨hs, trivial, by simp⟩
            · split at h
              · exact kept_cnotPhase hs h
              · cases h
        · unfold applyCnotPlain at h
          split at h
          · split at h
            · cases h
            · exact kept_cnotRun hs h
          · obtain ⟨⟨rt, rs⟩, h1, h⟩ := Outcome.bind_eq_ok.1 h
            dsimp only at h
            cases rt with
            | none => exact kept_fail (m' := { m with rs := rs }) hs hi h
            | some reg =>
              dsimp only at h
              split at h
              · cases h
              · obtain ⟨reg', h2, h⟩ := Outcome.bind_eq_ok.1 h
                obtain ⟨l, h3, h⟩ := Outcome.bind_eq_ok.1 h
                exact kept_cnotRun (m := { m with rs := rs }) hs h
    · exact kept_fail hs hi h

theorem kept_rotate (hs : Marks m.slice) {t : Nat} (hi : Quiet i) (h : applyRotate ctx m i t = .ok r) : Kept r := by
  rcases applyRotate_ok h with rfl | ⟨x, p, n, reg, y, hc, hpc, hl, hreg, h3, rfl⟩
  · exact ⟨hs, hi, by simp⟩
  · refine ⟨(hs.put (by simp)).filled (mark_filled h3).1, hi, ?_⟩
    intro j hj
    simp only [List.mem_singleton] at hj
    subst hj
    intro p' hp'
    simp only [List.mem_singleton] at hp'
    subst hp'
    have := hs.get hpc
    unfold Patch.Unnamed rotated at *
    split
    · intro e; cases e
    · exact this

theorem marks_placeSubs : ∀ {os : List OccCell} {s s' : DSlice}, Marks s → placeSubs false os s = .ok s' → Marks s'
  | [], s, s', hs, h => by cases h; exact hs
  | o :: os, s, s', hs, h => by
    rw [placeSubs] at h
    obtain ⟨x, h1, h⟩ := Outcome.bind_eq_ok.1 h
    exact marks_placeSubs (hs.place (by intro e; cases e) h1) h

theorem marks_restore : ∀ {ps : List SparsePatch} {s : DSlice} {x : DSlice × Bool}, Marks s → (∀ p ∈ ps, p.toPatch.Unnamed) → restore ps s = .ok x → Marks x.1
  | [], s, x, hs, _, h => by cases h; exact hs
  | p :: ps, s, x, hs, hp, h => by
    rw [restore] at h
    obtain ⟨f, -, h⟩ := Outcome.bind_eq_ok.1 h
    split at h
    · cases h; exact hs
    · obtain ⟨s1, h1, h⟩ := Outcome.bind_eq_ok.1 h
      refine marks_restore (s := s1) ?_ (fun p' hp' => hp p' (List.mem_cons_of_mem _ hp')) h
      unfold place at h1
      split at h1
      · obtain ⟨y, h2, h1⟩ := Outcome.bind_eq_ok.1 h1
        cases h1
        exact hs.place (hp p (by simp)) h2
      · exact marks_placeSubs hs h1

theorem kept_busy (hs : Marks m.slice) {reg : RoutingRegion} {k : Nat} {after : List SparsePatch} (hi : Quiet i) (ha : ∀ p ∈ after, p.toPatch.Unnamed)
    (h : applyBusy ctx m i reg k after = .ok r) : Kept r := by
  unfold applyBusy at h
  split at h
  · obtain ⟨s, h1, h⟩ := Outcome.bind_eq_ok.1 h
    obtain ⟨x, h2, h⟩ := Outcome.bind_eq_ok.1 h
    have hs1 : Marks s := by
      obtain ⟨e, -⟩ := clear_ok h1
      subst e
      intro y p hp
      unfold core at hp
      dsimp only at hp
      split at hp
      · cases hp
      · exact hs y p hp
    have g := marks_restore hs1 ha h2
    split at h <;> cases h <;> exact ⟨g, hi, by simp⟩
  · obtain ⟨u, -, h⟩ := Outcome.bind_eq_ok.1 h
    cases h; exact ⟨hs, hi, by simpa [Quiet] using ha⟩

theorem kept_magic (hs : Marks m.slice) {t near : Nat} (hi : Quiet i) (h : applyMagic ctx m i t near = .ok r) : Kept r := by
  unfold applyMagic at h
  split at h
  · cases h
  · split at h
    · exact kept_fail hs hi h
    · split at h
      · cases h
      · split at h
        · cases h
        · rename_i nc x hx
          obtain ⟨o, -, h⟩ := Outcome.bind_eq_ok.1 h
          cases o with
          | none => cases h
          | some p =>
            cases h
            refine ⟨?_, hi, by simp⟩
            exact (hs.modPatch (x := x) (f := fun p => { p with id := some t, type := .qubit, activity := .none }) fun _ _ _ e => by cases e).cells rfl

theorem kept_y (hs : Marks m.slice) {t near : Nat} (hi : Quiet i) (h : applyY ctx m i t near = .ok r) : Kept r := by
  unfold applyY at h
  split at h
  · rename_i x hx
    cases h
    exact ⟨(hs.modPatch (x := x) (f := fun p => { p with id := none }) fun _ _ _ _ => rfl).cells rfl, hi, by simp⟩
  · split at h
    · unfold yPredistilled at h
      obtain ⟨cs, h1, h⟩ := Outcome.bind_eq_ok.1 h
      split at h
      · exact kept_fail hs hi h
      · split at h
        · cases h
        · split at h
          · exact kept_fail hs hi h
          · rename_i x hn
            cases h
            refine ⟨(hs.modPatch (x := x) (f := fun p => { p with id := some t }) ?_).cells rfl, hi, by simp⟩
            intro d hd _ e
            rcases nearest_mem hn with hm | hm
            · obtain ⟨-, p, j2, -, j4⟩ := mem_yCandidates h1 x hm
              rw [hd] at j2; cases j2
              dsimp only at e
              simp [DensePatch.isActive, e] at j4
            · cases hm
    · split at h
      · unfold yTwist at h
        split at h
        · cases h
        · obtain ⟨o, -, h⟩ := Outcome.bind_eq_ok.1 h
          split at h
          · exact kept_fail hs hi h
          · obtain ⟨x, h2, h⟩ := Outcome.bind_eq_ok.1 h
            cases h
            exact ⟨marks_local hs h2, trivial, by simp⟩
      · exact kept_fail hs hi h

/-- No attempt names a routing mark. -/
theorem marks_apply (hs : Marks m.slice) (hi : Quiet i) (h : apply ctx m i = .ok r) : Kept r := by
  unfold apply at h
  split at h
  · unfold applyMeasure at h
    split at h
    · exact kept_fail hs hi h
    · cases h; exact ⟨marks_setActivity hs (by decide), hi, by simp⟩
  · exact kept_sq hs hi h
  · exact kept_multi hs hi h
  · exact kept_init hs hi h
  · exact kept_bell hs hi h
  · exact kept_cnot hs hi h
  · exact kept_rotate hs hi h
  · exact kept_magic hs hi h
  · exact kept_y hs hi h
  · rename_i e; exact kept_busy hs hi (by unfold Quiet at hi; rw [e] at hi; exact hi) h
  · exact kept_success hs hi h
  · cases h

theorem marks_advance {L : Layout} (hs : Marks s) (h : s.advance L = .ok s') : Marks s' := by
  obtain ⟨hm, -⟩ := advance_ok h
  have h1 : Marks s.ageAll := by
    intro x p hp e
    unfold core ageAll at hp
    dsimp only at hp
    obtain ⟨d, hd, rfl⟩ := Option.map_eq_some_iff.1 hp
    obtain ⟨d0, -, hd⟩ := Option.bind_eq_some_iff.1 hd
    rcases d0 with ⟨⟨ty, act, id, lb, op⟩, bs⟩
    cases act <;> simp [age] at hd <;> subst hd <;> simp at e
  intro x p hp
  unfold core at hp
  obtain ⟨d, hd, rfl⟩ := Option.map_eq_some_iff.1 hp
  rcases hm.cell x with e | ⟨⟨d', e, hid, -⟩, -⟩
  · rw [e] at hd
    exact h1.get hd
  · rw [e] at hd
    cases hd
    exact fun _ => hid

theorem marks_init {L : Layout} {ids : List Nat} (hL : ∀ p ∈ L.core, p.activity ≠ .edpc) (h : DSlice.init L ids = .ok s) : Marks s := by
  have hcore : ∀ (ps : List SparsePatch) (is : List Nat) (a b : DSlice), (∀ p ∈ ps, p.activity ≠ .edpc) → Marks a → placeCore ps is a = .ok b → Marks b := by
    intro ps
    induction ps with
    | nil => intro is a b _ ha h; rw [placeCore] at h <;> first | (cases h; exact ha) | simp
    | cons p ps ih =>
      intro is a b hp ha h
      cases is with
      | nil => rw [placeCore] at h <;> first | (cases h; exact ha) | simp
      | cons i is =>
        rw [placeCore] at h
        obtain ⟨r, h1, h⟩ := Outcome.bind_eq_ok.1 h
        obtain ⟨o, ho⟩ := placeSingle_single h1
        obtain ⟨-, -, rfl⟩ := placeSingle_ok ho h1
        refine ih _ _ _ (fun p' hp' => hp p' (List.mem_cons_of_mem _ hp')) ((ha.put ?_).modPatch ?_) h
        · intro d hd e; cases hd; exact absurd e (hp p (by simp))
        · intro d hd _ e
          simp only [put_cells, upd_same, Option.some.injEq] at hd
          rw [← hd] at e
          exact absurd e (hp p (by simp))
  have hy : ∀ (cs : List Cell) (a b : DSlice), Marks a → placeY cs a = .ok b → Marks b := by
    intro cs
    induction cs with
    | nil => intro a b ha h; cases h; exact ha
    | cons c cs ih =>
      intro a b ha h
      rw [placeY] at h
      obtain ⟨r, h1, h⟩ := Outcome.bind_eq_ok.1 h
      refine ih _ _ ?_ h
      exact (ha.place (basic_unnamed _ _ _) h1).cells rfl
  have hassign : ∀ (cs : List (Cell × DensePatch)) (a b : DSlice), (∀ x ∈ cs, x.2.id = none) → Marks a → assignAll cs a = .ok b → Marks b := by
    intro cs
    induction cs with
    | nil => intro a b _ ha h; cases h; exact ha
    | cons c cs ih =>
      intro a b hc ha h
      rw [assignAll] at h
      obtain ⟨r, h1, h⟩ := Outcome.bind_eq_ok.1 h
      unfold assign at h1
      split at h1
      · cases h1
        refine ih _ _ (fun x hx => hc x (List.mem_cons_of_mem _ hx)) (ha.put ?_) h
        intro d hd _
        cases hd
        exact hc c (by simp)
      · cases h1
  unfold DSlice.init at h
  split at h
  · cases h
  · obtain ⟨s1, h1, h⟩ := Outcome.bind_eq_ok.1 h
    obtain ⟨s2, h2, h⟩ := Outcome.bind_eq_ok.1 h
    obtain ⟨s3, h3, h⟩ := Outcome.bind_eq_ok.1 h
    obtain ⟨s4, h4, h⟩ := Outcome.bind_eq_ok.1 h
    have g0 : Marks (DSlice.empty L) := by intro x p hp; cases hp
    have g3 : Marks s3 := by
      refine hassign _ _ _ ?_ (hy _ _ _ (hcore _ _ _ _ hL g0 h1) h2) h3
      intro x hx; obtain ⟨o, -, rfl⟩ := List.mem_map.1 hx; rfl
    have g4 : Marks s4 := by
      refine hassign _ _ _ ?_ g3 h4
      intro x hx; obtain ⟨o, -, rfl⟩ := List.mem_map.1 hx; rfl
    refine hassign _ _ _ ?_ ?_ h
    · intro x hx; obtain ⟨o, -, rfl⟩ := List.mem_map.1 hx; rfl
    · exact g4.cells rfl

end

end Apply

end Verif
