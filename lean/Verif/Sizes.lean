import Verif.StayRun

/-! # The size of a slice and the number of its factories never change (lemmas) -/

namespace Verif

open Apply

namespace DSlice

/-- The slice has the given size and number of factory times. -/
def Sized (z : Nat × Nat × Nat) (s : DSlice) : Prop := (s.rows, s.cols, s.times.length) = z

section
variable {s s' : DSlice} {z : Nat × Nat × Nat}

theorem Sized.same (h : Sized z s) (hs : SameCore s s') : Sized z s' := by unfold Sized at *; rw [hs.rows, hs.cols, hs.times]; exact h

theorem Sized.filled {Y : List Cell} {act : PatchActivity} (h : Sized z s) (hs : Filled Y act s s') : Sized z s' := by unfold Sized at *; rw [hs.rows, hs.cols, hs.times]; exact h

theorem Sized.put (h : Sized z s) {x : Cell} {p : Option DensePatch} : Sized z (s.put x p) := h

theorem Sized.vacate (h : Sized z s) (e : Bool) (x : Cell) : Sized z (Apply.vacate e s x) := by
  unfold Apply.vacate
  split
  · exact h
  · exact h

theorem Sized.modPatch (h : Sized z s) {x : Cell} {f : DensePatch → DensePatch} : Sized z (s.modPatch x f) := h

theorem Sized.fields (h : Sized z s) (h1 : s'.rows = s.rows) (h2 : s'.cols = s.cols) (h3 : s'.times = s.times) : Sized z s' := by unfold Sized at *; rw [h1, h2, h3]; exact h

theorem Sized.place {p : SparsePatch} {b : Bool} {r : DSlice × Cell} (h : Sized z s) (hp : s.placeSingle p b = .ok r) : Sized z r.1 := by
  obtain ⟨o, ho⟩ := placeSingle_single hp
  obtain ⟨-, rfl⟩ := placeSingle_any ho hp
  exact h

end

end DSlice

namespace Apply

open DSlice

section
variable {s s' : DSlice} {z : Nat × Nat × Nat}

theorem sized_setActivity (h : Sized z s) {x : Cell} {a : PatchActivity} : Sized z (setActivity s x a) :=
  h.modPatch

theorem sized_local {e : Bool} {l : LocalInstr} {r : DSlice × Bool} (hs : Sized z s) (h : applyLocal e s l = .ok r) : Sized z r.1 := by
  cases l with
  | prepareY id x =>
    simp only [applyLocal, prepareY] at h
    obtain ⟨f, h1, h⟩ := Outcome.bind_eq_ok.1 h
    split at h
    · cases h
    · obtain ⟨y, h2, h⟩ := Outcome.bind_eq_ok.1 h
      cases h
      exact (hs.place h2).modPatch
  | bellPrepare id1 id2 c1 c2 =>
    simp only [applyLocal, bellPrepare] at h
    obtain ⟨a1, h1, h⟩ := Outcome.bind_eq_ok.1 h
    split at h
    · cases h; exact hs
    · obtain ⟨a2, h2, h⟩ := Outcome.bind_eq_ok.1 h
      split at h
      · cases h; exact hs
      · obtain ⟨s3, h3, h⟩ := Outcome.bind_eq_ok.1 h
        cases h
        unfold bellPlace at h3
        obtain ⟨x1, g1, h3⟩ := Outcome.bind_eq_ok.1 h3
        obtain ⟨x2, g2, h3⟩ := Outcome.bind_eq_ok.1 h3
        obtain ⟨x3, g3, h3⟩ := Outcome.bind_eq_ok.1 h3
        exact (((((hs.vacate e _).vacate e _).place g1).place g2).same (activateOrFail_same g3)).same (activateOrFail_same h3)
  | bellMeasure c1 c2 =>
    simp only [applyLocal, bellMeasure] at h
    obtain ⟨a1, h1, h⟩ := Outcome.bind_eq_ok.1 h
    split at h
    · cases h; exact hs
    · obtain ⟨x1, g1, h⟩ := Outcome.bind_eq_ok.1 h
      obtain ⟨x2, g2, h⟩ := Outcome.bind_eq_ok.1 h
      cases h
      exact sized_setActivity (sized_setActivity ((hs.same (activateOrFail_same g1)).same (activateOrFail_same g2)))
  | move src dst newId =>
    simp only [applyLocal, move] at h
    obtain ⟨a1, h1, h⟩ := Outcome.bind_eq_ok.1 h
    split at h
    · cases h; exact hs
    · obtain ⟨a2, h2, h⟩ := Outcome.bind_eq_ok.1 h
      split at h
      · cases h; exact hs
      · obtain ⟨s3, h3, h⟩ := Outcome.bind_eq_ok.1 h
        cases h
        unfold movePlace at h3
        split at h3
        · cases h3
        · obtain ⟨x1, g1, h3⟩ := Outcome.bind_eq_ok.1 h3
          obtain ⟨x2, g2, h3⟩ := Outcome.bind_eq_ok.1 h3
          obtain ⟨x3, g3, h3⟩ := Outcome.bind_eq_ok.1 h3
          cases h3
          exact ((((hs.vacate e _).place g1).same (activateOrFail_same g2)).same (activateOrFail_same g3)).modPatch
  | twoPatchMeasure c1 c2 =>
    simp only [applyLocal, twoPatchMeasure] at h
    obtain ⟨a1, h1, h⟩ := Outcome.bind_eq_ok.1 h
    split at h
    · cases h; exact hs
    · obtain ⟨x1, g1, h⟩ := Outcome.bind_eq_ok.1 h
      obtain ⟨x2, g2, h⟩ := Outcome.bind_eq_ok.1 h
      cases h
      exact (hs.same (activateOrFail_same g1)).same (activateOrFail_same g2)
  | extendSplit id target ext =>
    simp only [applyLocal, extendSplit] at h
    obtain ⟨a1, h1, h⟩ := Outcome.bind_eq_ok.1 h
    split at h
    · cases h; exact hs
    · obtain ⟨a2, h2, h⟩ := Outcome.bind_eq_ok.1 h
      split at h
      · cases h; exact hs
      · obtain ⟨x1, g1, h⟩ := Outcome.bind_eq_ok.1 h
        obtain ⟨x2, g2, h⟩ := Outcome.bind_eq_ok.1 h
        obtain ⟨x3, g3, h⟩ := Outcome.bind_eq_ok.1 h
        cases h
        exact (((hs.vacate e _).place g1).same (activateOrFail_same g2)).same (activateOrFail_same g3)
  | mergeContract p m =>
    simp only [applyLocal, mergeContract] at h
    obtain ⟨a1, h1, h⟩ := Outcome.bind_eq_ok.1 h
    split at h
    · cases h; exact hs
    · obtain ⟨x1, g1, h⟩ := Outcome.bind_eq_ok.1 h
      obtain ⟨x2, g2, h⟩ := Outcome.bind_eq_ok.1 h
      cases h
      exact sized_setActivity ((hs.same (activateOrFail_same g1)).same (activateOrFail_same g2))

theorem sized_runLocals {e : Bool} : ∀ {ls : List LocalInstr} {s : DSlice} {x : DSlice × Nat × Bool}, Sized z s → runLocals e ls s = .ok x → Sized z x.1
  | [], s, x, hs, h => by cases h; exact hs
  | l :: ls, s, x, hs, h => by
    rw [runLocals] at h
    obtain ⟨r, h1, h⟩ := Outcome.bind_eq_ok.1 h
    have g1 := sized_local hs h1
    split at h
    · cases h; exact g1
    · obtain ⟨y, h2, h⟩ := Outcome.bind_eq_ok.1 h
      cases h
      exact sized_runLocals (x := y) g1 h2

variable {ρ : Type} {ctx : Ctx ρ} {m : Mach ρ} {i : Instr} {r : Wave.Res (Mach ρ)}

theorem sized_fail {m' : Mach ρ} (hs : Sized z m'.slice) (h : fail m' i = .ok r) : Sized z r.slice.slice := by
  cases h; exact (hs)

theorem sized_success {m' : Mach ρ} (hs : Sized z m'.slice) (h : success m' i = .ok r) : Sized z r.slice.slice := by
  cases h; exact (hs)

theorem sized_followup {m' : Mach ρ} {f : Instr} (hs : Sized z m'.slice) (h : followup m' i f = .ok r) : Sized z r.slice.slice := by
  cases h; exact (hs)

theorem sized_merge (hs : Sized z m.slice) {a b : Nat} {opA opB : Pauli} {x : Mach ρ × Bool} (h : merge ctx m a opA b opB = .ok x) : Sized z x.1.slice := by
  unfold merge at h
  split at h
  · split at h
    · cases h; exact hs
    · obtain ⟨⟨o, rs⟩, h1, h⟩ := Outcome.bind_eq_ok.1 h
      simp only at h
      split at h
      · cases h; exact hs
      · split at h
        · obtain ⟨s, h2, h⟩ := Outcome.bind_eq_ok.1 h
          obtain ⟨y, h3, h⟩ := Outcome.bind_eq_ok.1 h
          cases h
          exact (hs.same (stitch_same h2)).filled (mark_filled h3).1
        · cases h
  · cases h

theorem sized_sq (hs : Sized z m.slice) {t : Nat} {op : SqOp} (h : applySq ctx m i t op = .ok r) : Sized z r.slice.slice := by
  unfold applySq at h
  split at h
  · split at h
    · split at h
      · cases h
      · obtain ⟨⟨m', ok⟩, h1, h⟩ := Outcome.bind_eq_ok.1 h
        have := sized_merge hs h1
        simp only at h
        split at h
        · cases h; exact (this)
        · exact sized_fail this h
    · split at h
      · exact sized_fail hs h
      · split at h
        · cases h
          exact (hs.modPatch )
        · exact sized_success hs h
  · exact sized_fail hs h

theorem sized_multi (hs : Sized z m.slice) {obs : List (Nat × Pauli)} {neg : Bool} (h : applyMulti ctx m i obs neg = .ok r) : Sized z r.slice.slice := by
  unfold applyMulti at h
  split at h
  · split at h
    · split at h
      · unfold applyMultiLocal at h
        obtain ⟨b1, -, h⟩ := Outcome.bind_eq_ok.1 h
        split at h
        · cases h
        · obtain ⟨b2, -, h⟩ := Outcome.bind_eq_ok.1 h
          split at h
          · cases h
          · obtain ⟨x, h1, h⟩ := Outcome.bind_eq_ok.1 h
            cases h
            exact (sized_local hs h1)
      · split at h
        · cases h
        · obtain ⟨⟨m', ok⟩, h1, h⟩ := Outcome.bind_eq_ok.1 h
          have := sized_merge hs h1
          simp only at h
          split at h
          · exact sized_success this h
          · exact sized_fail this h
    · exact sized_fail hs h
  · cases h

theorem sized_init (hs : Sized z m.slice) {t : Nat} {next : Option NextTo} (h : applyInit ctx m i t next = .ok r) : Sized z r.slice.slice := by
  unfold applyInit at h
  obtain ⟨o, -, h⟩ := Outcome.bind_eq_ok.1 h
  split at h
  · exact sized_fail hs h
  · rename_i x
    obtain ⟨y, h2, h⟩ := Outcome.bind_eq_ok.1 h
    obtain ⟨-, hf, rfl⟩ := placeSingle_ok rfl h2
    cases h
    exact hs.put.modPatch

theorem sized_bellRun {b : BellInit} {ls : List LocalInstr} {k : Nat} (hs : Sized z m.slice) (h : bellInitRun ctx m i b ls k = .ok r) : Sized z r.slice.slice := by
  unfold bellInitRun at h
  obtain ⟨x, h1, h⟩ := Outcome.bind_eq_ok.1 h
  have g := sized_runLocals hs h1
  split at h
  · cases h; exact (g)
  · cases h; exact (g)

theorem sized_bell (hs : Sized z m.slice) {b : BellInit} (h : applyBell ctx m i b = .ok r) : Sized z r.slice.slice := by
  unfold applyBell at h
  split at h
  · cases h
  · split at h
    · exact sized_fail hs h
    · split at h
      · exact sized_fail hs h
      · split at h
        · split at h
          · cases h
          · exact sized_bellRun hs h
        · obtain ⟨⟨rt, rs⟩, h1, h⟩ := Outcome.bind_eq_ok.1 h
          dsimp only at h
          cases rt with
          | none => exact sized_fail (m' := { m with rs := rs }) hs h
          | some reg =>
            dsimp only at h
            split at h
            · exact sized_fail (m' := { m with rs := rs }) hs h
            · obtain ⟨ls, h2, h⟩ := Outcome.bind_eq_ok.1 h
              exact sized_bellRun (m := { m with rs := rs }) hs h

theorem sized_cnotRun {b : BellCNOT} {sets : List (List LocalInstr)} {ps : List (Nat × Nat)} (hs : Sized z m.slice) (h : cnotRun ctx m i b sets ps = .ok r) : Sized z r.slice.slice := by
  unfold cnotRun at h
  split at h
  · obtain ⟨x, h1, h⟩ := Outcome.bind_eq_ok.1 h
    have g := sized_runLocals hs h1
    dsimp only at h
    split at h
    · cases h; exact (g)
    · cases h; exact (g)
  · cases h

theorem sized_cnotPhase {b : BellCNOT} {sets : List (List LocalInstr)} {ps : List (Nat × Nat)} {k : Nat} (hs : Sized z m.slice) (h : cnotPhase ctx m i b sets ps k = .ok r) : Sized z r.slice.slice := by
  unfold cnotPhase at h
  split at h
  · obtain ⟨x, h1, h⟩ := Outcome.bind_eq_ok.1 h
    have g := sized_runLocals hs h1
    dsimp only at h
    split at h
    · cases h; exact (g)
    · split at h
      · cases h; exact (g)
      · cases h; exact (g)
  · cases h

theorem sized_cnot (hs : Sized z m.slice) {b : BellCNOT} (h : applyCnot ctx m i b = .ok r) : Sized z r.slice.slice := by
  unfold applyCnot at h
  split at h
  · cases h
  · split at h
    · split at h
      · exact sized_fail hs h
      · split at h
        · unfold applyCnotEdpc at h
          split at h
          · unfold cnotRoute at h
            obtain ⟨⟨rt, rs⟩, h1, h⟩ := Outcome.bind_eq_ok.1 h
            dsimp only at h
            cases rt with
            | none => exact sized_fail (m' := { m with rs := rs }) hs h
            | some reg =>
              dsimp only at h
              split at h
              · cases h
              · obtain ⟨reg', h2, h⟩ := Outcome.bind_eq_ok.1 h
                obtain ⟨x, h3, h⟩ := Outcome.bind_eq_ok.1 h
                cases h
                exact (hs.filled (mark_filled h3).1)
          · split at h
            · unfold cnotDecompose at h
              obtain ⟨x, h1, h⟩ := Outcome.bind_eq_ok.1 h
              obtain ⟨p, h2, h⟩ := Outcome.bind_eq_ok.1 h
              cases h; exact (hs)
            · split at h
              · exact sized_cnotPhase hs h
              · cases h
        · unfold applyCnotPlain at h
          split at h
          · split at h
            · cases h
            · exact sized_cnotRun hs h
          · obtain ⟨⟨rt, rs⟩, h1, h⟩ := Outcome.bind_eq_ok.1 h
            dsimp only at h
            cases rt with
            | none => exact sized_fail (m' := { m with rs := rs }) hs h
            | some reg =>
              dsimp only at h
              split at h
              · cases h
              · obtain ⟨reg', h2, h⟩ := Outcome.bind_eq_ok.1 h
                obtain ⟨l, h3, h⟩ := Outcome.bind_eq_ok.1 h
                exact sized_cnotRun (m := { m with rs := rs }) hs h
    · exact sized_fail hs h

theorem sized_rotate (hs : Sized z m.slice) {t : Nat} (h : applyRotate ctx m i t = .ok r) : Sized z r.slice.slice := by
  rcases applyRotate_ok h with rfl | ⟨x, p, n, reg, y, hc, hpc, hl, hreg, h3, rfl⟩
  · exact (hs)
  · exact hs.put.filled (mark_filled h3).1

theorem sized_placeSubs : ∀ {os : List OccCell} {s s' : DSlice}, Sized z s → placeSubs false os s = .ok s' → Sized z s'
  | [], s, s', hs, h => by cases h; exact hs
  | o :: os, s, s', hs, h => by
    rw [placeSubs] at h
    obtain ⟨x, h1, h⟩ := Outcome.bind_eq_ok.1 h
    exact sized_placeSubs (hs.place h1) h

theorem sized_restore : ∀ {ps : List SparsePatch} {s : DSlice} {x : DSlice × Bool}, Sized z s → restore ps s = .ok x → Sized z x.1
  | [], s, x, hs, h => by cases h; exact hs
  | p :: ps, s, x, hs, h => by
    rw [restore] at h
    obtain ⟨f, -, h⟩ := Outcome.bind_eq_ok.1 h
    split at h
    · cases h; exact hs
    · obtain ⟨s1, h1, h⟩ := Outcome.bind_eq_ok.1 h
      refine sized_restore (s := s1) ?_ h
      unfold place at h1
      split at h1
      · obtain ⟨y, h2, h1⟩ := Outcome.bind_eq_ok.1 h1
        cases h1
        exact hs.place h2
      · exact sized_placeSubs hs h1

theorem sized_busy (hs : Sized z m.slice) {reg : RoutingRegion} {k : Nat} {after : List SparsePatch}
    (h : applyBusy ctx m i reg k after = .ok r) : Sized z r.slice.slice := by
  unfold applyBusy at h
  split at h
  · obtain ⟨s, h1, h⟩ := Outcome.bind_eq_ok.1 h
    obtain ⟨x, h2, h⟩ := Outcome.bind_eq_ok.1 h
    have hs1 : Sized z s := by
      obtain ⟨e, -⟩ := clear_ok h1
      subst e
      exact hs
    have g := sized_restore hs1 h2
    split at h <;> cases h <;> exact (g)
  · obtain ⟨u, -, h⟩ := Outcome.bind_eq_ok.1 h
    cases h; exact (hs)

theorem sized_magic (hs : Sized z m.slice) {t near : Nat} (h : applyMagic ctx m i t near = .ok r) : Sized z r.slice.slice := by
  unfold applyMagic at h
  split at h
  · cases h
  · split at h
    · exact sized_fail hs h
    · split at h
      · cases h
      · split at h
        · cases h
        · rename_i nc x hx
          obtain ⟨o, -, h⟩ := Outcome.bind_eq_ok.1 h
          cases o with
          | none => cases h
          | some p =>
            cases h
            refine (?_)
            exact (hs.modPatch (x := x) (f := fun p => { p with id := some t, type := .qubit, activity := .none })).fields rfl rfl rfl

theorem sized_y (hs : Sized z m.slice) {t near : Nat} (h : applyY ctx m i t near = .ok r) : Sized z r.slice.slice := by
  unfold applyY at h
  split at h
  · rename_i x hx
    cases h
    exact ((hs.modPatch (x := x) (f := fun p => { p with id := none })).fields rfl rfl rfl)
  · split at h
    · unfold yPredistilled at h
      obtain ⟨cs, h1, h⟩ := Outcome.bind_eq_ok.1 h
      split at h
      · exact sized_fail hs h
      · split at h
        · cases h
        · split at h
          · exact sized_fail hs h
          · rename_i x hn
            cases h
            exact (hs.modPatch (x := x) (f := fun p => { p with id := some t })).fields rfl rfl rfl
    · split at h
      · unfold yTwist at h
        split at h
        · cases h
        · obtain ⟨o, -, h⟩ := Outcome.bind_eq_ok.1 h
          split at h
          · exact sized_fail hs h
          · obtain ⟨x, h2, h⟩ := Outcome.bind_eq_ok.1 h
            cases h
            exact (sized_local hs h2)
      · exact sized_fail hs h

/-- No attempt changes the size. -/
theorem sized_apply (hs : Sized z m.slice) (h : apply ctx m i = .ok r) : Sized z r.slice.slice := by
  unfold apply at h
  split at h
  · unfold applyMeasure at h
    split at h
    · exact sized_fail hs h
    · cases h; exact (sized_setActivity hs)
  · exact sized_sq hs h
  · exact sized_multi hs h
  · exact sized_init hs h
  · exact sized_bell hs h
  · exact sized_cnot hs h
  · exact sized_rotate hs h
  · exact sized_magic hs h
  · exact sized_y hs h
  · exact sized_busy hs h
  · exact sized_success hs h
  · cases h

theorem sized_spawn {c : Cell} (hs : Sized z s) (h : s.spawn c = .ok s') : Sized z s' := by
  unfold spawn at h
  obtain ⟨x, g, h⟩ := Outcome.bind_eq_ok.1 h
  cases h
  exact (hs.place g).fields rfl rfl rfl

theorem sized_set {i t : Nat} (hs : Sized z s) : Sized z { s with times := s.times.set i t } := by
  unfold Sized at *
  simp only [List.length_set]
  exact hs

theorem sized_respawn {L : Layout} : ∀ {cs : List Cell} {i : Nat} {s s' : DSlice}, Sized z s → respawn L cs i s = .ok s' → Sized z s'
  | [], i, s, s', hs, h => by cases h; exact hs
  | c :: cs, i, s, s', hs, h => by
    rw [respawn] at h
    obtain ⟨a, h1, h⟩ := Outcome.bind_eq_ok.1 h
    obtain ⟨b, h2, h⟩ := Outcome.bind_eq_ok.1 h
    refine sized_respawn (s := b) ?_ h
    have ha : Sized z a := by
      unfold respawnCount at h1
      obtain ⟨o, -, h1⟩ := Outcome.bind_eq_ok.1 h1
      split at h1
      · split at h1
        · cases h1; exact sized_set hs.put
        · cases h1
      · split at h1
        · split at h1
          · cases h1; exact sized_set hs
          · cases h1
        · cases h1; exact hs
    unfold respawnPlace at h2
    split at h2
    · split at h2
      · exact sized_spawn ha h2
      · cases h2; exact ha
    · cases h2

theorem sized_factories {L : Layout} : ∀ {n i : Nat} {s s' : DSlice}, Sized z s → factories L n i s = .ok s' → Sized z s'
  | 0, i, s, s', hs, h => by cases h; exact hs
  | n + 1, i, s, s', hs, h => by
    rw [factories] at h
    have h0 := sized_set (i := i) (t := dec32 (s.times.getD i 0)) hs
    split at h
    · obtain ⟨a, h1, h⟩ := Outcome.bind_eq_ok.1 h
      refine sized_factories (s := a) ?_ h
      unfold deliver at h1
      split at h1
      · obtain ⟨o, -, h1⟩ := Outcome.bind_eq_ok.1 h1
        split at h1
        · obtain ⟨b, h2, h1⟩ := Outcome.bind_eq_ok.1 h1
          cases h1
          exact sized_set (sized_spawn h0 h2)
        · cases h1; exact sized_set h0
      · cases h1
    · exact sized_factories h0 h

theorem sized_advance {L : Layout} (hs : Sized z s) (h : s.advance L = .ok s') : Sized z s' := by
  unfold advance at h
  dsimp only at h
  have h1 : Sized z s.ageAll := hs
  split at h
  · obtain ⟨a, g, h⟩ := Outcome.bind_eq_ok.1 h
    cases h
    exact (sized_respawn h1 g).fields rfl rfl rfl
  · obtain ⟨a, g, h⟩ := Outcome.bind_eq_ok.1 h
    cases h
    exact (sized_factories h1 g).fields rfl rfl rfl

theorem sized_assign : ∀ {cs : List (Cell × DensePatch)} {a b : DSlice}, Sized z a → assignAll cs a = .ok b → Sized z b
  | [], a, b, ha, h => by cases h; exact ha
  | c :: cs, a, b, ha, h => by
    rw [assignAll] at h
    obtain ⟨r, h1, h⟩ := Outcome.bind_eq_ok.1 h
    unfold assign at h1
    split at h1
    · cases h1; exact sized_assign (a := a.put _ _) ha h
    · cases h1

/-- The first slice has the size of the layout and the factory times of the layout. -/
theorem sized_start {L : Layout} {ids : List Nat} (h : DSlice.init L ids = .ok s) :
    Sized ((L.furthest.row + 1).toNat, (L.furthest.col + 1).toNat, L.times.length) s := by
  have e := init_size h
  unfold DSlice.init at h
  split at h
  · cases h
  · obtain ⟨s1, h1, h⟩ := Outcome.bind_eq_ok.1 h
    obtain ⟨s2, h2, h⟩ := Outcome.bind_eq_ok.1 h
    obtain ⟨s3, h3, h⟩ := Outcome.bind_eq_ok.1 h
    obtain ⟨s4, h4, h⟩ := Outcome.bind_eq_ok.1 h
    have g : Sized (s4.rows, s4.cols, L.times.length) s := sized_assign (a := { s4 with times := L.times }) rfl h
    unfold Sized at *
    simp only [Prod.mk.injEq] at g e ⊢
    exact ⟨e.1, e.2, g.2.2⟩

end

end Apply

end Verif
