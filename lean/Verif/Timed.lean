import Verif.StayRun

/-! # Carrying out an instruction leaves the times of the factories and, but for requests of magic states, their queue as they are (lemmas) -/

namespace Verif

open Apply

namespace DSlice

/-- The slice has the given factory times and queue of magic states. -/
def Timed (z : List Nat × List Cell) (s : DSlice) : Prop := (s.times, s.magic) = z

section
variable {s s' : DSlice} {z : List Nat × List Cell}

theorem Timed.same (h : Timed z s) (hs : SameCore s s') : Timed z s' := by unfold Timed at *; rw [hs.times, hs.magic]; exact h

theorem Timed.filled {Y : List Cell} {act : PatchActivity} (h : Timed z s) (hs : Filled Y act s s') : Timed z s' := by unfold Timed at *; rw [hs.times, hs.magic]; exact h

theorem Timed.put (h : Timed z s) {x : Cell} {p : Option DensePatch} : Timed z (s.put x p) := h

theorem Timed.vacate (h : Timed z s) (e : Bool) (x : Cell) : Timed z (Apply.vacate e s x) := by
  unfold Apply.vacate
  split
  · exact h
  · exact h

theorem Timed.modPatch (h : Timed z s) {x : Cell} {f : DensePatch → DensePatch} : Timed z (s.modPatch x f) := h

theorem Timed.fields (h : Timed z s) (h1 : s'.times = s.times) (h2 : s'.magic = s.magic) : Timed z s' := by unfold Timed at *; rw [h1, h2]; exact h

theorem Timed.place {p : SparsePatch} {b : Bool} {r : DSlice × Cell} (h : Timed z s) (hp : s.placeSingle p b = .ok r) : Timed z r.1 := by
  obtain ⟨o, ho⟩ := placeSingle_single hp
  obtain ⟨-, rfl⟩ := placeSingle_any ho hp
  exact h

end

end DSlice

namespace Apply

open DSlice

section
variable {s s' : DSlice} {z : List Nat × List Cell}

theorem timed_setActivity (h : Timed z s) {x : Cell} {a : PatchActivity} : Timed z (setActivity s x a) :=
  h.modPatch

theorem timed_local {e : Bool} {l : LocalInstr} {r : DSlice × Bool} (hs : Timed z s) (h : applyLocal e s l = .ok r) : Timed z r.1 := by
  cases l with
  | prepareY id x =>
    simp only [applyLocal, prepareY] at h
    obtain ⟨f, h1, h⟩ := Outcome.bind_eq_ok.1 h
    split at h
    · cases h
    · obtain ⟨y, h2, h⟩ := Outcome.bind_eq_ok.1 h
      cases h
      exact (hs.place h2).modPatch
  | bellPrepare id1 id2 c1 c2 =>
    simp only [applyLocal, bellPrepare] at h
    obtain ⟨a1, h1, h⟩ := Outcome.bind_eq_ok.1 h
    split at h
    · cases h; exact hs
    · obtain ⟨a2, h2, h⟩ := Outcome.bind_eq_ok.1 h
      split at h
      · cases h; exact hs
      · obtain ⟨s3, h3, h⟩ := Outcome.bind_eq_ok.1 h
        cases h
        unfold bellPlace at h3
        obtain ⟨x1, g1, h3⟩ := Outcome.bind_eq_ok.1 h3
        obtain ⟨x2, g2, h3⟩ := Outcome.bind_eq_ok.1 h3
        obtain ⟨x3, g3, h3⟩ := Outcome.bind_eq_ok.1 h3
        exact (((((hs.vacate e _).vacate e _).place g1).place g2).same (activateOrFail_same g3)).same (activateOrFail_same h3)
  | bellMeasure c1 c2 =>
    simp only [applyLocal, bellMeasure] at h
    obtain ⟨a1, h1, h⟩ := Outcome.bind_eq_ok.1 h
    split at h
    · cases h; exact hs
    · obtain ⟨x1, g1, h⟩ := Outcome.bind_eq_ok.1 h
      obtain ⟨x2, g2, h⟩ := Outcome.bind_eq_ok.1 h
      cases h
      exact timed_setActivity (timed_setActivity ((hs.same (activateOrFail_same g1)).same (activateOrFail_same g2)))
  | move src dst newId =>
    simp only [applyLocal, move] at h
    obtain ⟨a1, h1, h⟩ := Outcome.bind_eq_ok.1 h
    split at h
    · cases h; exact hs
    · obtain ⟨a2, h2, h⟩ := Outcome.bind_eq_ok.1 h
      split at h
      · cases h; exact hs
      · obtain ⟨s3, h3, h⟩ := Outcome.bind_eq_ok.1 h
        cases h
        unfold movePlace at h3
        split at h3
        · cases h3
        · obtain ⟨x1, g1, h3⟩ := Outcome.bind_eq_ok.1 h3
          obtain ⟨x2, g2, h3⟩ := Outcome.bind_eq_ok.1 h3
          obtain ⟨x3, g3, h3⟩ := Outcome.bind_eq_ok.1 h3
          cases h3
          exact ((((hs.vacate e _).place g1).same (activateOrFail_same g2)).same (activateOrFail_same g3)).modPatch
  | twoPatchMeasure c1 c2 =>
    simp only [applyLocal, twoPatchMeasure] at h
    obtain ⟨a1, h1, h⟩ := Outcome.bind_eq_ok.1 h
    split at h
    · cases h; exact hs
    · obtain ⟨x1, g1, h⟩ := Outcome.bind_eq_ok.1 h
      obtain ⟨x2, g2, h⟩ := Outcome.bind_eq_ok.1 h
      cases h
      exact (hs.same (activateOrFail_same g1)).same (activateOrFail_same g2)
  | extendSplit id target ext =>
    simp only [applyLocal, extendSplit] at h
    obtain ⟨a1, h1, h⟩ := Outcome.bind_eq_ok.1 h
    split at h
    · cases h; exact hs
    · obtain ⟨a2, h2, h⟩ := Outcome.bind_eq_ok.1 h
      split at h
      · cases h; exact hs
      · obtain ⟨x1, g1, h⟩ := Outcome.bind_eq_ok.1 h
        obtain ⟨x2, g2, h⟩ := Outcome.bind_eq_ok.1 h
        obtain ⟨x3, g3, h⟩ := Outcome.bind_eq_ok.1 h
        cases h
        exact (((hs.vacate e _).place g1).same (activateOrFail_same g2)).same (activateOrFail_same g3)
  | mergeContract p m =>
    simp only [applyLocal, mergeContract] at h
    obtain ⟨a1, h1, h⟩ := Outcome.bind_eq_ok.1 h
    split at h
    · cases h; exact hs
    · obtain ⟨x1, g1, h⟩ := Outcome.bind_eq_ok.1 h
      obtain ⟨x2, g2, h⟩ := Outcome.bind_eq_ok.1 h
      cases h
      exact timed_setActivity ((hs.same (activateOrFail_same g1)).same (activateOrFail_same g2))

theorem timed_runLocals {e : Bool} : ∀ {ls : List LocalInstr} {s : DSlice} {x : DSlice × Nat × Bool}, Timed z s → runLocals e ls s = .ok x → Timed z x.1
  | [], s, x, hs, h => by cases h; exact hs
  | l :: ls, s, x, hs, h => by
    rw [runLocals] at h
    obtain ⟨r, h1, h⟩ := Outcome.bind_eq_ok.1 h
    have g1 := timed_local hs h1
    split at h
    · cases h; exact g1
    · obtain ⟨y, h2, h⟩ := Outcome.bind_eq_ok.1 h
      cases h
      exact timed_runLocals (x := y) g1 h2

variable {ρ : Type} {ctx : Ctx ρ} {m : Mach ρ} {i : Instr} {r : Wave.Res (Mach ρ)}

theorem timed_fail {m' : Mach ρ} (hs : Timed z m'.slice) (h : fail m' i = .ok r) : Timed z r.slice.slice := by
  cases h; exact (hs)

theorem timed_success {m' : Mach ρ} (hs : Timed z m'.slice) (h : success m' i = .ok r) : Timed z r.slice.slice := by
  cases h; exact (hs)

theorem timed_followup {m' : Mach ρ} {f : Instr} (hs : Timed z m'.slice) (h : followup m' i f = .ok r) : Timed z r.slice.slice := by
  cases h; exact (hs)

theorem timed_merge (hs : Timed z m.slice) {a b : Nat} {opA opB : Pauli} {x : Mach ρ × Bool} (h : merge ctx m a opA b opB = .ok x) : Timed z x.1.slice := by
  unfold merge at h
  split at h
  · split at h
    · cases h; exact hs
    · obtain ⟨⟨o, rs⟩, h1, h⟩ := Outcome.bind_eq_ok.1 h
      simp only at h
      split at h
      · cases h; exact hs
      · split at h
        · obtain ⟨s, h2, h⟩ := Outcome.bind_eq_ok.1 h
          obtain ⟨y, h3, h⟩ := Outcome.bind_eq_ok.1 h
          cases h
          exact (hs.same (stitch_same h2)).filled (mark_filled h3).1
        · cases h
  · cases h

theorem timed_sq (hs : Timed z m.slice) {t : Nat} {op : SqOp} (h : applySq ctx m i t op = .ok r) : Timed z r.slice.slice := by
  unfold applySq at h
  split at h
  · split at h
    · split at h
      · cases h
      · obtain ⟨⟨m', ok⟩, h1, h⟩ := Outcome.bind_eq_ok.1 h
        have := timed_merge hs h1
        simp only at h
        split at h
        · cases h; exact (this)
        · exact timed_fail this h
    · split at h
      · exact timed_fail hs h
      · split at h
        · cases h
          exact (hs.modPatch )
        · exact timed_success hs h
  · exact timed_fail hs h

theorem timed_multi (hs : Timed z m.slice) {obs : List (Nat × Pauli)} {neg : Bool} (h : applyMulti ctx m i obs neg = .ok r) : Timed z r.slice.slice := by
  unfold applyMulti at h
  split at h
  · split at h
    · split at h
      · unfold applyMultiLocal at h
        obtain ⟨b1, -, h⟩ := Outcome.bind_eq_ok.1 h
        split at h
        · cases h
        · obtain ⟨b2, -, h⟩ := Outcome.bind_eq_ok.1 h
          split at h
          · cases h
          · obtain ⟨x, h1, h⟩ := Outcome.bind_eq_ok.1 h
            cases h
            exact (timed_local hs h1)
      · split at h
        · cases h
        · obtain ⟨⟨m', ok⟩, h1, h⟩ := Outcome.bind_eq_ok.1 h
          have := timed_merge hs h1
          simp only at h
          split at h
          · exact timed_success this h
          · exact timed_fail this h
    · exact timed_fail hs h
  · cases h

theorem timed_init (hs : Timed z m.slice) {t : Nat} {next : Option NextTo} (h : applyInit ctx m i t next = .ok r) : Timed z r.slice.slice := by
  unfold applyInit at h
  obtain ⟨o, -, h⟩ := Outcome.bind_eq_ok.1 h
  split at h
  · exact timed_fail hs h
  · rename_i x
    obtain ⟨y, h2, h⟩ := Outcome.bind_eq_ok.1 h
    obtain ⟨-, hf, rfl⟩ := placeSingle_ok rfl h2
    cases h
    exact hs.put.modPatch

theorem timed_bellRun {b : BellInit} {ls : List LocalInstr} {k : Nat} (hs : Timed z m.slice) (h : bellInitRun ctx m i b ls k = .ok r) : Timed z r.slice.slice := by
  unfold bellInitRun at h
  obtain ⟨x, h1, h⟩ := Outcome.bind_eq_ok.1 h
  have g := timed_runLocals hs h1
  split at h
  · cases h; exact (g)
  · cases h; exact (g)

theorem timed_bell (hs : Timed z m.slice) {b : BellInit} (h : applyBell ctx m i b = .ok r) : Timed z r.slice.slice := by
  unfold applyBell at h
  split at h
  · cases h
  · split at h
    · exact timed_fail hs h
    · split at h
      · exact timed_fail hs h
      · split at h
        · split at h
          · cases h
          · exact timed_bellRun hs h
        · obtain ⟨⟨rt, rs⟩, h1, h⟩ := Outcome.bind_eq_ok.1 h
          dsimp only at h
          cases rt with
          | none => exact timed_fail (m' := { m with rs := rs }) hs h
          | some reg =>
            dsimp only at h
            split at h
            · exact timed_fail (m' := { m with rs := rs }) hs h
            · obtain ⟨ls, h2, h⟩ := Outcome.bind_eq_ok.1 h
              exact timed_bellRun (m := { m with rs := rs }) hs h

theorem timed_cnotRun {b : BellCNOT} {sets : List (List LocalInstr)} {ps : List (Nat × Nat)} (hs : Timed z m.slice) (h : cnotRun ctx m i b sets ps = .ok r) : Timed z r.slice.slice := by
  unfold cnotRun at h
  split at h
  · obtain ⟨x, h1, h⟩ := Outcome.bind_eq_ok.1 h
    have g := timed_runLocals hs h1
    dsimp only at h
    split at h
    · cases h; exact (g)
    · cases h; exact (g)
  · cases h

theorem timed_cnotPhase {b : BellCNOT} {sets : List (List LocalInstr)} {ps : List (Nat × Nat)} {k : Nat} (hs : Timed z m.slice) (h : cnotPhase ctx m i b sets ps k = .ok r) : Timed z r.slice.slice := by
  unfold cnotPhase at h
  split at h
  · obtain ⟨x, h1, h⟩ := Outcome.bind_eq_ok.1 h
    have g := timed_runLocals hs h1
    dsimp only at h
    split at h
    · cases h; exact (g)
    · split at h
      · cases h; exact (g)
      · cases h; exact (g)
  · cases h

theorem timed_cnot (hs : Timed z m.slice) {b : BellCNOT} (h : applyCnot ctx m i b = .ok r) : Timed z r.slice.slice := by
  unfold applyCnot at h
  split at h
  · cases h
  · split at h
    · split at h
      · exact timed_fail hs h
      · split at h
        · unfold applyCnotEdpc at h
          split at h
          · unfold cnotRoute at h
            obtain ⟨⟨rt, rs⟩, h1, h⟩ := Outcome.bind_eq_ok.1 h
            dsimp only at h
            cases rt with
            | none => exact timed_fail (m' := { m with rs := rs }) hs h
            | some reg =>
              dsimp only at h
              split at h
              · cases h
              · obtain ⟨reg', h2, h⟩ := Outcome.bind_eq_ok.1 h
                obtain ⟨x, h3, h⟩ := Outcome.bind_eq_ok.1 h
                cases h
                exact (hs.filled (mark_filled h3).1)
          · split at h
            · unfold cnotDecompose at h
              obtain ⟨x, h1, h⟩ := Outcome.bind_eq_ok.1 h
              obtain ⟨p, h2, h⟩ := Outcome.bind_eq_ok.1 h
              cases h; exact (hs)
            · split at h
              · exact timed_cnotPhase hs h
              · cases h
        · unfold applyCnotPlain at h
          split at h
          · split at h
            · cases h
            · exact timed_cnotRun hs h
          · obtain ⟨⟨rt, rs⟩, h1, h⟩ := Outcome.bind_eq_ok.1 h
            dsimp only at h
            cases rt with
            | none => exact timed_fail (m' := { m with rs := rs }) hs h
            | some reg =>
              dsimp only at h
              split at h
              · cases h
              · obtain ⟨reg', h2, h⟩ := Outcome.bind_eq_ok.1 h
                obtain ⟨l, h3, h⟩ := Outcome.bind_eq_ok.1 h
                exact timed_cnotRun (m := { m with rs := rs }) hs h
    · exact timed_fail hs h

theorem timed_rotate (hs : Timed z m.slice) {t : Nat} (h : applyRotate ctx m i t = .ok r) : Timed z r.slice.slice := by
  rcases applyRotate_ok h with rfl | ⟨x, p, n, reg, y, hc, hpc, hl, hreg, h3, rfl⟩
  · exact (hs)
  · exact hs.put.filled (mark_filled h3).1

theorem timed_placeSubs : ∀ {os : List OccCell} {s s' : DSlice}, Timed z s → placeSubs false os s = .ok s' → Timed z s'
  | [], s, s', hs, h => by cases h; exact hs
  | o :: os, s, s', hs, h => by
    rw [placeSubs] at h
    obtain ⟨x, h1, h⟩ := Outcome.bind_eq_ok.1 h
    exact timed_placeSubs (hs.place h1) h

theorem timed_restore : ∀ {ps : List SparsePatch} {s : DSlice} {x : DSlice × Bool}, Timed z s → restore ps s = .ok x → Timed z x.1
  | [], s, x, hs, h => by cases h; exact hs
  | p :: ps, s, x, hs, h => by
    rw [restore] at h
    obtain ⟨f, -, h⟩ := Outcome.bind_eq_ok.1 h
    split at h
    · cases h; exact hs
    · obtain ⟨s1, h1, h⟩ := Outcome.bind_eq_ok.1 h
      refine timed_restore (s := s1) ?_ h
      unfold place at h1
      split at h1
      · obtain ⟨y, h2, h1⟩ := Outcome.bind_eq_ok.1 h1
        cases h1
        exact hs.place h2
      · exact timed_placeSubs hs h1

theorem timed_busy (hs : Timed z m.slice) {reg : RoutingRegion} {k : Nat} {after : List SparsePatch}
    (h : applyBusy ctx m i reg k after = .ok r) : Timed z r.slice.slice := by
  unfold applyBusy at h
  split at h
  · obtain ⟨s, h1, h⟩ := Outcome.bind_eq_ok.1 h
    obtain ⟨x, h2, h⟩ := Outcome.bind_eq_ok.1 h
    have hs1 : Timed z s := by
      obtain ⟨e, -⟩ := clear_ok h1
      subst e
      exact hs
    have g := timed_restore hs1 h2
    split at h <;> cases h <;> exact (g)
  · obtain ⟨u, -, h⟩ := Outcome.bind_eq_ok.1 h
    cases h; exact (hs)

/-- A request of a magic state takes one cell from the queue, or fails and changes nothing. -/
theorem timed_magic (hs : Timed z m.slice) {t near : Nat} (h : applyMagic ctx m i t near = .ok r) :
    r.slice.slice.times = z.1 ∧ ((r.err = true ∧ r.slice.slice.magic = z.2) ∨ r.err = false ∧ ∃ c ∈ z.2, r.slice.slice.magic = z.2.filter (· ≠ c)) := by
  unfold Timed at hs
  subst hs
  unfold applyMagic at h
  split at h
  · cases h
  · split at h
    · cases h; exact ⟨rfl, .inl ⟨rfl, rfl⟩⟩
    · split at h
      · cases h
      · split at h
        · cases h
        · rename_i nc x hx
          obtain ⟨o, -, h⟩ := Outcome.bind_eq_ok.1 h
          cases o with
          | none => cases h
          | some p =>
            cases h
            exact ⟨rfl, .inr ⟨rfl, x, (nearest_mem hx).resolve_right (by simp), rfl⟩⟩

theorem timed_y (hs : Timed z m.slice) {t near : Nat} (h : applyY ctx m i t near = .ok r) : Timed z r.slice.slice := by
  unfold applyY at h
  split at h
  · rename_i x hx
    cases h
    exact ((hs.modPatch (x := x) (f := fun p => { p with id := none })).fields rfl rfl)
  · split at h
    · unfold yPredistilled at h
      obtain ⟨cs, h1, h⟩ := Outcome.bind_eq_ok.1 h
      split at h
      · exact timed_fail hs h
      · split at h
        · cases h
        · split at h
          · exact timed_fail hs h
          · rename_i x hn
            cases h
            exact (hs.modPatch (x := x) (f := fun p => { p with id := some t })).fields rfl rfl
    · split at h
      · unfold yTwist at h
        split at h
        · cases h
        · obtain ⟨o, -, h⟩ := Outcome.bind_eq_ok.1 h
          split at h
          · exact timed_fail hs h
          · obtain ⟨x, h2, h⟩ := Outcome.bind_eq_ok.1 h
            cases h
            exact (timed_local hs h2)
      · exact timed_fail hs h

theorem timed_apply (hs : Timed z m.slice) (hn : ∀ t near, i.op ≠ .magic t near) (h : apply ctx m i = .ok r) : Timed z r.slice.slice := by
  unfold apply at h
  split at h
  · unfold applyMeasure at h
    split at h
    · exact timed_fail hs h
    · cases h; exact (timed_setActivity hs)
  · exact timed_sq hs h
  · exact timed_multi hs h
  · exact timed_init hs h
  · exact timed_bell hs h
  · exact timed_cnot hs h
  · exact timed_rotate hs h
  · rename_i e; exact absurd e (hn _ _)
  · exact timed_y hs h
  · exact timed_busy hs h
  · exact timed_success hs h
  · cases h

end

end Apply

end Verif
