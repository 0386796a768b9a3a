import Verif.Apply

/-!
# Lemmas on slices: what the marking functions leave alone
-/

namespace Verif

open Apply

namespace DSlice

/-- A patch without its boundaries. -/
def core (s : DSlice) (c : Cell) : Option Patch := (s.cells c).map (·.toPatch)

/-- The id of the patch on a cell. -/
def idAt (s : DSlice) (c : Cell) : Option Nat := (s.cells c).bind (·.id)

/-- Two slices that differ in boundaries and EDPC bookkeeping at most. -/
structure SameCore (s s' : DSlice) : Prop where
  rows : s'.rows = s.rows
  cols : s'.cols = s.cols
  magic : s'.magic = s.magic
  times : s'.times = s.times
  yAvail : s'.yAvail = s.yAvail
  core : ∀ c, s'.core c = s.core c

theorem SameCore.refl (s : DSlice) : SameCore s s := ⟨rfl, rfl, rfl, rfl, rfl, fun _ => rfl⟩

theorem SameCore.trans {a b c : DSlice} (h : SameCore a b) (h' : SameCore b c) : SameCore a c :=
  ⟨h'.rows.trans h.rows, h'.cols.trans h.cols, h'.magic.trans h.magic, h'.times.trans h.times, h'.yAvail.trans h.yAvail,
    fun x => (h'.core x).trans (h.core x)⟩

theorem core_eq_none {s : DSlice} {c : Cell} : s.core c = none ↔ s.cells c = none := by simp [core]

theorem SameCore.none_iff {a b : DSlice} (h : SameCore a b) (c : Cell) : b.cells c = none ↔ a.cells c = none := by
  rw [← core_eq_none, ← core_eq_none, h.core]

theorem SameCore.get {a b : DSlice} (h : SameCore a b) {c : Cell} {p : DensePatch} (hp : a.cells c = some p) :
    ∃ q, b.cells c = some q ∧ q.toPatch = p.toPatch := by
  have := h.core c
  simp only [DSlice.core, hp] at this
  cases hb : b.cells c with
  | none => simp [hb] at this
  | some q => simp [hb] at this; exact ⟨q, rfl, this⟩

theorem SameCore.get' {a b : DSlice} (h : SameCore a b) {c : Cell} {q : DensePatch} (hq : b.cells c = some q) :
    ∃ p, a.cells c = some p ∧ q.toPatch = p.toPatch := by
  have := h.core c
  simp only [DSlice.core, hq] at this
  cases hb : a.cells c with
  | none => simp [hb] at this
  | some p => simp [hb] at this; exact ⟨p, rfl, this⟩

theorem idAt_of_core {a b : DSlice} {c : Cell} (h : b.core c = a.core c) : b.idAt c = a.idAt c := by
  unfold core at h
  unfold idAt
  cases ha : a.cells c <;> cases hb : b.cells c <;> simp_all

theorem SameCore.idAt {a b : DSlice} (h : SameCore a b) (c : Cell) : b.idAt c = a.idAt c := idAt_of_core (h.core c)

theorem SameCore.inRange {a b : DSlice} (h : SameCore a b) (c : Cell) : b.inRange c = a.inRange c := by
  simp [DSlice.inRange, h.rows, h.cols]

@[simp] theorem put_cells (s : DSlice) (c : Cell) (p : Option DensePatch) : (s.put c p).cells = upd s.cells c p := rfl

theorem setSide_same (s : DSlice) (c : Cell) (d : CellDirection) (f : Boundary → Boundary) : SameCore s (s.setSide c d f) := by
  unfold setSide
  cases h : s.cells c with
  | none => exact .refl s
  | some p =>
    refine ⟨rfl, rfl, rfl, rfl, rfl, ?_⟩
    intro x
    simp only [DSlice.core, put_cells]
    by_cases e : x = c
    · subst e; simp [h]
    · rw [upd_other _ _ e]

theorem activateOrFail_same {s s' : DSlice} {a b : Cell} (h : s.activateOrFail a b = .ok s') : SameCore s s' := by
  unfold activateOrFail at h
  obtain ⟨d, -, h⟩ := Outcome.bind_eq_ok.1 h
  cases d with
  | none => cases h
  | some d => cases h; exact setSide_same _ _ _ _

theorem activate_same {s s' : DSlice} {a b : Cell} (h : s.activate a b = .ok s') : SameCore s s' := by
  unfold activate at h
  obtain ⟨d, -, h⟩ := Outcome.bind_eq_ok.1 h
  cases d with
  | none => cases h
  | some d => cases h; exact setSide_same _ _ _ _

theorem stitch_same {s s' : DSlice} {a b : Cell} {r : RoutingRegion} (h : stitch s a b r = .ok s') : SameCore s s' := by
  unfold stitch at h
  split at h
  all_goals
    obtain ⟨s1, h1, h⟩ := Outcome.bind_eq_ok.1 h
    exact (activate_same h1).trans (activate_same h)

theorem conjugate_same {s s' : DSlice} {n c : Cell} {f : Boundary → Boundary} (h : conjugate s n c f = .ok s') : SameCore s s' := by
  unfold conjugate at h
  obtain ⟨d, -, h⟩ := Outcome.bind_eq_ok.1 h
  cases d with
  | none => cases h; exact .refl _
  | some d => cases h; exact setSide_same _ _ _ _

theorem flipSides_same {L : Layout} {c : Cell} {dir : CellDirection} : ∀ {ds : List CellDirection} {s s' : DSlice},
    flipSides L c dir ds s = .ok s' → SameCore s s'
  | [], s, s', h => by cases h; exact .refl _
  | d :: ds, s, s', h => by
    rw [flipSides] at h
    split at h
    · split at h
      · split at h
        · obtain ⟨s1, h1, h⟩ := Outcome.bind_eq_ok.1 h
          exact ((setSide_same _ _ _ _).trans (conjugate_same h1)).trans (flipSides_same h)
        · exact flipSides_same h
      · cases h
    · cases h

theorem flipChain_same {L : Layout} {dir : CellDirection} : ∀ {n : Nat} {c : Cell} {s s' : DSlice},
    flipChain L dir n c s = .ok s' → SameCore s s'
  | 0, _, _, _, h => by cases h
  | n + 1, c, s, s', h => by
    rw [flipChain] at h
    split at h
    · cases h
    · obtain ⟨p, -, h⟩ := Outcome.bind_eq_ok.1 h
      cases p with
      | none => cases h
      | some p =>
        obtain ⟨s1, h1, h⟩ := Outcome.bind_eq_ok.1 h
        have e1 := flipSides_same h1
        split at h
        · split at h
          · exact e1.trans (flipChain_same h)
          · cases h; exact e1
        · cases h; exact e1

theorem spread_same {L : Layout} {n : Cell} {d : CellDirection} {st st' : Crossing} (h : spread L n d st = .ok st') :
    SameCore st.slice st'.slice := by
  unfold spread at h
  split at h
  · obtain ⟨s1, h1, h⟩ := Outcome.bind_eq_ok.1 h
    cases h
    exact flipChain_same h1
  · cases h; exact .refl _

theorem crossReserved_same {L : Layout} {c prev n : Cell} {pc : Bool} {d : CellDirection} {p : DensePatch} {st st' : Crossing}
    (h : crossReserved L c prev n pc d p st = .ok st') : SameCore st.slice st'.slice := by
  unfold crossReserved at h
  simp only at h
  split at h
  · split at h
    · cases h; exact .refl _
    · cases h
  · split at h
    · split at h
      · cases h
      · split at h
        · obtain ⟨s1, h1, h⟩ := Outcome.bind_eq_ok.1 h
          exact ((setSide_same _ _ _ _).trans (conjugate_same h1)).trans (spread_same h)
        · cases h; exact .refl _
    · split at h
      · obtain ⟨s1, h1, h⟩ := Outcome.bind_eq_ok.1 h
        exact ((setSide_same _ _ _ _).trans (conjugate_same h1)).trans (spread_same h)
      · cases h; exact .refl _

theorem crossSides_same {L : Layout} {c prev : Cell} {pc : Bool} : ∀ {ds : List CellDirection} {st st' : Crossing},
    crossSides L c prev pc ds st = .ok st' → SameCore st.slice st'.slice
  | [], st, st', h => by cases h; exact .refl _
  | d :: ds, st, st', h => by
    rw [crossSides] at h
    split at h
    · simp only at h
      split at h
      · obtain ⟨st1, h1, h⟩ := Outcome.bind_eq_ok.1 h
        exact (crossReserved_same h1).trans (crossSides_same h)
      · split at h
        · cases h
        · exact crossSides_same h
    · cases h

theorem crossFill_same {L : Layout} {c : Cell} {t : BoundaryType} : ∀ {ds : List CellDirection} {s s' : DSlice},
    crossFill L c t ds s = .ok s' → SameCore s s'
  | [], s, s', h => by cases h; exact .refl _
  | d :: ds, s, s', h => by
    rw [crossFill] at h
    split at h
    · split at h
      · obtain ⟨s1, h1, h⟩ := Outcome.bind_eq_ok.1 h
        exact ((setSide_same _ _ _ _).trans (conjugate_same h1)).trans (crossFill_same h)
      · exact crossFill_same h
    · exact crossFill_same h

theorem markCrossing_same {L : Layout} {asserts : Bool} {s : DSlice} {c prev : Cell} {r : DSlice × BoundaryType}
    (h : markCrossing L asserts s c prev = .ok r) : SameCore s r.1 := by
  unfold markCrossing at h
  simp only at h
  obtain ⟨pb, -, h⟩ := Outcome.bind_eq_ok.1 h
  cases pb with
  | none => cases h
  | some pb =>
    simp only at h
    split at h
    · cases h
    · obtain ⟨st, h1, h⟩ := Outcome.bind_eq_ok.1 h
      obtain ⟨u, -, h⟩ := Outcome.bind_eq_ok.1 h
      have e1 := crossSides_same h1
      simp only at e1
      split at h
      · obtain ⟨s1, h2, h⟩ := Outcome.bind_eq_ok.1 h
        cases h
        exact e1.trans (crossFill_same h2)
      · cases h

theorem markEnd_same {s s' : DSlice} {cells : List Cell} {k : Nat} {c : Cell} {t : BoundaryType}
    (h : markEnd s cells k c t = .ok s') : SameCore s s' := by
  unfold markEnd at h
  have key : ∀ {n : Cell} {f : Boundary → Boundary} {g : DSlice → CellDirection → DSlice}, (∀ s d, SameCore s (g s d)) →
      (do match ← s.sideBetween c n with
          | none => .throws
          | some d => .ok (g (s.setSide c d f) d)) = Outcome.ok s' → SameCore s s' := by
    intro n f g hg h
    obtain ⟨d, -, h⟩ := Outcome.bind_eq_ok.1 h
    cases d with
    | none => cases h
    | some d => cases h; exact (setSide_same _ _ _ _).trans (hg _ _)
  split at h
  · split at h
    · cases h
    · obtain ⟨d, -, h⟩ := Outcome.bind_eq_ok.1 h
      cases d with
      | none => cases h
      | some d => cases h; exact (setSide_same s c d _).trans ⟨rfl, rfl, rfl, rfl, rfl, fun _ => rfl⟩
  · split at h
    · split at h
      · cases h
      · obtain ⟨d, -, h⟩ := Outcome.bind_eq_ok.1 h
        cases d with
        | none => cases h
        | some d => cases h; exact (setSide_same s c d _).trans ⟨rfl, rfl, rfl, rfl, rfl, fun _ => rfl⟩
    · cases h

theorem resetSides_same {t : BoundaryType} : ∀ {l : List (Cell × CellDirection)} {s s' : DSlice},
    resetSides t l s = .ok s' → SameCore s s'
  | [], s, s', h => by cases h; exact .refl _
  | (c, d) :: l, s, s', h => by
    rw [resetSides] at h
    split at h
    · cases h
    · exact (setSide_same _ _ _ _).trans (resetSides_same h)

theorem resetMarked_same {s s' : DSlice} (h : resetMarked s = .ok s') : SameCore s s' := by
  unfold resetMarked at h
  obtain ⟨s1, h1, h⟩ := Outcome.bind_eq_ok.1 h
  obtain ⟨s2, h2, h⟩ := Outcome.bind_eq_ok.1 h
  cases h
  exact ((resetSides_same h1).trans (resetSides_same h2)).trans ⟨rfl, rfl, rfl, rfl, rfl, fun _ => rfl⟩

/-! ### Placing -/

theorem patchAt_ok {s : DSlice} {c : Cell} {p : Option DensePatch} (h : s.patchAt c = .ok p) : s.inRange c = true ∧ s.cells c = p := by
  unfold patchAt at h
  split at h
  · rename_i e; cases h; exact ⟨e, rfl⟩
  · cases h

theorem isFree_ok {s : DSlice} {c : Cell} {b : Bool} (h : s.isFree c = .ok b) : s.inRange c = true ∧ (b = true ↔ s.cells c = none) := by
  unfold isFree at h
  obtain ⟨p, h1, h⟩ := Outcome.bind_eq_ok.1 h
  obtain ⟨hr, rfl⟩ := patchAt_ok h1
  cases h
  exact ⟨hr, by simp⟩

/-- What placing a one-cell patch without the distillation flag does. -/
theorem placeSingle_ok {s : DSlice} {p : SparsePatch} {o : OccCell} (hp : p.cells = .single o) {r : DSlice × Cell}
    (h : s.placeSingle p false = .ok r) :
    s.inRange o.cell = true ∧ s.cells o.cell = none ∧ r = (s.put o.cell (some { toPatch := p.toPatch, bounds := o.bounds }), o.cell) := by
  unfold placeSingle at h
  rw [hp] at h
  obtain ⟨f, h1, h⟩ := Outcome.bind_eq_ok.1 h
  obtain ⟨hr, h2⟩ := isFree_ok h1
  cases f with
  | false => simp at h
  | true =>
    simp only [Bool.not_true, Bool.false_and, Bool.false_eq_true, if_false, DensePatch.fromSparse, hp, Outcome.bind_ok, Outcome.ok.injEq] at h
    exact ⟨hr, h2.1 rfl, h.symm⟩

theorem placeSingle_any {s : DSlice} {p : SparsePatch} {o : OccCell} (hp : p.cells = .single o) {b : Bool} {r : DSlice × Cell}
    (h : s.placeSingle p b = .ok r) :
    s.inRange o.cell = true ∧ r = (s.put o.cell (some { toPatch := p.toPatch, bounds := o.bounds }), o.cell) := by
  unfold placeSingle at h
  rw [hp] at h
  obtain ⟨f, h1, h⟩ := Outcome.bind_eq_ok.1 h
  obtain ⟨hr, h2⟩ := isFree_ok h1
  split at h
  · cases h
  · simp only [DensePatch.fromSparse, hp, Outcome.bind_ok, Outcome.ok.injEq] at h
    exact ⟨hr, h.symm⟩

/-! ### Marking a region -/

/-- `s'` is `s` with some of the free cells of `R` filled with routing patches of activity `act`. -/
structure Filled (R : List Cell) (act : PatchActivity) (s s' : DSlice) : Prop where
  rows : s'.rows = s.rows
  cols : s'.cols = s.cols
  magic : s'.magic = s.magic
  times : s'.times = s.times
  yAvail : s'.yAvail = s.yAvail
  cell : ∀ c, s'.core c = s.core c ∨
    (s.inRange c = true ∧ s.cells c = none ∧ c ∈ R ∧ ∃ p, s'.cells c = some p ∧ p.type = .routing ∧ p.activity = act ∧ p.id = none)

theorem SameCore.filled {R : List Cell} {act : PatchActivity} {s s' : DSlice} (h : SameCore s s') : Filled R act s s' :=
  ⟨h.rows, h.cols, h.magic, h.times, h.yAvail, fun c => .inl (h.core c)⟩

theorem Filled.inRange {R : List Cell} {act : PatchActivity} {a b : DSlice} (h : Filled R act a b) (c : Cell) : b.inRange c = a.inRange c := by
  simp [DSlice.inRange, h.rows, h.cols]

theorem Filled.trans {R : List Cell} {act : PatchActivity} {a b c : DSlice} (h : Filled R act a b) (h' : Filled R act b c) : Filled R act a c := by
  refine ⟨h'.rows.trans h.rows, h'.cols.trans h.cols, h'.magic.trans h.magic, h'.times.trans h.times, h'.yAvail.trans h.yAvail, ?_⟩
  intro x
  rcases h'.cell x with e | ⟨h0, h1, h2, h3⟩
  · rcases h.cell x with e' | ⟨g0, g1, g2, p, g3, g4, g5, g6⟩
    · exact .inl (e.trans e')
    · refine .inr ⟨g0, g1, g2, ?_⟩
      unfold DSlice.core at e
      rw [g3] at e
      cases hc : c.cells x with
      | none => rw [hc] at e; cases e
      | some q =>
        rw [hc] at e
        simp only [Option.map_some, Option.some.injEq] at e
        exact ⟨q, rfl, by rw [e, g4], by rw [e, g5], by rw [e, g6]⟩
  · refine .inr ⟨by rw [← h.inRange]; exact h0, ?_, h2, h3⟩
    rcases h.cell x with e | ⟨g0, g1, g2, p, g3, -⟩
    · rw [← core_eq_none, ← e, core_eq_none]; exact h1
    · rw [h1] at g3; cases g3

theorem markOne_filled {L : Layout} {asserts : Bool} {act : PatchActivity} {rid : Option Nat} {cells : List Cell} {k : Nat} {o : OccCell}
    {s : DSlice} {label : BoundaryType} {r : DSlice × BoundaryType × OccCell} (hm : o.cell ∈ cells)
    (h : markOne L asserts act rid cells k o s label = .ok r) : Filled cells act s r.1 ∧ r.2.2.cell = o.cell := by
  unfold markOne at h
  obtain ⟨p, h1, h⟩ := Outcome.bind_eq_ok.1 h
  obtain ⟨hr, h2⟩ := patchAt_ok h1
  cases p with
  | some p =>
    simp only at h
    split at h
    · split at h
      · split at h
        · cases h
        · split at h
          · cases h
          · split at h
            · cases h
            · obtain ⟨x, h3, h⟩ := Outcome.bind_eq_ok.1 h
              have e := markCrossing_same h3
              cases h
              exact ⟨SameCore.filled ⟨e.rows, e.cols, e.magic, e.times, e.yAvail, e.core⟩, rfl⟩
      · obtain ⟨x, h3, h⟩ := Outcome.bind_eq_ok.1 h
        have e := markEnd_same h3
        cases h
        exact ⟨e.filled, rfl⟩
    · cases h
  | none =>
    simp only at h
    have hcell : ∀ b : CellBoundaries, (if act = .edpc then ({ o with bounds := b } : OccCell) else o).cell = o.cell := by intro b; split <;> rfl
    obtain ⟨x, h3, h⟩ := Outcome.bind_eq_ok.1 h
    cases h
    unfold place at h3
    obtain ⟨y, h4, h3⟩ := Outcome.bind_eq_ok.1 h3
    obtain ⟨-, -, rfl⟩ := placeSingle_ok rfl h4
    cases h3
    refine ⟨⟨rfl, rfl, rfl, rfl, rfl, ?_⟩, hcell _⟩
    intro c
    simp only [hcell]
    by_cases e : c = o.cell
    · subst e
      right
      exact ⟨hr, h2, hm, _, upd_same _ _ _, rfl, rfl, rfl⟩
    · left
      simp only [DSlice.core, put_cells, upd_other _ _ e]

theorem markGo_filled {L : Layout} {asserts : Bool} {act : PatchActivity} {rid : Option Nat} {cells : List Cell} :
    ∀ {os : List OccCell} {k : Nat} {s : DSlice} {label : BoundaryType} {r : DSlice × List OccCell}, (∀ o ∈ os, o.cell ∈ cells) →
    markGo L asserts act rid cells os k s label = .ok r → Filled cells act s r.1 ∧ r.2.map (·.cell) = os.map (·.cell)
  | [], k, s, label, r, _, h => by cases h; exact ⟨(SameCore.refl _).filled, rfl⟩
  | o :: os, k, s, label, r, hm, h => by
    rw [markGo] at h
    obtain ⟨x, h1, h⟩ := Outcome.bind_eq_ok.1 h
    obtain ⟨y, h2, h⟩ := Outcome.bind_eq_ok.1 h
    obtain ⟨a1, a2⟩ := markOne_filled (hm o (by simp)) h1
    obtain ⟨b1, b2⟩ := markGo_filled (fun o ho => hm o (by simp [ho])) h2
    cases h
    exact ⟨a1.trans b1, by simp [a2, b2]⟩

theorem mark_filled {L : Layout} {asserts : Bool} {act : PatchActivity} {s : DSlice} {r : RoutingRegion} {x : DSlice × RoutingRegion}
    (h : mark L asserts s r act = .ok x) : Filled (r.cells.map (·.cell)) act s x.1 ∧ x.2.cells.map (·.cell) = r.cells.map (·.cell) := by
  unfold mark at h
  obtain ⟨y, h1, h⟩ := Outcome.bind_eq_ok.1 h
  have := markGo_filled (fun o ho => List.mem_map_of_mem ho) h1
  cases h
  exact this

/-- The result of marking when nothing can cross: every cell was free and holds exactly its routing patch. -/
theorem markGo_plain {L : Layout} {asserts : Bool} {act : PatchActivity} {rid : Option Nat} {cells : List Cell} (hact : act ≠ .edpc) :
    ∀ {os : List OccCell} {k : Nat} {s : DSlice} {label : BoundaryType} {r : DSlice × List OccCell},
    markGo L asserts act rid cells os k s label = .ok r → r.2 = os ∧
      r.1 = os.foldl (fun s o => s.put o.cell (some { type := .routing, activity := act, opId := rid, bounds := o.bounds })) s ∧
      (os.map (·.cell)).Nodup ∧ ∀ o ∈ os, s.inRange o.cell = true ∧ s.cells o.cell = none
  | [], k, s, label, r, h => by cases h; exact ⟨rfl, rfl, by simp, by simp⟩
  | o :: os, k, s, label, r, h => by
    rw [markGo] at h
    obtain ⟨x, h1, h⟩ := Outcome.bind_eq_ok.1 h
    obtain ⟨y, h2, h⟩ := Outcome.bind_eq_ok.1 h
    unfold markOne at h1
    obtain ⟨p, h3, h1⟩ := Outcome.bind_eq_ok.1 h1
    obtain ⟨hr, h4⟩ := patchAt_ok h3
    cases p with
    | some p => simp [hact] at h1
    | none =>
      simp only [if_neg hact] at h1
      obtain ⟨z, h5, h1⟩ := Outcome.bind_eq_ok.1 h1
      unfold place at h5
      obtain ⟨w, h6, h5⟩ := Outcome.bind_eq_ok.1 h5
      obtain ⟨-, -, rfl⟩ := placeSingle_ok rfl h6
      cases h5
      cases h1
      obtain ⟨i1, i2, i3, i4⟩ := markGo_plain hact h2
      cases h
      refine ⟨by rw [i1], i2, ?_, ?_⟩
      · simp only [List.map_cons, List.nodup_cons]
        refine ⟨?_, i3⟩
        intro hm
        obtain ⟨o', ho', e⟩ := List.mem_map.1 hm
        have := (i4 o' ho').2
        simp only [put_cells, e, upd_same] at this
        cases this
      · intro o' ho'
        rcases List.mem_cons.1 ho' with rfl | ho'
        · exact ⟨hr, h4⟩
        · obtain ⟨j1, j2⟩ := i4 o' ho'
          refine ⟨j1, ?_⟩
          simp only [put_cells] at j2
          by_cases e : o'.cell = o.cell
          · rw [e]; exact h4
          · rw [upd_other _ _ e] at j2; exact j2

end DSlice

end Verif
