import Verif.RouterRun
import Verif.SlicePropsIds

/-! # Routes (C33–C36) -/

namespace Verif.Router.Spec

open Verif Search

/-- No end of the route is one of the routing marks of edge-disjoint routing. -/
def RealEnds (edpc : Bool) (s : DSlice) (source target : Nat) : Prop :=
  edpc = true → ∀ c p, s.cells c = some p → (p.id = some source ∨ p.id = some target) → p.activity ≠ .edpc

/-- The id names exactly one cell. -/
def Names (s : DSlice) (id : Nat) (c : Cell) : Prop := Holds s id c ∧ ∀ c', Holds s id c' → c' = c

theorem holds_onGrid {L s id c} (hf : Fits L s) (h : Holds s id c) : OnGrid L c := by
  unfold Fits at hf; unfold Holds at h; unfold OnGrid; omega

theorem held {edpc s source target id c} (hr : RealEnds edpc s source target) (h : Holds s id c) (hid : id = source ∨ id = target) :
    ¬ Passable edpc s c := by
  obtain ⟨_, _, _, _, p, hp, hi⟩ := h
  rintro (h1 | ⟨he, p', hp', ha⟩)
  · rw [hp] at h1; cases h1
  · rw [hp] at hp'; cases hp'
    exact hr he c p hp (by rcases hid with rfl | rfl <;> simp [hi]) ha

theorem holds_of {s : DSlice} {t : Nat} {c : Cell} (h : s.cellById t = some c) : Holds s t c := Slices.Spec.c28_lookup h

theorem good_of {L s edpc source target a b sop top} (hf : Fits L s) (hr : RealEnds edpc s source target)
    (ha : s.cellById source = some a) (hb : s.cellById target = some b) :
    Query.Good ⟨L, s, a, b, sop, top, source == target, edpc⟩ := by
  have h1 := holds_of ha
  have h2 := holds_of hb
  refine ⟨hf, holds_onGrid hf h1, holds_onGrid hf h2, held hr h1 (.inl rfl), held hr h2 (.inr rfl), ?_⟩
  simp only [beq_iff_eq]
  constructor
  · rintro rfl; rw [ha] at hb; cases hb; rfl
  · rintro rfl
    obtain ⟨_, _, _, _, p, hp, hi⟩ := h1
    obtain ⟨_, _, _, _, p', hp', hi'⟩ := h2
    rw [hp] at hp'; cases hp'; rw [hi] at hi'; cases hi'; rfl

theorem find_cases {L pick stop edpc s source sop target top o} (h : find L pick stop edpc s source sop target top = .ok o) :
    ∃ a b, s.cellById source = some a ∧ s.cellById target = some b ∧
      Query.run ⟨L, s, a, b, sop, top, source == target, edpc⟩ pick stop = .ok o := by
  unfold find at h
  split at h
  next a b ha hb => exact ⟨a, b, ha, hb, h⟩
  next => cases h

theorem holdsId_of {s : DSlice} {id : Nat} {c : Cell} (h : Holds s id c) : ∃ c', s.cellById id = some c' := by
  obtain ⟨h1, h2, h3, h4, p, hp, hi⟩ := h
  unfold DSlice.cellById
  have hm : c ∈ s.allCells.filter (s.holdsId id) := by
    refine List.mem_filter.2 ⟨?_, ?_⟩
    · unfold DSlice.allCells
      refine List.mem_flatMap.2 ⟨c.row.toNat, List.mem_range.2 (by omega), List.mem_map.2 ⟨c.col.toNat, List.mem_range.2 (by omega), ?_⟩⟩
      obtain ⟨r, k⟩ := c
      simp only [Cell.mk.injEq] at *; omega
    · unfold DSlice.holdsId; rw [hp]; simp [hi]
  cases hg : (s.allCells.filter (s.holdsId id)).getLast? with
  | none => rw [List.getLast?_eq_none_iff] at hg; rw [hg] at hm; cases hm
  | some c' => exact ⟨c', rfl⟩

theorem names_cellById {s : DSlice} {id : Nat} {c : Cell} (h : Names s id c) : s.cellById id = some c := by
  obtain ⟨c', hc'⟩ := holdsId_of h.1
  rw [hc', h.2 c' (holds_of hc')]

/-! ## C33 -/

/-- C33: whatever order the queue hands out vertices in, a route that is returned is a chain of distinct free cells of the
lattice, the first touching the target patch and the last the source patch on a side of the requested type, and its cells
are marked exactly on the sides on which the chain passes. With edge-disjoint routing, cells holding routing marks may be
crossed, through sides no other route uses. -/
theorem c33_route {L s pick stop edpc source sop target top r} (hf : Fits L s) (he : RealEnds edpc s source target)
    (h : find L pick stop edpc s source sop target top = .ok (some r)) :
    ∃ a b, Holds s source a ∧ Holds s target b ∧ Admissible L s edpc a sop b top (r.cells.map (·.cell)) ∧ (r.cells.map (·.cell)).Nodup ∧
      Marked (if edpc then ⟨.reserved1, true⟩ else ⟨.connected, true⟩) b r.cells a ∧ r.regionId = none := by
  obtain ⟨a, b, ha, hb, hr⟩ := find_cases h
  have hg := good_of (sop := sop) (top := top) hf he ha hb
  obtain ⟨s0, st, ts, _, _, hfound, rfl⟩ := Query.run_some hg hr
  obtain ⟨h1, h2, h3⟩ := Query.found_admissible hg hfound
  have hmap : (ts.map (Query.regionCell ⟨L, s, a, b, sop, top, source == target, edpc⟩)).map (·.cell) =
      ts.map fun t => (Query.cellOf ⟨L, s, a, b, sop, top, source == target, edpc⟩) t.2.1 := by
    rw [List.map_map]
    apply List.map_congr_left
    intro t _
    exact (Query.join_spec (q := ⟨L, s, a, b, sop, top, source == target, edpc⟩)).1
  refine ⟨a, b, holds_of ha, holds_of hb, ?_, ?_, h3, rfl⟩
  · rw [hmap]; exact h1
  · rw [hmap]; exact h2

/-- C33: in particular no cell of a route holds a qubit patch or any other patch that is not a routing mark. -/
theorem c33_free {L s pick stop source sop target top r} (hf : Fits L s)
    (h : find L pick stop false s source sop target top = .ok (some r)) {o : OccCell} (ho : o ∈ r.cells) :
    s.cells o.cell = none ∧ OnGrid L o.cell := by
  obtain ⟨a, b, _, _, h1, _⟩ := c33_route hf (by intro h; cases h) h
  have hm : o.cell ∈ r.cells.map (·.cell) := List.mem_map.2 ⟨o, ho, rfl⟩
  refine ⟨?_, h1.inside _ hm⟩
  rcases h1.clear _ hm with h2 | ⟨h2, _⟩
  · exact h2
  · cases h2

/-! ## C35 -/

/-- C35: the search returns normally, whatever the queue does. -/
theorem c35_returns {L s edpc source sop target top a b} (pick : Pick) (stop : Bool) (hf : Fits L s) (he : RealEnds edpc s source target)
    (ha : Holds s source a) (hb : Holds s target b) (h1 : sop = .X ∨ sop = .Z) (h2 : top = .X ∨ top = .Z) :
    ∃ o, find L pick stop edpc s source sop target top = .ok o := by
  obtain ⟨a', ha'⟩ := holdsId_of ha
  obtain ⟨b', hb'⟩ := holdsId_of hb
  have hg := good_of (sop := sop) (top := top) hf he ha' hb'
  obtain ⟨o, ho⟩ := Query.run_ok hg h1 h2 pick stop
  exact ⟨o, by unfold find; rw [ha', hb']; exact ho⟩

/-- C35: if there is an admissible route, the search finds one. -/
theorem c35_found {L s edpc source sop target top a b r} (pick : Pick) (stop : Bool) (hf : Fits L s) (he : RealEnds edpc s source target)
    (ha : Names s source a) (hb : Names s target b) (hr : Admissible L s edpc a sop b top r) :
    ∃ r', find L pick stop edpc s source sop target top = .ok (some r') := by
  have ha' := names_cellById ha
  have hb' := names_cellById hb
  have hg := good_of (sop := sop) (top := top) hf he ha' hb'
  obtain ⟨h1, h2⟩ := Query.ops_of (q := ⟨L, s, a, b, sop, top, source == target, edpc⟩) hr
  obtain ⟨o, ho⟩ := Query.run_ok hg h1 h2 pick stop
  cases o with
  | none => exact (Query.run_none hg ho (Query.admissible_path hg hr)).elim
  | some r' => exact ⟨r', by unfold find; rw [ha', hb']; exact ho⟩

/-- C35: no route is reported only if there is none. -/
theorem c35_none {L s edpc source sop target top a b pick stop} (hf : Fits L s) (he : RealEnds edpc s source target)
    (ha : Names s source a) (hb : Names s target b) (h : find L pick stop edpc s source sop target top = .ok none) :
    ¬ ∃ r, Admissible L s edpc a sop b top r := by
  rintro ⟨r, hr⟩
  obtain ⟨r', hr'⟩ := c35_found pick stop hf he ha hb hr
  rw [h] at hr'; cases hr'

/-! ## C34 -/

/-- C34: with the default search no admissible route is shorter than the one returned. -/
theorem c34_shortest {L s edpc source sop target top a b pick r r'} (hpick : MinFirst pick) (hf : Fits L s)
    (he : RealEnds edpc s source target) (ha : Names s source a) (hb : Names s target b)
    (h : find L pick false edpc s source sop target top = .ok (some r)) (hr : Admissible L s edpc a sop b top r') :
    r.cells.length ≤ r'.length := by
  have ha' := names_cellById ha
  have hb' := names_cellById hb
  have hg := good_of (sop := sop) (top := top) hf he ha' hb'
  obtain ⟨a2, b2, h1, h2, hrun⟩ := find_cases h
  rw [ha'] at h1; rw [hb'] at h2; cases h1; cases h2
  have := Query.run_short hg hpick hrun (Query.admissible_path hg hr)
  omega

theorem minIndex_spec (pm : Nat → Node) : ∀ (l : List Nat), l ≠ [] →
    ∃ v, l[minIndex pm l]? = some v ∧ ∀ u ∈ l, ((pm v).dist.getD 0) ≤ ((pm u).dist.getD 0)
  | [], h => absurd rfl h
  | [x], _ => ⟨x, rfl, by simp⟩
  | x :: y :: l, _ => by
    obtain ⟨v, hv, hle⟩ := minIndex_spec pm (y :: l) (by simp)
    simp only [minIndex, hv]
    split
    next hx =>
      refine ⟨x, rfl, ?_⟩
      intro u hu
      rcases List.mem_cons.1 hu with rfl | hu
      · exact Nat.le_refl _
      · exact Nat.le_trans hx (hle u hu)
    next hx =>
      refine ⟨v, by rw [List.getElem?_cons_succ]; exact hv, ?_⟩
      intro u hu
      rcases List.mem_cons.1 hu with rfl | hu
      · omega
      · exact hle u hu

/-- The queue used in the examples satisfies the assumption of C34. -/
theorem pickMin_min : MinFirst pickMin := by
  intro k pm fr hne
  obtain ⟨v, hv, hle⟩ := minIndex_spec pm fr hne
  refine ⟨v, hv, ?_⟩
  intro u hu d e hd he
  have := hle u hu
  rw [hd, he] at this; exact this

/-- C34: the comparator reads distances that never change while a vertex is queued, so that `std::priority_queue` does
hand out a vertex of least distance: no round of the default search changes a distance already assigned. -/
theorem c34_keys {L s edpc source sop target top a b pick st st1 st2} (hpick : MinFirst pick) (hf : Fits L s)
    (he : RealEnds edpc s source target) (ha : Names s source a) (hb : Names s target b)
    (h0 : Query.start ⟨L, s, a, b, sop, top, source == target, edpc⟩ = .ok st)
    (h1 : Rounds (Query.graph ⟨L, s, a, b, sop, top, source == target, edpc⟩) pick st st1)
    (h2 : Round (Query.graph ⟨L, s, a, b, sop, top, source == target, edpc⟩) pick st1 st2) {v d : Nat}
    (hv : (st1.pm v).dist = some d) : (st2.pm v).dist = some d := by
  have hg := good_of (sop := sop) (top := top) hf he (names_cellById ha) (names_cellById hb)
  obtain ⟨i0, _, o0⟩ := Query.start_spec hg h0
  obtain ⟨i1, o1, s1⟩ := rounds_keep hpick i0 o0 (Query.start_spread hg h0) h1
  exact (round_keeps hpick i1 o1 s1 h2).2 v d hv

/-! ## C36 -/

/-- The caches a cached router can have after queries on the given slices, the latest first. -/
inductive Asked (L : Layout) (stop : Bool) : List DSlice → Cache → Prop where
  | empty : Asked L stop [] (fun _ => none)
  | query {ss cache s pick source sop target top o cache'} : Asked L stop ss cache →
      cachedFind L pick stop cache s source sop target top = .ok (o, cache') → Asked L stop (s :: ss) cache'

theorem cached_cases {L pick stop cache s source sop target top o cache'}
    (h : cachedFind L pick stop cache s source sop target top = .ok (o, cache')) :
    ∃ a b, s.cellById source = some a ∧ s.cellById target = some b ∧
      ((∃ r, cache ⟨a, sop, b, top⟩ = some r ∧ o = some r ∧ cache' = cache) ∨
       (cache ⟨a, sop, b, top⟩ = none ∧ find L pick stop false s source sop target top = .ok o ∧
        ((o = none ∧ cache' = cache) ∨ ∃ r, o = some r ∧ cache' = upd cache ⟨a, sop, b, top⟩ (some r)))) := by
  unfold cachedFind at h
  split at h
  next a b ha hb =>
    refine ⟨a, b, ha, hb, ?_⟩
    split at h
    next r hr => cases h; exact .inl ⟨r, hr, rfl, rfl⟩
    next hn =>
      obtain ⟨x, hx, h⟩ := Outcome.bind_eq_ok.1 h
      cases x with
      | none => cases h; exact .inr ⟨hn, hx, .inl ⟨rfl, rfl⟩⟩
      | some r => cases h; exact .inr ⟨hn, hx, .inr ⟨r, rfl, rfl⟩⟩
  next => cases h

theorem asked_valid {L stop ss cache} (h : Asked L stop ss cache) (hf : ∀ s ∈ ss, Fits L s) {k : Key} {r} (hk : cache k = some r) :
    ∃ s ∈ ss, Admissible L s false k.src k.srcOp k.tgt k.tgtOp (r.cells.map (·.cell)) := by
  induction h generalizing k r with
  | empty => cases hk
  | query _ hq ih =>
    rename_i s pick source sop target top o cache' _
    have ih' := fun {k r} hk => ih (fun s hs => hf s (by simp [hs])) (k := k) (r := r) hk
    obtain ⟨a, b, ha, hb, h1⟩ := cached_cases hq
    rcases h1 with ⟨_, _, _, rfl⟩ | ⟨_, hfind, ⟨_, rfl⟩ | ⟨r', rfl, rfl⟩⟩
    · obtain ⟨s', hs', h'⟩ := ih' hk; exact ⟨s', by simp [hs'], h'⟩
    · obtain ⟨s', hs', h'⟩ := ih' hk; exact ⟨s', by simp [hs'], h'⟩
    · by_cases hkk : k = ⟨a, sop, b, top⟩
      · subst hkk
        rw [upd_same] at hk; cases hk
        obtain ⟨a2, b2, hra, hrb, hrun⟩ := find_cases hfind
        rw [ha] at hra; rw [hb] at hrb; cases hra; cases hrb
        have hg := good_of (edpc := false) (sop := sop) (top := top) (hf s (by simp)) (by intro h; cases h) ha hb
        obtain ⟨s0, st, ts, _, _, hfound, rfl⟩ := Query.run_some hg hrun
        obtain ⟨h1, _, _⟩ := Query.found_admissible hg hfound
        refine ⟨s, by simp, ?_⟩
        have hmap : (ts.map (Query.regionCell ⟨L, s, a, b, sop, top, source == target, false⟩)).map (·.cell) =
            ts.map fun t => (Query.cellOf ⟨L, s, a, b, sop, top, source == target, false⟩) t.2.1 := by
          rw [List.map_map]
          apply List.map_congr_left
          intro t _
          exact (Query.join_spec (q := ⟨L, s, a, b, sop, top, source == target, false⟩)).1
        simp only
        rw [hmap]; exact h1
      · rw [upd_other _ _ hkk] at hk
        obtain ⟨s', hs', h'⟩ := ih' hk; exact ⟨s', by simp [hs'], h'⟩

/-- C36, as far as it holds: a route returned by the cached router was a route in the slice of this query or of an
earlier one, between the cells now holding the two patches. If all cells free in those slices are free now, its cells are
free now. -/
theorem c36_partial {L stop ss cache s pick source sop target top r cache'} (h : Asked L stop ss cache) (hf : ∀ s' ∈ s :: ss, Fits L s')
    (hq : cachedFind L pick stop cache s source sop target top = .ok (some r, cache')) :
    ∃ a b s', Holds s source a ∧ Holds s target b ∧ s' ∈ s :: ss ∧ Admissible L s' false a sop b top (r.cells.map (·.cell)) ∧
      ((∀ c, s'.cells c = none → s.cells c = none) → ∀ o ∈ r.cells, s.cells o.cell = none) := by
  obtain ⟨a, b, ha, hb, h1⟩ := cached_cases hq
  have hk : cache' ⟨a, sop, b, top⟩ = some r := by
    rcases h1 with ⟨r', hr', he, rfl⟩ | ⟨_, _, ⟨he, _⟩ | ⟨r', he, rfl⟩⟩
    · cases he; exact hr'
    · cases he
    · cases he; exact upd_same _ _ _
  obtain ⟨s', hs', hadm⟩ := asked_valid (.query h hq) hf hk
  refine ⟨a, b, s', holds_of ha, holds_of hb, hs', hadm, ?_⟩
  intro hfree o ho
  rcases hadm.clear o.cell (List.mem_map.2 ⟨o, ho, rfl⟩) with h2 | ⟨h2, _⟩
  · exact hfree _ h2
  · cases h2

/-! ## Examples and a counterexample -/

/-- Two patches at the ends of the first row of a lattice of two rows. -/
def gapLayout : Layout :=
  { core := [basicSquare ⟨0, 0⟩ none none, basicSquare ⟨0, 3⟩ none none], furthest := ⟨1, 3⟩, ancilla := [⟨0, 1⟩, ⟨1, 1⟩] }

/-- A slice in which the patches 7 and 8 are at the ends of the first row and `extra` cells hold further patches. -/
def gapSlice (extra : List Cell) : DSlice :=
  { rows := 2, cols := 4,
    cells := fun c =>
      if c = ⟨0, 0⟩ then some { type := .qubit, activity := .none, id := some 7, bounds := ⟨⟨.smooth, false⟩, ⟨.smooth, false⟩, ⟨.rough, false⟩, ⟨.rough, false⟩⟩ }
      else if c = ⟨0, 3⟩ then some { type := .qubit, activity := .none, id := some 8, bounds := ⟨⟨.smooth, false⟩, ⟨.smooth, false⟩, ⟨.rough, false⟩, ⟨.rough, false⟩⟩ }
      else if c ∈ extra then some { type := .qubit, activity := .none, id := some 9, bounds := .all ⟨.smooth, false⟩ }
      else none }

/-- The cells of a returned route. -/
def cellsOf : Outcome (Option RoutingRegion) → Option (Option (List Cell))
  | .ok o => some (o.map fun r => r.cells.map (·.cell))
  | _ => none

theorem gap_fits (extra : List Cell) : Fits gapLayout (gapSlice extra) := by
  unfold Fits gapLayout gapSlice; simp

/-- c33_route, c34_shortest: along the row, and for Z through the row below. -/
example : cellsOf (find gapLayout pickMin false false (gapSlice []) 7 .X 8 .X) = some (some [⟨0, 2⟩, ⟨0, 1⟩]) ∧
    cellsOf (find gapLayout pickMin false false (gapSlice []) 7 .Z 8 .Z) = some (some [⟨1, 3⟩, ⟨1, 2⟩, ⟨1, 1⟩, ⟨1, 0⟩]) ∧
    cellsOf (find gapLayout pickMin true true (gapSlice [⟨0, 2⟩]) 7 .X 8 .Z) = some (some [⟨1, 3⟩, ⟨1, 2⟩, ⟨1, 1⟩, ⟨0, 1⟩]) ∧
    Fits gapLayout (gapSlice []) ∧ RealEnds true (gapSlice [⟨0, 2⟩]) 7 8 ∧ MinFirst pickMin := by
  refine ⟨by decide +kernel, by decide +kernel, by decide +kernel, gap_fits _, ?_, pickMin_min⟩
  intro _ c p hc _
  simp only [gapSlice] at hc
  split at hc
  · cases hc; decide
  · split at hc
    · cases hc; decide
    · split at hc
      · cases hc; decide
      · cases hc

/-- A patch joined to itself, as for measuring Y: the route goes round its corner. -/
example : cellsOf (find gapLayout pickMin false false (gapSlice []) 7 .X 7 .Z) = some (some [⟨1, 0⟩, ⟨1, 1⟩, ⟨0, 1⟩]) := by decide +kernel

/-- c35_none: walled off. -/
example : cellsOf (find gapLayout pickMin false false (gapSlice [⟨0, 2⟩]) 7 .X 8 .X) = some none ∧
    Names (gapSlice [⟨0, 2⟩]) 7 ⟨0, 0⟩ := by
  refine ⟨by decide +kernel, ⟨by decide, by decide, by decide, by decide, _, rfl, rfl⟩, ?_⟩
  rintro c ⟨_, _, _, _, p, hp, hi⟩
  simp only [gapSlice] at hp
  split at hp
  · assumption
  · split at hp
    · cases hp; cases hi
    · split at hp
      · cases hp; cases hi
      · cases hp

/-- c35_found: this is an admissible route. -/
example : Admissible gapLayout (gapSlice []) false ⟨0, 0⟩ .X ⟨0, 3⟩ .X [⟨0, 2⟩, ⟨0, 1⟩] := by
  refine ⟨⟨⟨.left, by simp [Faces]⟩, ⟨.left, by simp [Faces]⟩, ⟨.left, by simp [Faces]⟩, trivial⟩, ?_, ?_, by simp, ?_, ?_⟩
  · intro c hc; simp at hc; rcases hc with rfl | rfl <;> simp [OnGrid, gapLayout]
  · intro c hc; simp at hc; rcases hc with rfl | rfl <;> exact .inl rfl
  · intro c hc; simp at hc; subst hc; exact ⟨_, .right, rfl, by simp [Faces], .inl ⟨rfl, rfl⟩⟩
  · intro c hc; simp at hc; subst hc; exact ⟨_, .left, rfl, by simp [Faces], .inl ⟨rfl, rfl⟩⟩

/-- The context with the cached router on that layout. -/
def gapCtx : Ctx Cache :=
  { localInstrs := false, twists := false, genIds := true, asserts := true, layout := gapLayout, router := cachedRouter gapLayout pickMin false }

/-- c36_partial: a query answered from the cache while nothing has changed. -/
example : ∃ s cache r, DSlice.init gapLayout [7, 8] = .ok s ∧ cachedFind gapLayout pickMin false (fun _ => none) s 7 .X 8 .X = .ok (some r, cache) ∧
    cachedFind gapLayout pickMin false cache s 7 .X 8 .X = .ok (some r, cache) ∧ Asked gapLayout false [s] cache ∧ Fits gapLayout s ∧
    r.cells.length = 2 := by
  refine ⟨_, _, _, rfl, rfl, rfl, .query .empty (s := _) (pick := pickMin) (source := 7) (sop := .X) (target := 8) (top := .X) (o := _) rfl, ?_, rfl⟩
  exact ⟨by decide, by decide, rfl, rfl⟩

/-- C36 fails: the cached router proposes the route it found in the first slice although preparing a qubit has put a patch
on it since. -/
theorem c36_stale : ∃ s cache r s' o, DSlice.init gapLayout [7, 8] = .ok s ∧
    cachedFind gapLayout pickMin false (fun _ => none) s 7 .X 8 .X = .ok (some r, cache) ∧
    Apply.apply gapCtx ⟨s, cache, 1⟩ { op := .init 9 .zero none } = .ok s' ∧ s'.err = false ∧
    cachedFind gapLayout pickMin false s'.slice.rs s'.slice.slice 7 .X 8 .X = .ok (some r, cache) ∧
    o ∈ r.cells ∧ ∃ p, s'.slice.slice.cells o.cell = some p ∧ p.id = some 9 ∧ p.type = .qubit := by
  exact ⟨_, _, _, _, _, rfl, rfl, rfl, rfl, rfl, List.mem_cons_of_mem _ (List.mem_cons_self), _, rfl, rfl, rfl⟩

end Verif.Router.Spec
