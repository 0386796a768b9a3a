import Verif.Router
import Verif.RouterSpec
import Verif.SearchLemmas
import Verif.SliceLemmas
import Mathlib.Tactic.Linarith
import Mathlib.Tactic.Ring

/-!
# Facts about the router
-/

namespace Verif.Router

open Search Spec

theorem sideTowards_iff {a b : Cell} {d : CellDirection} : a.sideTowards b = some d ↔ Faces a b d := by
  obtain ⟨ar, ac⟩ := a
  obtain ⟨br, bc⟩ := b
  unfold Cell.sideTowards
  simp only [Cell.mk.injEq]
  constructor
  · intro h
    split at h
    · cases h; exact ‹_›
    · split at h
      · cases h; exact ‹_›
      · split at h
        · cases h; exact ‹_›
        · split at h
          · cases h; exact ‹_›
          · cases h
  · intro h
    cases d <;> simp only [Faces] at h <;> obtain ⟨rfl, rfl⟩ := h
    · simp
    · rw [if_neg (by omega)]; simp
    · rw [if_neg (by omega), if_neg (by omega)]; simp
    · rw [if_neg (by omega), if_neg (by omega), if_neg (by omega)]; simp

theorem mem_neighbours {L : Layout} {c n : Cell} (hc : OnGrid L c) :
    n ∈ c.neighboursIn ⟨0, 0⟩ L.furthest ↔ Touching c n ∧ OnGrid L n := by
  obtain ⟨cr, cc⟩ := c
  obtain ⟨nr, nc⟩ := n
  unfold OnGrid at hc
  unfold Cell.neighboursIn OnGrid Touching
  simp only [List.mem_append] at *
  constructor
  · rintro (((h | h) | h) | h) <;> split at h <;> simp at h <;> obtain ⟨rfl, rfl⟩ := h
    · exact ⟨⟨.top, by simp [Faces]⟩, by omega⟩
    · exact ⟨⟨.bottom, by simp [Faces]⟩, by omega⟩
    · exact ⟨⟨.left, by simp [Faces]⟩, by omega⟩
    · exact ⟨⟨.right, by simp [Faces]⟩, by omega⟩
  · rintro ⟨⟨d, hd⟩, hg⟩
    cases d <;> simp only [Faces] at hd <;> obtain ⟨rfl, rfl⟩ := hd
    · left; left; left; rw [if_pos (by omega)]; simp
    · left; left; right; rw [if_pos (by omega)]; simp
    · left; right; rw [if_pos (by omega)]; simp
    · right; rw [if_pos (by omega)]; simp

theorem faces_symm {a b : Cell} (h : Touching a b) : Touching b a := by
  obtain ⟨d, hd⟩ := h
  cases d <;> simp only [Faces] at hd
  · exact ⟨.bottom, by simp only [Faces]; omega⟩
  · exact ⟨.top, by simp only [Faces]; omega⟩
  · exact ⟨.right, by simp only [Faces]; omega⟩
  · exact ⟨.left, by simp only [Faces]; omega⟩

theorem inRange_of {L s c} (hf : Fits L s) (h : OnGrid L c) : s.inRange c = true := by
  unfold Fits at hf; unfold OnGrid at h
  simp only [DSlice.inRange, decide_eq_true_eq]; omega

theorem patchAt_of {L s c} (hf : Fits L s) (h : OnGrid L c) : s.patchAt c = .ok (s.cells c) := by
  unfold DSlice.patchAt; rw [if_pos (inRange_of hf h)]

namespace Query

/-- The assumptions of the following lemmas. -/
structure Good (q : Query) : Prop where
  fits : Fits q.layout q.slice
  src : OnGrid q.layout q.src
  tgt : OnGrid q.layout q.tgt
  srcHeld : ¬ Passable q.edpc q.slice q.src
  tgtHeld : ¬ Passable q.edpc q.slice q.tgt
  same : q.cycle = true ↔ q.src = q.tgt

theorem Good.width_pos {q} (h : Good q) : 0 < q.width := by have := h.fits.2.1; unfold width; omega

theorem vertex_int {q} (h : Good q) {c} (hc : OnGrid q.layout c) : (q.vertex c : Int) = c.row * q.width + c.col := by
  unfold vertex
  have := h.width_pos
  have h1 : 0 ≤ c.row * q.width := Int.mul_nonneg hc.1 (by omega)
  have := hc.2.2.1
  omega

theorem furthest_onGrid {q} (h : Good q) : OnGrid q.layout q.layout.furthest := ⟨h.fits.1, Int.le_refl _, h.fits.2.1, Int.le_refl _⟩

theorem vertex_lt {q} (h : Good q) {c} (hc : OnGrid q.layout c) : q.vertex c < q.size := by
  have h1 := vertex_int h hc
  have h2 := vertex_int h (furthest_onGrid h)
  have h3 := h.width_pos
  unfold size
  have h4 : c.row * q.width ≤ q.layout.furthest.row * q.width := Int.mul_le_mul_of_nonneg_right hc.2.1 (by omega)
  have := hc.2.2.2
  omega

theorem cellOf_vertex {q} (h : Good q) {c} (hc : OnGrid q.layout c) : q.cellOf (q.vertex c) = c := by
  unfold cellOf
  have hlt := vertex_lt h hc
  rw [if_neg (by omega), vertex_int h hc]
  have hw := h.width_pos
  have hm : (c.row * q.width + c.col) % q.width = c.col := by
    rw [Int.add_comm, Int.add_mul_emod_self_right]
    exact Int.emod_eq_of_lt hc.2.2.1 (by have := hc.2.2.2; unfold width; omega)
  rw [hm]
  have : (c.row * q.width + c.col - c.col) / q.width = c.row := by
    rw [Int.add_sub_cancel]; exact Int.mul_ediv_cancel _ (by omega)
  rw [this]

/-- Vertices of the lattice are cells of the grid. -/
theorem onGrid_cellOf {q} (h : Good q) {v} (hv : v < q.graph.total) : OnGrid q.layout (q.cellOf v) := by
  unfold cellOf
  split
  · exact h.tgt
  · rename_i hn
    have hw := h.width_pos
    have hs : v < q.size := by
      unfold graph at hv
      simp only at hv
      split at hv
      · rename_i hc
        simp only [hc, true_and] at hn; omega
      · exact hv
    have h2 := vertex_int h (furthest_onGrid h)
    unfold size at hs
    have h3 : (v : Int) ≤ q.layout.furthest.row * q.width + q.layout.furthest.col := by omega
    have h4 := Int.emod_nonneg (v : Int) (by omega : q.width ≠ 0)
    have h5 := Int.emod_lt_of_pos (v : Int) hw
    have h6 : ((v : Int) - (v : Int) % q.width) / q.width = (v : Int) / q.width := by
      have := Int.emod_add_mul_ediv (v : Int) q.width
      have e : (v : Int) - (v : Int) % q.width = q.width * ((v : Int) / q.width) := by omega
      rw [e, Int.mul_ediv_cancel_left _ (by omega)]
    refine ⟨?_, ?_, h4, ?_⟩
    · simp only [h6]; exact Int.ediv_nonneg (by omega) (by omega)
    · simp only [h6]
      have : (v : Int) / q.width < q.layout.furthest.row + 1 := by
        apply Int.ediv_lt_of_lt_mul hw
        rw [Int.add_mul, Int.one_mul]
        unfold width at *; omega
      omega
    · simp only; unfold width at h5; unfold width; omega

/-- The root of the search. -/
def root (q : Query) : Nat := if q.cycle then q.size else q.vertex q.src

theorem cellOf_root {q} (h : Good q) : q.cellOf q.root = q.src := by
  unfold root
  split
  · rename_i hc; unfold cellOf; rw [if_pos ⟨hc, rfl⟩]; exact (h.same.1 hc).symm
  · exact cellOf_vertex h h.src

theorem root_lt {q} (h : Good q) : q.root < q.graph.total := by
  unfold root graph
  simp only
  split
  · omega
  · exact vertex_lt h h.src

theorem vertex_total {q} (h : Good q) {c} (hc : OnGrid q.layout c) : q.vertex c < q.graph.total := by
  have := vertex_lt h hc
  unfold graph; simp only; split <;> omega

/-- When the search may step from `a` to `b`. -/
def Link (q : Query) (a b : Cell) : Prop :=
  (Passable q.edpc q.slice a ∧ Passable q.edpc q.slice b ∧ ¬ (q.edpc = true ∧ Taken q.slice a b)) ∨
  (a = q.src ∧ b = q.tgt ∧ Offers q.slice q.src b q.srcOp ∧ Offers q.slice q.tgt a q.tgtOp) ∨
  (a = q.src ∧ Passable q.edpc q.slice b ∧ Offers q.slice q.src b q.srcOp) ∨
  (Passable q.edpc q.slice a ∧ b = q.tgt ∧ Offers q.slice q.tgt a q.tgtOp)

theorem passes_eq {q} (h : Good q) {c} (hc : OnGrid q.layout c) : ∃ e, q.passes c = .ok e ∧ (e = true ↔ Passable q.edpc q.slice c) := by
  unfold passes Passable
  cases q.edpc with
  | false =>
    simp only [Bool.false_eq_true, if_false, DSlice.isFree, patchAt_of h.fits hc, Outcome.bind_ok]
    refine ⟨_, rfl, ?_⟩
    cases q.slice.cells c <;> simp
  | true =>
    simp only [if_true, DSlice.isFreeOr, patchAt_of h.fits hc, Outcome.bind_ok]
    cases q.slice.cells c with
    | none => exact ⟨_, rfl, by simp⟩
    | some p => exact ⟨_, rfl, by simp⟩

theorem have_eq {q} (h : Good q) {a b op} (ha : OnGrid q.layout a) {e} (he : q.slice.haveBoundaryOfType a b op = .ok e) :
    e = true ↔ Offers q.slice a b op := by
  unfold DSlice.haveBoundaryOfType DSlice.boundaryBetween at he
  simp only [patchAt_of h.fits ha, Outcome.bind_ok] at he
  unfold Offers
  cases hp : q.slice.cells a with
  | none => rw [hp] at he; simp at he; subst he; simp
  | some p =>
    rw [hp] at he
    simp only [Outcome.bind_ok] at he
    cases hs : a.sideTowards b with
    | none =>
      rw [hs] at he; simp at he; subst he
      simp only [Bool.false_eq_true, false_iff]
      rintro ⟨p', d, _, hd, _⟩
      rw [sideTowards_iff.2 hd] at hs; cases hs
    | some d =>
      rw [hs] at he
      simp only [Option.map_some] at he
      obtain ⟨t, ht, he⟩ := Outcome.bind_eq_ok.1 he
      have hd := sideTowards_iff.1 hs
      have huniq : ∀ d', Faces a b d' → d' = d := by
        intro d' hd'; have := sideTowards_iff.2 hd'; rw [hs] at this; cases this; rfl
      simp at he; subst he
      cases op <;> simp only [boundaryForOperator] at ht <;> cases ht
      all_goals
        simp only [beq_iff_eq]
        constructor
        · intro hb; exact ⟨p, d, rfl, hd, by simp [hb]⟩
        · rintro ⟨p', d', hp', hd', hx⟩
          cases hp'; rw [huniq d' hd'] at hx; simpa using hx

theorem have_ok {q} (h : Good q) {a b op} (ha : OnGrid q.layout a) (hop : op = .X ∨ op = .Z) :
    ∃ e, q.slice.haveBoundaryOfType a b op = .ok e := by
  unfold DSlice.haveBoundaryOfType DSlice.boundaryBetween
  simp only [patchAt_of h.fits ha, Outcome.bind_ok]
  cases q.slice.cells a with
  | none => exact ⟨_, rfl⟩
  | some p =>
    simp only [Outcome.bind_ok]
    cases a.sideTowards b with
    | none => exact ⟨_, rfl⟩
    | some d => rcases hop with rfl | rfl <;> exact ⟨_, rfl⟩

theorem reserved_eq {q} (h : Good q) {a b} (ha : OnGrid q.layout a) :
    ∃ e, q.slice.boundaryReserved a b = .ok e ∧ (e = true ↔ Taken q.slice a b) := by
  unfold DSlice.boundaryReserved DSlice.boundaryBetween Taken
  simp only [patchAt_of h.fits ha, Outcome.bind_ok]
  cases hp : q.slice.cells a with
  | none => exact ⟨_, rfl, by simp⟩
  | some p =>
    simp only [Outcome.bind_ok]
    cases hs : a.sideTowards b with
    | none =>
      refine ⟨_, rfl, ?_⟩
      simp only [Bool.false_eq_true, false_iff]
      rintro ⟨p', d, _, hd, _⟩
      rw [sideTowards_iff.2 hd] at hs; cases hs
    | some d =>
      refine ⟨_, rfl, ?_⟩
      have hd := sideTowards_iff.1 hs
      simp only [DSlice.reservedType, Bool.or_eq_true, beq_iff_eq]
      constructor
      · intro hb; exact ⟨p, d, rfl, hd, hb⟩
      · rintro ⟨p', d', hp', hd', hx⟩
        cases hp'
        have := sideTowards_iff.2 hd'; rw [hs] at this; cases this; exact hx

theorem clear_eq {q} (h : Good q) {a b} (ha : OnGrid q.layout a) (hb : OnGrid q.layout b) :
    ∃ e, q.clear a b = .ok e ∧
      (e = true ↔ Passable q.edpc q.slice a ∧ Passable q.edpc q.slice b ∧ ¬ (q.edpc = true ∧ Taken q.slice a b)) := by
  obtain ⟨ea, h1, h2⟩ := passes_eq h ha
  obtain ⟨eb, h3, h4⟩ := passes_eq h hb
  unfold clear
  rw [h1, Outcome.bind_ok]
  cases ea with
  | false => refine ⟨false, rfl, ?_⟩; simp only [Bool.false_eq_true, false_iff] at *; tauto
  | true =>
    simp only [if_true]
    rw [h3, Outcome.bind_ok]
    cases eb with
    | false => refine ⟨false, rfl, ?_⟩; simp only [Bool.false_eq_true, false_iff] at *; tauto
    | true =>
      simp only [if_true]
      cases hd : q.edpc with
      | false => refine ⟨true, rfl, ?_⟩; simp only [hd, true_iff, Bool.false_eq_true, false_and] at *; tauto
      | true =>
        obtain ⟨r, h5, h6⟩ := reserved_eq h (b := b) ha
        simp only [if_true, h5, Outcome.bind_ok]
        refine ⟨!r, rfl, ?_⟩
        rw [← h6]
        rw [hd] at h2 h4
        cases r <;> simp_all

theorem edge_spec {q} (h : Good q) {a b} (ha : OnGrid q.layout a) (hb : OnGrid q.layout b) {e} (he : q.edge a b = .ok e) :
    e = true ↔ q.Link a b := by
  obtain ⟨ec, h1, h2⟩ := clear_eq h ha hb
  obtain ⟨ea, h3, h4⟩ := passes_eq h ha
  obtain ⟨eb, h5, h6⟩ := passes_eq h hb
  have hs := h.srcHeld
  have ht := h.tgtHeld
  unfold edge at he
  rw [h1, Outcome.bind_ok, cellOf_vertex h h.src, cellOf_vertex h h.tgt] at he
  unfold Link
  cases ec with
  | true => simp only [if_true] at he; cases he; simp only [true_iff] at *; exact .inl h2
  | false =>
    simp only [Bool.false_eq_true, if_false, false_iff] at he h2
    split at he
    next hab =>
      obtain ⟨x, hx, he⟩ := Outcome.bind_eq_ok.1 he
      have hx' := have_eq h h.src hx
      have : ¬ Passable q.edpc q.slice a := by rw [hab.1]; exact hs
      have : ¬ Passable q.edpc q.slice b := by rw [hab.2]; exact ht
      cases x with
      | true =>
        simp only [if_true] at he
        have := have_eq h h.tgt he
        simp only [true_iff] at hx'
        rw [this]; tauto
      | false => simp only [Bool.false_eq_true, if_false] at he; cases he; simp only [Bool.false_eq_true, false_iff] at *; tauto
    next hab =>
      split at he
      next hsrc =>
        rw [h5, Outcome.bind_ok] at he
        have hna : ¬ Passable q.edpc q.slice a := by rw [hsrc]; exact hs
        have hea : ea = false := by cases ea <;> simp_all
        cases eb with
        | true =>
          simp only [if_true] at he
          have := have_eq h h.src he
          simp only [true_iff] at h6
          rw [this]; tauto
        | false =>
          simp only [Bool.false_eq_true, if_false] at he
          rw [h3, Outcome.bind_ok, hea] at he
          simp only [Bool.false_eq_true, if_false] at he
          cases he; simp only [Bool.false_eq_true, false_iff] at *; tauto
      next hsrc =>
        simp only [Outcome.bind_ok, Bool.false_eq_true, if_false] at he
        rw [h3, Outcome.bind_ok] at he
        cases ea with
        | false => simp only [Bool.false_eq_true, if_false] at he; cases he; simp only [Bool.false_eq_true, false_iff] at *; tauto
        | true =>
          simp only [if_true] at he
          simp only [true_iff] at h4
          split at he
          next hbt =>
            have := have_eq h h.tgt he
            rw [this]
            have : ¬ Passable q.edpc q.slice b := by rw [hbt]; exact ht
            tauto
          next => cases he; simp only [Bool.false_eq_true, false_iff]; tauto

theorem edge_ok {q} (h : Good q) {a b} (ha : OnGrid q.layout a) (hb : OnGrid q.layout b) (h1 : q.srcOp = .X ∨ q.srcOp = .Z)
    (h2 : q.tgtOp = .X ∨ q.tgtOp = .Z) : ∃ e, q.edge a b = .ok e := by
  obtain ⟨ec, hc, _⟩ := clear_eq h ha hb
  obtain ⟨ea, hpa, _⟩ := passes_eq h ha
  obtain ⟨eb, hpb, _⟩ := passes_eq h hb
  obtain ⟨x, hx⟩ := have_ok h (b := b) h.src h1
  obtain ⟨y, hy⟩ := have_ok h (b := a) h.tgt h2
  unfold edge
  rw [hc, Outcome.bind_ok, cellOf_vertex h h.src, cellOf_vertex h h.tgt]
  split
  · exact ⟨_, rfl⟩
  · split
    · rw [hx, Outcome.bind_ok]
      split
      · exact ⟨_, hy⟩
      · exact ⟨_, rfl⟩
    · have : ∃ z, (if a = q.src then q.passes b else Outcome.ok false) = .ok z := by
        split
        · exact ⟨_, hpb⟩
        · exact ⟨_, rfl⟩
      obtain ⟨z, hz⟩ := this
      rw [hz, Outcome.bind_ok]
      split
      · exact ⟨_, hx⟩
      · rw [hpa, Outcome.bind_ok]
        split
        · split
          · exact ⟨_, hy⟩
          · exact ⟨_, rfl⟩
        · exact ⟨_, rfl⟩

theorem targets_spec {q} (h : Good q) {c} (hc : OnGrid q.layout c) : ∀ {ns r}, (∀ n ∈ ns, OnGrid q.layout n) → q.targets c ns = .ok r →
    ∀ n, n ∈ r ↔ n ∈ ns ∧ q.Link c n
  | [], r, _, hr, n => by cases hr; simp
  | m :: ms, r, hn, hr, n => by
    simp only [targets] at hr
    obtain ⟨e, he, hr⟩ := Outcome.bind_eq_ok.1 hr
    obtain ⟨r', hr', hr⟩ := Outcome.bind_eq_ok.1 hr
    cases hr
    have h1 := edge_spec h hc (hn m (by simp)) he
    have h2 := targets_spec h hc (fun x hx => hn x (by simp [hx])) hr' n
    cases e with
    | true =>
      simp only [if_true, List.mem_cons, h2]
      simp only [true_iff] at h1
      constructor
      · rintro (rfl | ⟨h3, h4⟩)
        · exact ⟨.inl rfl, h1⟩
        · exact ⟨.inr h3, h4⟩
      · rintro ⟨rfl | h3, h4⟩
        · exact .inl rfl
        · exact .inr ⟨h3, h4⟩
    | false =>
      simp only [Bool.false_eq_true, if_false, h2, List.mem_cons, false_iff] at h1 ⊢
      constructor
      · rintro ⟨h3, h4⟩; exact ⟨.inr h3, h4⟩
      · rintro ⟨rfl | h3, h4⟩
        · exact absurd h4 h1
        · exact ⟨h3, h4⟩

theorem targets_ok {q} (h : Good q) {c} (hc : OnGrid q.layout c) (h1 : q.srcOp = .X ∨ q.srcOp = .Z)
    (h2 : q.tgtOp = .X ∨ q.tgtOp = .Z) : ∀ {ns}, (∀ n ∈ ns, OnGrid q.layout n) → ∃ r, q.targets c ns = .ok r
  | [], _ => ⟨_, rfl⟩
  | m :: ms, hn => by
    obtain ⟨e, he⟩ := edge_ok h hc (hn m (by simp)) h1 h2
    obtain ⟨r, hr⟩ := targets_ok h hc h1 h2 (ns := ms) (fun x hx => hn x (by simp [hx]))
    refine ⟨if e then m :: r else r, ?_⟩; simp only [targets, he, hr, Outcome.bind_ok]

theorem neighbours_onGrid {q : Query} {c} (hc : OnGrid q.layout c) : ∀ n ∈ q.neighbours c, OnGrid q.layout n :=
  fun _ hn => ((mem_neighbours hc).1 hn).2

theorem E_spec {q} (h : Good q) {u v} (hu : u < q.graph.total) (he : E q.graph u v) :
    OnGrid q.layout (q.cellOf v) ∧ v = q.vertex (q.cellOf v) ∧ Touching (q.cellOf u) (q.cellOf v) ∧ q.Link (q.cellOf u) (q.cellOf v) := by
  obtain ⟨ns, hn, hv⟩ := he
  simp only [graph] at hn
  obtain ⟨cs, hcs, hn⟩ := Outcome.bind_eq_ok.1 hn
  cases hn
  obtain ⟨n, hnm, rfl⟩ := List.mem_map.1 hv
  have hg := onGrid_cellOf h hu
  obtain ⟨h1, h2⟩ := (targets_spec h hg (neighbours_onGrid hg) hcs n).1 hnm
  obtain ⟨h3, h4⟩ := (mem_neighbours hg).1 h1
  rw [cellOf_vertex h h4]
  exact ⟨h4, rfl, h3, h2⟩

theorem next_ok {q} (h : Good q) (h1 : q.srcOp = .X ∨ q.srcOp = .Z) (h2 : q.tgtOp = .X ∨ q.tgtOp = .Z) {u} (hu : u < q.graph.total) :
    ∃ ns, q.graph.next u = .ok ns ∧ ∀ w ∈ ns, w < q.graph.total := by
  have hg := onGrid_cellOf h hu
  obtain ⟨cs, hcs⟩ := targets_ok h hg h1 h2 (neighbours_onGrid hg)
  refine ⟨cs.map q.vertex, by simp only [graph, hcs, Outcome.bind_ok], ?_⟩
  intro w hw
  obtain ⟨n, hnm, rfl⟩ := List.mem_map.1 hw
  exact vertex_total h (neighbours_onGrid hg n ((targets_spec h hg (neighbours_onGrid hg) hcs n).1 hnm).1)

theorem E_of {q} (h : Good q) (h1 : q.srcOp = .X ∨ q.srcOp = .Z) (h2 : q.tgtOp = .X ∨ q.tgtOp = .Z) {u c} (hu : u < q.graph.total)
    (hc : OnGrid q.layout c) (ht : Touching (q.cellOf u) c) (hl : q.Link (q.cellOf u) c) : E q.graph u (q.vertex c) := by
  have hg := onGrid_cellOf h hu
  obtain ⟨cs, hcs⟩ := targets_ok h hg h1 h2 (neighbours_onGrid hg)
  refine ⟨cs.map q.vertex, by simp only [graph, hcs, Outcome.bind_ok], ?_⟩
  exact List.mem_map.2 ⟨c, (targets_spec h hg (neighbours_onGrid hg) hcs c).2 ⟨(mem_neighbours hg).2 ⟨ht, hc⟩, hl⟩, rfl⟩

/-- The start of the search. -/
theorem seed_spec {q} (h : Good q) (hc : q.cycle = true) : ∀ {ws st st'}, Inv q.graph q.size st →
    (∀ w ∈ ws, E q.graph q.size w) → (∀ u, u ≠ q.size → (st.pm u).dist ≠ none → u ∈ st.fr ∧ (st.pm u).dist = some 1) →
    q.seed ws st = .ok st' →
    Inv q.graph q.size st' ∧ (∀ u, u ≠ q.size → (st'.pm u).dist ≠ none → u ∈ st'.fr ∧ (st'.pm u).dist = some 1) ∧
      (∀ w ∈ ws, (st'.pm w).dist = some 1) ∧ (∀ u, (st.pm u).dist ≠ none → (st'.pm u).dist ≠ none)
  | [], st, st', hi, _, hf, hs => by cases hs; exact ⟨hi, hf, by simp, fun _ h => h⟩
  | w :: ws, st, st', hi, hE, hf, hs => by
    simp only [seed] at hs
    have hw := hE w (by simp)
    have hroot := root_lt h
    have hsz : q.size < q.graph.total := by unfold root at hroot; rw [if_pos hc] at hroot; exact hroot
    have hne : w ≠ q.size := by
      obtain ⟨h1, h2, _⟩ := E_spec h hsz hw
      rw [h2]; exact Nat.ne_of_lt (vertex_lt h h1)
    rw [if_pos (by obtain ⟨h1, h2, _⟩ := E_spec h hsz hw; rw [h2]; have := vertex_lt h h1; omega)] at hs
    have hi' : Inv q.graph q.size { pm := upd st.pm w ⟨some 1, q.size⟩, fr := st.fr ++ [w] } := by
      refine ⟨hsz, ?_, ?_, ?_, ?_⟩
      · simp only [upd_other _ _ (Ne.symm hne)]; exact hi.rootNode
      · intro v hv
        by_cases hvw : v = w
        · subst hvw; simp only [upd_same] at hv; cases hv
        · simp only [upd_other _ _ hvw] at hv ⊢; exact hi.unseen v hv
      · intro v d hvr hv
        by_cases hvw : v = w
        · subst hvw; simp only [upd_same] at hv ⊢; cases hv
          obtain ⟨h1, h2, _⟩ := E_spec h hsz hw
          refine ⟨by rw [h2]; exact vertex_total h h1, 0, ?_, Nat.le_refl _, hw⟩
          rw [upd_other _ _ (Ne.symm hne), hi.rootNode]
        · simp only [upd_other _ _ hvw] at hv ⊢
          obtain ⟨h1, d', h2, h3, h4⟩ := hi.step v d hvr hv
          refine ⟨h1, d', ?_, h3, h4⟩
          have hpw : (st.pm v).pred ≠ w := by
            intro hp
            have hv1 := (hf v hvr (by rw [hv]; simp)).2
            rw [hv] at hv1; cases hv1
            have hd0 : d' = 0 := by omega
            subst hd0
            rw [hp] at h2
            have := (hf w hne (by rw [h2]; simp)).2
            rw [h2] at this; cases this
          rw [upd_other _ _ hpw]; exact h2
      · intro v hv
        by_cases hvw : v = w
        · subst hvw; simp [upd_same]
        · simp only [upd_other _ _ hvw]; exact hi.fr v (by simpa [hvw] using hv)
    obtain ⟨r1, r2, r3, r4⟩ := seed_spec h hc hi' (fun x hx => hE x (by simp [hx])) (by
      intro u hu hd
      by_cases huw : u = w
      · subst huw; simp [upd_same]
      · simp only [upd_other _ _ huw] at hd ⊢
        obtain ⟨h1, h2⟩ := hf u hu hd
        exact ⟨by simp [h1], h2⟩) hs
    refine ⟨r1, r2, ?_, ?_⟩
    · intro x hx
      rcases List.mem_cons.1 hx with rfl | hx
      · exact (r2 _ hne (r4 _ (by simp [upd_same]))).2
      · exact r3 x hx
    · intro u hu
      apply r4
      by_cases huw : u = w
      · subst huw; simp [upd_same]
      · simp only [upd_other _ _ huw]; exact hu

theorem blank_inv {q : Query} {r : Nat} (hr : r < q.graph.total) (fr : List Nat) (hfr : ∀ v ∈ fr, v = r) :
    Inv q.graph r { pm := upd blank r ⟨some 0, r⟩, fr := fr } := by
  refine ⟨hr, by simp only [upd_same], ?_, ?_, ?_⟩
  · intro v hv
    by_cases hvr : v = r
    · subst hvr; simp only [upd_same] at hv; cases hv
    · simp only [upd_other _ _ hvr] at hv ⊢; rfl
  · intro v d hvr hv
    simp only [upd_other _ _ hvr] at hv; cases hv
  · intro v hv; rw [hfr v hv]; simp [upd_same]

theorem start_spec {q} (h : Good q) {st} (hs : q.start = .ok st) : Inv q.graph q.root st ∧ Closed q.graph st ∧ Ordered q.graph st := by
  unfold start at hs
  unfold root
  split at hs
  next hc =>
    rw [if_pos hc]
    obtain ⟨cs, hcs, hs⟩ := Outcome.bind_eq_ok.1 hs
    have hroot := root_lt h
    have hsz : q.size < q.graph.total := by unfold root at hroot; rw [if_pos hc] at hroot; exact hroot
    have hcell : q.cellOf q.size = q.src := by have := cellOf_root h; unfold root at this; rw [if_pos hc] at this; exact this
    have hnext : q.graph.next q.size = .ok (cs.map q.vertex) := by simp only [graph, hcell, hcs, Outcome.bind_ok]
    obtain ⟨r1, r2, r3, r4⟩ := seed_spec h hc (blank_inv hsz [] (by simp)) (fun w hw => ⟨_, hnext, hw⟩) (by
      intro u hu hd; simp only [upd_other _ _ hu] at hd; exact absurd rfl hd) hs
    have hE : ∀ w, E q.graph q.size w → (st.pm w).dist = some 1 := by
      rintro w ⟨ns, h1, h2⟩
      rw [hnext] at h1; cases h1; exact r3 w h2
    refine ⟨r1, ?_, ?_⟩
    · intro u hu
      by_cases hus : u = q.size
      · subst hus; right; intro w hw; rw [hE w hw]; simp
      · exact .inl (r2 u hus hu).1
    · intro u d hu
      by_cases hus : u = q.size
      · subst hus; right
        rw [r1.rootNode] at hu; cases hu
        refine ⟨fun w hw => ⟨1, hE w hw, by omega⟩, ?_⟩
        intro x hx
        cases hxd : (st.pm x).dist with
        | none => exact absurd hxd (r1.fr x hx)
        | some e => exact ⟨e, rfl, Nat.zero_le _⟩
      · exact .inl (r2 u hus (by rw [hu]; simp)).1
  next hc =>
    rw [if_neg hc]
    split at hs
    next hlt =>
      cases hs
      have hr : q.vertex q.src < q.graph.total := vertex_total h h.src
      have hone : ∀ u, (upd blank (q.vertex q.src) ⟨some 0, q.vertex q.src⟩ u).dist ≠ none → u = q.vertex q.src := by
        intro u hu
        by_cases hv : u = q.vertex q.src
        · exact hv
        · rw [upd_other _ _ hv] at hu; exact absurd rfl hu
      refine ⟨blank_inv hr _ (by simp), ?_, ?_⟩
      · intro u hu; left; rw [hone u hu]; simp
      · intro u d hu; left; rw [hone u (by simp only at hu; rw [hu]; simp)]; simp
    next => cases hs

theorem seed_left {q : Query} : ∀ {ws st st'}, q.seed ws st = .ok st' → ws.Nodup → (∀ w ∈ ws, (st.pm w).dist = none) → (∀ w ∈ ws, w < q.graph.total) →
    left q.graph st' = left q.graph st
  | [], st, st', hs, _, _, _ => by cases hs; rfl
  | w :: ws, st, st', hs, hnd, hn, hlt => by
    simp only [seed] at hs
    split at hs
    next =>
      rw [List.nodup_cons] at hnd
      rw [seed_left hs hnd.2 (by
        intro x hx
        have hxw : x ≠ w := by rintro rfl; exact hnd.1 hx
        simp only [upd_other _ _ hxw]; exact hn x (by simp [hx])) (fun x hx => hlt x (by simp [hx]))]
      simp only [left, List.length_append, List.length_singleton]
      have := unseen_upd (x := ⟨some 1, q.size⟩) (hn w (by simp)) (by simp) q.graph.total (hlt w (by simp)); omega
    next => cases hs

theorem seed_ok {q : Query} : ∀ {ws} (st), (∀ w ∈ ws, w < q.size) → ∃ st', q.seed ws st = .ok st'
  | [], st, _ => ⟨_, rfl⟩
  | w :: ws, st, h => by
    simp only [seed]
    rw [if_pos (by have := h w (by simp); omega)]
    exact seed_ok _ (fun x hx => h x (by simp [hx]))

theorem vertex_inj {q} (h : Good q) {a b} (ha : OnGrid q.layout a) (hb : OnGrid q.layout b) (hab : q.vertex a = q.vertex b) : a = b := by
  rw [← cellOf_vertex h ha, hab, cellOf_vertex h hb]

theorem targets_sublist {q : Query} {c} : ∀ {ns r}, q.targets c ns = .ok r → r.Sublist ns
  | [], r, hr => by cases hr; exact List.Sublist.refl _
  | m :: ms, r, hr => by
    simp only [targets] at hr
    obtain ⟨e, he, hr⟩ := Outcome.bind_eq_ok.1 hr
    obtain ⟨r', hr', hr⟩ := Outcome.bind_eq_ok.1 hr
    cases hr
    have := targets_sublist hr'
    split
    · exact this.cons_cons m
    · exact this.cons m

theorem neighbours_nodup (c o f : Cell) : (c.neighboursIn o f).Nodup := by
  obtain ⟨r, k⟩ := c
  have full : [Cell.mk (r - 1) k, ⟨r + 1, k⟩, ⟨r, k - 1⟩, ⟨r, k + 1⟩].Nodup := by
    simp only [List.nodup_cons, List.mem_cons, Cell.mk.injEq, List.not_mem_nil, or_false]
    refine ⟨by omega, by omega, by omega, by simp, by simp⟩
  apply List.Sublist.nodup _ full
  unfold Cell.neighboursIn
  have s1 : ∀ (p : Prop) [Decidable p] (x : Cell), (if p then [x] else []).Sublist [x] := by
    intro p _ x; split <;> simp
  exact (((s1 _ _).append (s1 _ _)).append (s1 _ _)).append (s1 _ _)

theorem unseen_blank {n : Nat} : unseen blank n = n := by
  induction n with
  | zero => rfl
  | succ n ih => simp [unseen, ih, blank]

theorem seeds {q} (h : Good q) {cs} (hcs : q.targets q.src (q.neighbours q.src) = .ok cs) :
    (cs.map q.vertex).Nodup ∧ ∀ w ∈ cs.map q.vertex, w < q.size := by
  have hin : ∀ n ∈ cs, OnGrid q.layout n := fun n hn =>
    neighbours_onGrid h.src n ((targets_spec h h.src (neighbours_onGrid h.src) hcs n).1 hn).1
  constructor
  · have hc' : cs.Nodup := (targets_sublist hcs).nodup (neighbours_nodup _ _ _)
    clear hcs
    induction cs with
    | nil => simp
    | cons x xs ih =>
      rw [List.nodup_cons] at hc'
      rw [List.map_cons, List.nodup_cons]
      refine ⟨?_, ih (fun n hn => hin n (by simp [hn])) hc'.2⟩
      intro hm
      obtain ⟨y, hy, he⟩ := List.mem_map.1 hm
      have := vertex_inj h (hin y (by simp [hy])) (hin x (by simp)) he
      subst this; exact hc'.1 hy
  · intro w hw; obtain ⟨n, hn, rfl⟩ := List.mem_map.1 hw; exact vertex_lt h (hin n hn)

theorem start_ok {q} (h : Good q) (h1 : q.srcOp = .X ∨ q.srcOp = .Z) (h2 : q.tgtOp = .X ∨ q.tgtOp = .Z) :
    ∃ st, q.start = .ok st ∧ left q.graph st ≤ q.size + 1 := by
  unfold start
  split
  next hc =>
    obtain ⟨cs, hcs⟩ := targets_ok h h.src h1 h2 (neighbours_onGrid h.src)
    rw [hcs, Outcome.bind_ok]
    obtain ⟨hnd, hlt⟩ := seeds h hcs
    obtain ⟨st, hs⟩ := seed_ok (q := q) { pm := upd blank q.size ⟨some 0, q.size⟩, fr := [] } hlt
    refine ⟨st, hs, ?_⟩
    have ht : q.graph.total = q.size + 1 := by unfold graph; simp only [hc, if_true]
    rw [seed_left hs hnd (by
      intro w hw
      have := hlt w hw
      simp only [upd_other _ _ (Nat.ne_of_lt this)]; rfl) (by intro w hw; have := hlt w hw; omega)]
    simp only [left, List.length_nil]
    have := unseen_le (upd blank q.size ⟨some 0, q.size⟩) q.graph.total
    omega
  next hc =>
    rw [if_pos (vertex_lt h h.src)]
    refine ⟨_, rfl, ?_⟩
    simp only [left, List.length_singleton]
    have ht : q.graph.total = q.size := by unfold graph; simp only [hc]; simp
    have := unseen_upd (pm := blank) (w := q.vertex q.src) (x := ⟨some 0, q.vertex q.src⟩) rfl (by simp) q.graph.total (vertex_total h h.src)
    rw [unseen_blank] at this
    omega

theorem seed_bounded {q : Query} : ∀ {ws st st'}, Bounded q.graph st → (st.pm q.size).dist = some 0 → q.seed ws st = .ok st' → ws.Nodup →
    (∀ w ∈ ws, (st.pm w).dist = none) → (∀ w ∈ ws, w < q.size) → q.size < q.graph.total → Bounded q.graph st'
  | [], st, st', hb, _, hs, _, _, _, _ => by cases hs; exact hb
  | w :: ws, st, st', hb, hr, hs, hnd, hn, hlt, ht => by
    simp only [seed] at hs
    split at hs
    next =>
      rw [List.nodup_cons] at hnd
      have hw := hlt w (by simp)
      have hu := unseen_upd (x := ⟨some 1, q.size⟩) (hn w (by simp)) (by simp) q.graph.total (by omega)
      have h0 := hb _ _ hr
      refine seed_bounded ?_ ?_ hs hnd.2 ?_ (fun x hx => hlt x (by simp [hx])) ht
      · intro v e hv
        by_cases hvw : v = w
        · subst hvw; simp only [upd_same] at hv ⊢; cases hv; omega
        · simp only [upd_other _ _ hvw] at hv ⊢; have := hb v e hv; omega
      · simp only [upd_other _ _ (Nat.ne_of_gt hw)]; exact hr
      · intro x hx
        have hxw : x ≠ w := by rintro rfl; exact hnd.1 hx
        simp only [upd_other _ _ hxw]; exact hn x (by simp [hx])
    next => cases hs

theorem blank_bounded {q : Query} {r : Nat} (hr : r < q.graph.total) (fr : List Nat) :
    Bounded q.graph { pm := upd blank r ⟨some 0, r⟩, fr := fr } := by
  have hu := unseen_upd (pm := blank) (w := r) (x := ⟨some 0, r⟩) rfl (by simp) q.graph.total hr
  rw [unseen_blank] at hu
  intro v e hv
  by_cases hvr : v = r
  · subst hvr; simp only [upd_same] at hv ⊢; cases hv; omega
  · simp only [upd_other _ _ hvr] at hv; cases hv

theorem start_bounded {q} (h : Good q) {st} (hs : q.start = .ok st) : Bounded q.graph st := by
  unfold start at hs
  split at hs
  next hc =>
    obtain ⟨cs, hcs, hs⟩ := Outcome.bind_eq_ok.1 hs
    have hroot := root_lt h
    have hsz : q.size < q.graph.total := by unfold root at hroot; rw [if_pos hc] at hroot; exact hroot
    obtain ⟨hnd, hlt⟩ := seeds h hcs
    refine seed_bounded (blank_bounded hsz []) (by simp only [upd_same]) hs hnd ?_ hlt hsz
    intro w hw
    simp only [upd_other _ _ (Nat.ne_of_lt (hlt w hw))]; rfl
  next hc =>
    rw [if_pos (vertex_lt h h.src)] at hs
    cases hs
    exact blank_bounded (vertex_total h h.src) _

theorem total_le (q : Query) : q.graph.total ≤ q.size + 1 := by unfold graph; simp only; split <;> omega

theorem start_spread {q} (h : Good q) {st} (hs : q.start = .ok st) : Spread st := by
  unfold start at hs
  split at hs
  next hc =>
    obtain ⟨cs, hcs, hs⟩ := Outcome.bind_eq_ok.1 hs
    have hroot := root_lt h
    have hsz : q.size < q.graph.total := by unfold root at hroot; rw [if_pos hc] at hroot; exact hroot
    have hcell : q.cellOf q.size = q.src := by have := cellOf_root h; unfold root at this; rw [if_pos hc] at this; exact this
    have hnext : q.graph.next q.size = .ok (cs.map q.vertex) := by simp only [graph, hcell, hcs, Outcome.bind_ok]
    obtain ⟨r1, r2, _, _⟩ := seed_spec h hc (blank_inv hsz [] (by simp)) (fun w hw => ⟨_, hnext, hw⟩) (by
      intro u hu hd; simp only [upd_other _ _ hu] at hd; exact absurd rfl hd) hs
    intro x _ y d e _ hy
    by_cases hys : y = q.size
    · subst hys; rw [r1.rootNode] at hy; cases hy; omega
    · have := (r2 y hys (by rw [hy]; simp)).2
      rw [hy] at this; cases this; omega
  next hc =>
    rw [if_pos (vertex_lt h h.src)] at hs
    cases hs
    intro x _ y d e _ hy
    by_cases hyr : y = q.vertex q.src
    · subst hyr; simp only [upd_same] at hy; cases hy; omega
    · simp only [upd_other _ _ hyr] at hy; cases hy

end Query
end Verif.Router
