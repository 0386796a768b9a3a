import Verif.Exposed
import Verif.StreamInject
import Verif.LayoutProps
import Verif.RouterProps

/-!
# What the patches of a layout expose (theorems for C15)
-/

namespace Verif.Stream
open Verif.Layouts Verif.Layouts.Spec
open Verif.Gates (Gate)
open Verif.Router.Spec (Faces Holds)

namespace Spec

/-- The cell next to `c` on that side is on the grid and empty. -/
def Clear (s : DSlice) (c : Cell) (d : CellDirection) : Prop :=
  ∃ n : Cell, Faces c n d ∧ (0 ≤ n.row ∧ n.row < s.rows ∧ 0 ≤ n.col ∧ n.col < s.cols) ∧ s.cells n = none

/-- What an upright patch on that cell shows: X to the left and right, Z above and below. -/
structure Upright (s : DSlice) (c : Cell) (f : Facing) : Prop where
  x : f.x = true ↔ Clear s c .left ∨ Clear s c .right
  z : f.z = true ↔ Clear s c .top ∨ Clear s c .bottom

end Spec
open Spec

theorem exposedAt_ok {s : DSlice} {o : OccCell} {ns : List Cell} (hr : ∀ n ∈ ns, s.inRange n = true) (e : Exposed) :
    ∃ e', exposedAt s o ns e = .ok e' ∧
      (e'.x = true ↔ e.x = true ∨ ∃ n ∈ ns, s.cells n = none ∧ ∃ b, o.boundaryWith n = some b ∧ b.ty = .rough) ∧
      (e'.z = true ↔ e.z = true ∨ ∃ n ∈ ns, s.cells n = none ∧ ∃ b, o.boundaryWith n = some b ∧ b.ty = .smooth) := by
  induction ns generalizing e with
  | nil => exact ⟨e, rfl, by simp, by simp⟩
  | cons n ns ih =>
    have h1 : s.isFree n = .ok (s.cells n).isNone := by
      unfold DSlice.isFree DSlice.patchAt; rw [if_pos (hr n (by simp)), Outcome.bind_ok]
    have ih := ih (fun m hm => hr m (by simp [hm]))
    unfold exposedAt
    rw [h1, Outcome.bind_ok]
    cases hc : s.cells n with
    | some p =>
      obtain ⟨e', h2, h3, h4⟩ := ih e
      refine ⟨e', by simpa using h2, ?_, ?_⟩
      · rw [h3]; simp [hc]
      · rw [h4]; simp [hc]
    | none =>
      cases hb : o.boundaryWith n with
      | none =>
        obtain ⟨e', h2, h3, h4⟩ := ih e
        refine ⟨e', by simpa using h2, ?_, ?_⟩
        · rw [h3]; simp [hb]
        · rw [h4]; simp [hb]
      | some b =>
        obtain ⟨e', h2, h3, h4⟩ := ih ⟨e.x || (b.ty == .rough), e.z || (b.ty == .smooth)⟩
        refine ⟨e', by simpa [OccCell.haveBoundaryOfTypeWith, hb, boundaryForOperator] using h2, ?_, ?_⟩
        · rw [h3]; simp [hb, hc, or_assoc]
        · rw [h4]; simp [hb, hc, or_assoc]

theorem mem_neighboursIn {c n o f : Cell} : n ∈ c.neighboursIn o f ↔
    (n = ⟨c.row - 1, c.col⟩ ∧ o.row < c.row) ∨ (n = ⟨c.row + 1, c.col⟩ ∧ c.row < f.row) ∨
    (n = ⟨c.row, c.col - 1⟩ ∧ o.col < c.col) ∨ (n = ⟨c.row, c.col + 1⟩ ∧ c.col < f.col) := by
  unfold Cell.neighboursIn
  by_cases h1 : c.row > o.row <;> by_cases h2 : c.row < f.row <;> by_cases h3 : c.col > o.col <;> by_cases h4 : c.col < f.col <;>
    simp [h1, h2, h3, h4] <;> omega

def standing : CellBoundaries := ⟨⟨.smooth, false⟩, ⟨.smooth, false⟩, ⟨.rough, false⟩, ⟨.rough, false⟩⟩

theorem standing_rough {c n : Cell} : (∃ b, (OccCell.mk standing c).boundaryWith n = some b ∧ b.ty = .rough) ↔
    n = ⟨c.row, c.col - 1⟩ ∨ n = ⟨c.row, c.col + 1⟩ := by
  unfold OccCell.boundaryWith Cell.sideTowards
  obtain ⟨a, b⟩ := n
  simp only [Cell.mk.injEq]
  split
  · simp [CellBoundaries.get, standing]; omega
  · split
    · simp [CellBoundaries.get, standing]; omega
    · split
      · simp [CellBoundaries.get, standing]; omega
      · split <;> simp [CellBoundaries.get, standing] <;> omega

theorem standing_smooth {c n : Cell} : (∃ b, (OccCell.mk standing c).boundaryWith n = some b ∧ b.ty = .smooth) ↔
    n = ⟨c.row - 1, c.col⟩ ∨ n = ⟨c.row + 1, c.col⟩ := by
  unfold OccCell.boundaryWith Cell.sideTowards
  obtain ⟨a, b⟩ := n
  simp only [Cell.mk.injEq]
  split
  · simp [CellBoundaries.get, standing]; omega
  · split
    · simp [CellBoundaries.get, standing]; omega
    · split
      · simp [CellBoundaries.get, standing]; omega
      · split <;> simp [CellBoundaries.get, standing] <;> omega

/-- The slice covers the grid of the layout. -/
def Covers (L : Layout) (s : DSlice) : Prop := L.furthest.row + 1 = s.rows ∧ L.furthest.col + 1 = s.cols

theorem exposedOf_ok {L : Layout} {s : DSlice} (hf : Covers L s) {id : Nat} {c : Cell} {p : DensePatch} (hn : Router.Spec.Names s id c)
    (hp : s.cells c = some p) (hb : p.bounds = standing) : ∃ e, exposedOf L s id = .ok e ∧ Upright s c ⟨e.x, e.z⟩ := by
  have hr : ∀ n ∈ c.neighboursIn ⟨0, 0⟩ L.furthest, s.inRange n = true := by
    intro n hm
    have h0 := hn.1
    unfold Holds at h0
    unfold Covers at hf
    rw [mem_neighboursIn] at hm
    unfold DSlice.inRange
    simp only [decide_eq_true_eq]
    rcases hm with ⟨rfl, _⟩ | ⟨rfl, _⟩ | ⟨rfl, _⟩ | ⟨rfl, _⟩ <;> simp_all <;> omega
  obtain ⟨e, h1, h2, h3⟩ := exposedAt_ok (o := ⟨p.bounds, c⟩) hr ⟨false, false⟩
  refine ⟨e, ?_, ?_, ?_⟩
  · unfold exposedOf
    rw [Router.Spec.names_cellById hn]
    dsimp only
    rw [hp]
    exact h1
  · rw [hb] at h2
    simp only [standing_rough] at h2
    have h0 := hn.1
    unfold Holds at h0
    unfold Covers at hf
    show e.x = true ↔ _
    rw [h2]
    unfold Clear
    constructor
    · rintro (h | ⟨n, hm, hv, rfl | rfl⟩)
      · cases h
      · left; exact ⟨_, by simp [Faces], by simpa [DSlice.inRange] using hr _ hm, hv⟩
      · right; exact ⟨_, by simp [Faces], by simpa [DSlice.inRange] using hr _ hm, hv⟩
    · rintro (⟨⟨a, b⟩, hfc, hin, hv⟩ | ⟨⟨a, b⟩, hfc, hin, hv⟩) <;> right <;> obtain ⟨rfl, rfl⟩ := hfc
      · exact ⟨_, mem_neighboursIn.2 (by simp_all; omega), hv, Or.inl rfl⟩
      · exact ⟨_, mem_neighboursIn.2 (by simp_all; omega), hv, Or.inr rfl⟩
  · rw [hb] at h3
    simp only [standing_smooth] at h3
    have h0 := hn.1
    unfold Holds at h0
    unfold Covers at hf
    show e.z = true ↔ _
    rw [h3]
    unfold Clear
    constructor
    · rintro (h | ⟨n, hm, hv, rfl | rfl⟩)
      · cases h
      · left; exact ⟨_, by simp [Faces], by simpa [DSlice.inRange] using hr _ hm, hv⟩
      · right; exact ⟨_, by simp [Faces], by simpa [DSlice.inRange] using hr _ hm, hv⟩
    · rintro (⟨⟨a, b⟩, hfc, hin, hv⟩ | ⟨⟨a, b⟩, hfc, hin, hv⟩) <;> right <;> obtain ⟨rfl, rfl⟩ := hfc
      · exact ⟨_, mem_neighboursIn.2 (by simp_all; omega), hv, Or.inl rfl⟩
      · exact ⟨_, mem_neighboursIn.2 (by simp_all; omega), hv, Or.inr rfl⟩

theorem exposedEach_ok {L : Layout} {s : DSlice} {ids : List Nat} (hn : ids.Nodup) (h : ∀ id ∈ ids, ∃ e, exposedOf L s id = .ok e) (m : ExposedMap) :
    ∃ m', exposedEach L s ids m = .ok m' ∧ (∀ p, p ∉ ids → m' p = m p) ∧ ∀ p ∈ ids, ∃ e, exposedOf L s p = .ok e ∧ m' p = some e := by
  induction ids generalizing m with
  | nil => exact ⟨m, rfl, fun _ _ => rfl, by simp⟩
  | cons a ids ih =>
    obtain ⟨e, he⟩ := h a (by simp)
    obtain ⟨m', h1, h2, h3⟩ := ih (List.nodup_cons.1 hn).2 (fun id hid => h id (by simp [hid])) (upd m a (some e))
    refine ⟨m', ?_, ?_, ?_⟩
    · unfold exposedEach; rw [he, Outcome.bind_ok, h1]
    · intro p hp
      simp only [List.mem_cons, not_or] at hp
      rw [h2 p hp.2, upd_other _ _ hp.1]
    · intro p hp
      rcases List.mem_cons.1 hp with rfl | hp
      · exact ⟨e, he, by rw [h2 p (List.nodup_cons.1 hn).1, upd_same]⟩
      · exact h3 p hp

/-- Each cell of the grid is of some kind. -/
theorem at_some {g : Grid} {h w : Nat} (hr : Rect g h w) {c : Cell} (h0 : 0 ≤ c.row ∧ c.row < h ∧ 0 ≤ c.col ∧ c.col < w) : ∃ t, At g c t := by
  obtain ⟨a, b⟩ := c
  dsimp only at h0
  obtain ⟨i, rfl⟩ := Int.eq_ofNat_of_zero_le h0.1
  obtain ⟨j, rfl⟩ := Int.eq_ofNat_of_zero_le h0.2.2.1
  have hi : i < g.length := by rw [hr.1]; omega
  have hj : j < g[i].length := by rw [hr.2 _ (List.getElem_mem hi)]; omega
  exact ⟨g[i][j], i, j, g[i], rfl, List.getElem?_eq_getElem hi, List.getElem?_eq_getElem hj⟩

/-- On the first slice each id names one cell, a cell of a logical qubit, with a standing patch. -/
theorem shows_names {g : Grid} {ids : List Nat} {s : DSlice} (hs : Shows g ids s) (hn : ids.Nodup) {id : Nat} (hid : id ∈ ids) :
    ∃ c p, Router.Spec.Names s id c ∧ At g c .qubit ∧ s.cells c = some p ∧ p.bounds = standing := by
  obtain ⟨cs, hord, hmem, hplaced, hrest⟩ := hs.qubits
  have hrect : Rect g s.rows s.cols := ⟨hs.rows, hs.cols⟩
  obtain ⟨i, hi⟩ := List.mem_iff_getElem?.1 hid
  obtain ⟨c, p, h1, h2, h3⟩ := hplaced i id hi
  have hq := (hmem c).1 (List.mem_of_getElem? h1)
  have hb := hrect.of_at hq
  refine ⟨c, p, ⟨⟨hb.1, hb.2.1, hb.2.2.1, hb.2.2.2, p, h2, h3.2.2.1⟩, ?_⟩, hq, h2, h3.2.2.2⟩
  rintro c' ⟨a1, a2, a3, a4, p', hp', hpid⟩
  obtain ⟨t, ht⟩ := at_some hrect ⟨a1, a2, a3, a4⟩
  have hqubit : At g c' .qubit := by
    cases t with
    | qubit => exact ht
    | routing => rw [hs.free c' (Or.inl ht)] at hp'; cases hp'
    | ancilla => rw [hs.free c' (Or.inr (Or.inl ht))] at hp'; cases hp'
    | rotated => rw [hs.free c' (Or.inr (Or.inr (Or.inl ht)))] at hp'; cases hp'
    | dynamic => rw [hs.free c' (Or.inr (Or.inr (Or.inr ht)))] at hp'; cases hp'
    | magic => obtain ⟨x, hx, _, _, hy⟩ := hs.reserved c' ht; rw [hx] at hp'; cases hp'; rw [hy] at hpid; cases hpid
    | dead => obtain ⟨x, hx, _, hy⟩ := hs.dead c' ht; rw [hx] at hp'; cases hp'; rw [hy] at hpid; cases hpid
    | ystate => obtain ⟨x, hx, _, _, hy, _⟩ := hs.ystates c' ht; rw [hx] at hp'; cases hp'; rw [hy] at hpid; cases hpid
    | distillation d => obtain ⟨x, hx, _, _, hy⟩ := hs.factories c' d ht; rw [hx] at hp'; cases hp'; rw [hy] at hpid; cases hpid
  obtain ⟨j, hj⟩ := List.mem_iff_getElem?.1 ((hmem c').2 hqubit)
  cases hidj : ids[j]? with
  | none => rw [hrest j c' hj hidj] at hp'; cases hp'
  | some id' =>
    obtain ⟨c2, p2, b1, b2, b3⟩ := hplaced j id' hidj
    rw [hj] at b1; cases b1
    rw [hp'] at b2; cases b2
    rw [b3.2.2.1] at hpid; cases hpid
    have hij : i = j := by
      obtain ⟨hi', e1⟩ := List.getElem?_eq_some_iff.1 hi
      obtain ⟨hj', e2⟩ := List.getElem?_eq_some_iff.1 hidj
      exact (List.getElem_inj hn).1 (by rw [e1, e2])
    subst hij
    rw [h1] at hj; cases hj; rfl

theorem grid_covers {g : Grid} {o : Options} {L : Layout} {ids : List Nat} (h : fromGrid g o = .ok L) (hn : ids.length ≤ L.core.length) :
    ∃ s, DSlice.init L ids = .ok s ∧ Shows g ids s ∧ Covers L s := by
  obtain ⟨a, b, k, hl⟩ := fromGrid_inv h
  obtain ⟨s, h1, h2, h3, h4, _⟩ := init_shows hl hn
  have hL := hl.eq
  refine ⟨s, h1, h2, ?_, ?_⟩
  · rw [h3, hL]; simp
  · rw [h4, hL]; simp

namespace Spec

/-- **C15, the starting point.** For every accepted grid and every list of different ids that fits, the map given to the
boundary rotation stage tells exactly what each patch shows on the first slice: X if the cell to its left or right is empty, Z if
the one above or below is. -/
theorem c15_exposed {g : Grid} {o : Options} {L : Layout} {ids : List Nat} (h : fromGrid g o = .ok L) (hids : ids.Nodup) (hn : ids.length ≤ L.core.length) :
    ∃ s m, DSlice.init L ids = .ok s ∧ determineExposed L ids = .ok m ∧ (∀ p, p ∉ ids → m p = none) ∧
      ∀ p ∈ ids, ∃ c e, (∀ c', Holds s p c' ↔ c' = c) ∧ m p = some e ∧ Upright s c ⟨e.x, e.z⟩ := by
  obtain ⟨s, h1, h2, h3⟩ := grid_covers h hn
  have key : ∀ p ∈ ids, ∃ c e, Router.Spec.Names s p c ∧ exposedOf L s p = .ok e ∧ Upright s c ⟨e.x, e.z⟩ := by
    intro p hp
    obtain ⟨c, q, a1, a2, a3, a4⟩ := shows_names h2 hids hp
    obtain ⟨e, b1, b2⟩ := exposedOf_ok h3 a1 a3 a4
    exact ⟨c, e, a1, b1, b2⟩
  obtain ⟨m, k1, k2, k3⟩ := exposedEach_ok (L := L) (s := s) hids (fun p hp => by obtain ⟨c, e, _, he, _⟩ := key p hp; exact ⟨e, he⟩) (fun _ => none)
  refine ⟨s, m, h1, ?_, k2, ?_⟩
  · unfold determineExposed; rw [h1, Outcome.bind_ok, k1]
  · intro p hp
    obtain ⟨c, e, a1, a2, a3⟩ := key p hp
    obtain ⟨e', b1, b2⟩ := k3 p hp
    rw [a2] at b1; cases b1
    refine ⟨c, e, fun c' => ⟨a1.2 c', ?_⟩, b2, a3⟩
    rintro rfl; exact a1.1

/-- A qubit with an empty cell to its right and a resource state below: it shows X only. -/
example : ∃ L m, fromGrid [[.qubit, .routing], [.ystate, .routing]] {} = .ok L ∧ [7].length ≤ L.core.length ∧ determineExposed L [7] = .ok m ∧
    m 7 = some ⟨true, false⟩ := ⟨_, _, rfl, by decide, rfl, rfl⟩

end Spec

theorem compact_grid (n : Nat) (o : Options) (noClogging : Bool) :
    ∃ (t : Table) (L : Layout), makeCompact n o noClogging = .ok L ∧ fromGrid t.toGrid o = .ok L ∧ L.core.length = n ∧ t.rows = 3 ∧
      t.cols = (n + 1) / 2 + (3 + if noClogging then 0 else 5) ∧
      (∀ i j, t.at' i j = .qubit ↔ (i = 0 ∧ j < (n + 1) / 2) ∨ (i = 2 ∧ j < n - (n + 1) / 2)) ∧
      (∀ j, j < (n + 1) / 2 → t.at' 1 j = .routing) := by
  obtain ⟨t, e, hr, hc, hq, hmid, -⟩ := compactTable_spec n noClogging
  obtain ⟨L, cs, h1, h2, h3, -⟩ := c39_compact n o noClogging
  refine ⟨t, L, h1, ?_, by rw [h2.2]; simpa using h3, hr, hc, hq, hmid⟩
  unfold makeCompact at h1
  rw [e, Outcome.bind_ok] at h1
  exact h1

namespace Spec

/-- **C15, compact layouts.** For every number of qubits and every kind of compact layout, starting from what its patches show on
the first slice: for every gate program within the register whose gates have different operands, every joint measurement and
Bell-based CNOT that leaves the boundary rotation and Y-state stages meets the patches of the register with the needed operator
towards an empty cell, as long as ids fit in 32 bits. -/
theorem c15_layout (m : Mode) (n : Nat) (o : Options) (noClogging : Bool) :
    ∃ L s exposed, makeCompact n o noClogging = .ok L ∧ DSlice.init L (coreQubits n) = .ok s ∧ determineExposed L (coreQubits n) = .ok exposed ∧
      ∀ (orient : Nat → Option Facing), (∀ p, orient p ≠ none ↔ p < n) → (∀ p c f, Holds s p c → orient p = some f → Upright s c f) →
      ∀ (prog : List Gate), InRegister n prog → DistinctOperands prog → ∀ (out : List Instr) (fuel c : Nat),
        (stage (teleportedExpand (coreQubits n) false) (stage boundaryExpand (gateMachine m))).run fuel (((prog, []), exposed, []), (), []) n = .ok (out, true, c) →
        n + (introduced out).length + 1 < 2 ^ 32 → ∃ o', faceRun orient out = some o' := by
  obtain ⟨t, L, h1, h2, h3, hr, hc, hq, hmid⟩ := compact_grid n o noClogging
  have hids : (coreQubits n).Nodup := List.nodup_range
  have hlen : (coreQubits n).length ≤ L.core.length := by rw [h3]; simp [coreQubits]
  obtain ⟨s, ex, a1, a2, a3, a4⟩ := c15_exposed h2 hids hlen
  obtain ⟨s', b1, hs, -⟩ := grid_covers h2 hlen
  rw [a1] at b1; cases b1
  refine ⟨L, s, ex, h1, a1, a2, ?_⟩
  intro orient hdom hup prog hreg hdist out fuel c hrun hfit
  have hmem : ∀ p, p ∈ coreQubits n ↔ p < n := fun p => by simp [coreQubits]
  refine c15_compact m n ex orient ?_ ?_ prog hreg hdist out fuel c hrun hfit
  · intro p
    by_cases hp : p < n
    · right
      obtain ⟨c, e, d1, d2, d3⟩ := a4 p ((hmem p).2 hp)
      cases ho : orient p with
      | none => exact absurd ho ((hdom p).2 hp)
      | some f =>
        have hf := hup p c f ((d1 c).2 rfl) ho
        have hz : Clear s c .top ∨ Clear s c .bottom := by
          obtain ⟨c', q, e1, e2, -⟩ := shows_names hs hids ((hmem p).2 hp)
          have : c' = c := (d1 c').1 e1.1
          subst this
          obtain ⟨i, j, rfl, hi, hj, hk⟩ := at_toGrid.1 e2
          rw [hq] at hk
          have hj' : j < (n + 1) / 2 := by omega
          have hfree := hs.free ⟨1, j⟩ (Or.inl (at_toGrid.2 ⟨1, j, rfl, by omega, hj, hmid j hj'⟩))
          have hrows : s.rows = 3 := by rw [← hs.rows, (rect_toGrid t).1, hr]
          have hb := (d1 ⟨i, j⟩).2 rfl
          unfold Holds at hb
          dsimp only at hb
          rcases hk with ⟨rfl, _⟩ | ⟨rfl, _⟩
          · right; exact ⟨⟨1, j⟩, by simp [Faces], ⟨by simp, by simp; omega, hb.2.2.1, hb.2.2.2.1⟩, hfree⟩
          · left; exact ⟨⟨1, j⟩, by simp [Faces], ⟨by simp, by simp; omega, hb.2.2.1, hb.2.2.2.1⟩, hfree⟩
        refine ⟨e, f, d2, rfl, ?_⟩
        have ez : e.z = true := d3.z.2 hz
        have fz : f.z = true := hf.z.2 hz
        have ex' : (e.x = true) ↔ (f.x = true) := d3.x.trans hf.x.symm
        obtain ⟨ea, eb⟩ := e
        obtain ⟨fa, fb⟩ := f
        dsimp only at ez fz ex'
        subst ez fz
        cases fa
        · right; cases ea <;> simp_all
        · left; simp
    · left
      refine ⟨a3 p (fun h => hp ((hmem p).1 h)), ?_⟩
      cases ho : orient p with
      | none => rfl
      | some f => exact absurd ((hdom p).1 (by simp [ho])) hp
  · intro p
    constructor
    · intro h
      apply Classical.byContradiction
      intro hp
      exact h (a3 p (fun h => hp ((hmem p).1 h)))
    · intro hp h
      obtain ⟨c, e, _, d2, _⟩ := a4 p ((hmem p).2 hp)
      rw [h] at d2; cases d2

/-- The three qubits of a compact layout: the first shows Z only, the second, at the end of its row, both, and so does the one of
the last row. -/
example : ∃ L m, makeCompact 3 {} true = .ok L ∧ determineExposed L (coreQubits 3) = .ok m ∧ m 0 = some ⟨false, true⟩ ∧ m 1 = some ⟨true, true⟩ ∧
    m 2 = some ⟨true, true⟩ ∧ m 3 = none := ⟨_, _, rfl, rfl, rfl, rfl, rfl, rfl⟩

/-- A qubit at the end of its row shows both operators whichever way it is turned. The stage takes it to show neither after a
Hadamard and turns it before the next measurement, though nothing requires it: without the rotation every measurement still meets
the needed operator. -/
theorem c15_superfluous : ∃ L exposed out, makeCompact 2 {} true = .ok L ∧ determineExposed L (coreQubits 2) = .ok exposed ∧
    (stage (teleportedExpand (coreQubits 2) false) (stage boundaryExpand (gateMachine ⟨"q".toList, false, false⟩))).run 60
      ((([.basic 0 .H, .ctrl 0 (.basic 1 .X) .controlFirst .nextToControl], []), exposed, []), (), []) 2 = .ok (out, true, 3) ∧
    plain (.rotate 0) ∈ out ∧
    ∃ o', faceRun (fun q => if q < 2 then some ⟨true, true⟩ else none) (out.filter fun i => !isRotation i) = some o' := by
  refine ⟨_, _, _, rfl, rfl, rfl, by decide, _, rfl⟩

end Spec
end Verif.Stream
