import Verif.LayoutRoutes
import Verif.SliceProps

/-! # On a generated layout the first joint measurement is done at once (C79) -/

namespace Verif.Layouts.Walks

open Verif Verif.Layouts Verif.Layouts.Spec
open Verif.Router.Spec Verif.Apply

theorem activate_ok {s : DSlice} {a b : Cell} (hin : s.inRange a = true) (hp : s.cells a ≠ none) (hf : ∃ d, Faces a b d) : ∃ s', s.activate a b = .ok s' := by
  obtain ⟨d, hf⟩ := hf
  unfold DSlice.activate DSlice.sideBetween DSlice.patchAt
  rw [if_pos hin]
  cases e : s.cells a with
  | none => exact (hp e).elim
  | some p =>
    simp only [Outcome.bind_ok, Router.sideTowards_iff.2 hf]
    exact ⟨_, rfl⟩

theorem same_range {s s' : DSlice} (h : DSlice.SameCore s s') (c : Cell) : s'.inRange c = s.inRange c := by
  unfold DSlice.inRange
  rw [h.rows, h.cols]

theorem measured {L : Layout} {s : DSlice} {a b : Nat} {ca cb : Cell} {pa pb : DensePatch} {sop top : Pauli} (hf : Fits L s) (ha : Names s a ca) (hb : Names s b cb) (hpa : s.cells ca = some pa)
    (hpb : s.cells cb = some pb) (hia : pa.isActive = false) (hib : pb.isActive = false) {pick : Search.Pick} {stop : Bool} {r : RoutingRegion}
    (hr : Router.find L pick stop false s a sop b top = .ok (some r)) (genIds asserts twists : Bool) (n : Nat) (i : Instr) {neg : Bool} {loc : Option LocalInstr}
    (hi : i.op = .multi [(a, sop), (b, top)] neg loc) :
    ∃ x, apply ⟨false, twists, genIds, asserts, L, Router.dpRouter L pick stop false⟩ ⟨s, (), n⟩ i = .ok x ∧ x.err = false ∧ x.followups = [] := by
  have ea := names_cellById ha
  have eb := names_cellById hb
  obtain ⟨ca', cb', k1, k2, adm, nd, -, -⟩ := c33_route (edpc := false) hf (fun h => nomatch h) hr
  have := ha.2 _ k1
  subst this
  have := hb.2 _ k2
  subst this
  have hin : ∀ {id c}, Holds s id c → s.inRange c = true := by
    rintro id c ⟨h1, h2, h3, h4, -⟩
    simp only [DSlice.inRange, Bool.and_eq_true, decide_eq_true_eq]
    omega
  have hst : ∀ rid, ∃ s', stitch s ca' cb' { r with regionId := rid } = .ok s' := by
    intro rid
    have two : ∀ x y, (∃ d, Faces ca' x d) → (∃ d, Faces cb' y d) → ∃ s', (s.activate ca' x >>= fun s1 => s1.activate cb' y) = .ok s' := by
      intro x y hx hy
      obtain ⟨s1, e1⟩ := activate_ok (hin k1) (by rw [hpa]; simp) hx
      have hs1 := DSlice.activate_same e1
      obtain ⟨s2, e2⟩ := activate_ok (s := s1) (a := cb') (by rw [same_range hs1]; exact hin k2) (by rw [Ne, hs1.none_iff, hpb]; simp) hy
      exact ⟨s2, by rw [e1]; exact e2⟩
    unfold stitch
    dsimp only
    have f1 := adm.fromSrc
    have f2 := adm.toTgt
    cases hc : r.cells with
    | nil =>
      rw [hc] at f1 f2
      obtain ⟨_, d, -, h1, -⟩ := f1 cb' rfl
      obtain ⟨_, d', -, h2, -⟩ := f2 ca' rfl
      exact two _ _ ⟨d, h1⟩ ⟨d', h2⟩
    | cons o os =>
      rw [hc] at f1 f2
      rw [List.getLast?_eq_some_getLast (List.cons_ne_nil o os), List.head?_cons]
      obtain ⟨_, d, -, h1, -⟩ := f1 ((o :: os).getLast (List.cons_ne_nil o os)).cell (by
        rw [List.getLast?_cons_of_ne_nil (by simp), List.getLast?_map, List.getLast?_eq_some_getLast (List.cons_ne_nil o os)]; rfl)
      obtain ⟨_, d', -, h2, -⟩ := f2 o.cell rfl
      exact two _ _ ⟨d, h1⟩ ⟨d', h2⟩
  have hm : ∀ rid, ∃ s' x, stitch s ca' cb' { r with regionId := rid } = .ok s' ∧ mark L asserts s' { r with regionId := rid } .multiPatchMeasurement = .ok x := by
    intro rid
    obtain ⟨s', e⟩ := hst rid
    have hs := DSlice.stitch_same e
    obtain ⟨x, ex⟩ := (Slices.Spec.c32_possible (L := L) (asserts := asserts) (s := s') (r := { r with regionId := rid }) (act := .multiPatchMeasurement) (by decide)).2 ⟨nd, fun o ho => by
      obtain ⟨g1, g2⟩ := c33_free hf hr ho
      refine ⟨?_, (hs.none_iff _).2 g1⟩
      rw [same_range hs]
      unfold OnGrid at g2
      unfold Fits at hf
      simp only [DSlice.inRange, Bool.and_eq_true, decide_eq_true_eq]
      omega⟩
    exact ⟨s', x, e, ex⟩
  have hreg : r = { r with regionId := r.regionId } := rfl
  unfold apply
  rw [hi]
  simp only [applyMulti, ea, eb, Bool.false_eq_true, if_false, Router.dpRouter, merge, DSlice.patchById, Option.bind_some, hpa, hpb, hia, hib, Bool.or_self, hr, Outcome.bind_ok]
  cases genIds
  · obtain ⟨s', x, e1, e2⟩ := hm r.regionId
    simp only [Bool.false_eq_true, if_false, e1, e2, Outcome.bind_ok]
    exact ⟨_, rfl, rfl, rfl⟩
  · obtain ⟨s', x, e1, e2⟩ := hm (some n)
    simp only [if_true, e1, e2, Outcome.bind_ok]
    exact ⟨_, rfl, rfl, rfl⟩

theorem first {g : Grid} {o : Options} {h w : Nat} {L : Layout} {k : Regions} (hl : LayoutOf g o h w L k) {ids : List Nat} {s : DSlice} (hs : Shows g ids s) (hr : s.rows = h) (hc : s.cols = w)
    (hn : ids.Nodup) (hin : ∀ c, s.inRange c = false → s.cells c = none) {a b : Nat} (ha : a ∈ ids) (hb : b ∈ ids) {sop top : Pauli} (h1 : sop = .X ∨ sop = .Z) (h2 : top = .X ∨ top = .Z)
    (hj : ∀ a b, At g a .qubit → At g b .qubit → ∃ c d, Beside (smoothFor sop) a c ∧ Beside (smoothFor top) b d ∧ Joined g .routing c d) (pick : Search.Pick) (stop genIds asserts twists : Bool)
    (n : Nat) (i : Instr) {neg : Bool} {loc : Option LocalInstr} (hi : i.op = .multi [(a, sop), (b, top)] neg loc) :
    ∃ x, apply ⟨false, twists, genIds, asserts, L, Router.dpRouter L pick stop false⟩ ⟨s, (), n⟩ i = .ok x ∧ x.err = false ∧ x.followups = [] := by
  obtain ⟨r, e⟩ := found hl hs hr hc hn hin ha hb h1 h2 hj pick stop false
  obtain ⟨ca, pa, -, a2, a3, a4⟩ := placed hl hs hr hc hn ha
  obtain ⟨cb, pb, -, b2, b3, b4⟩ := placed hl hs hr hc hn hb
  have idle : ∀ {p : DensePatch} {id}, Square p id → p.isActive = false := by
    rintro p id ⟨-, h2, -, h4⟩
    unfold DensePatch.isActive
    rw [h2, h4]
    rfl
  have hfar : L.furthest = ⟨(h : Int) - 1, (w : Int) - 1⟩ := by rw [hl.eq]
  have hpos := hl.hpos
  have hwpos := hl.wpos
  have hf : Fits L s := by
    unfold Fits
    rw [hfar, hr, hc]
    dsimp only
    omega
  exact measured hf a4 b4 a2 b2 (idle a3) (idle b3) e genIds asserts twists n i hi

end Verif.Layouts.Walks

namespace Verif.Layouts.Spec

open Verif Verif.Layouts Verif.Apply

/-- C79: a computation without local instructions and without edge-disjoint routing that starts on an EDPC layout with at least one lane does a first joint measurement of any two qubits at once, for
any two operators: it neither stops nor has to wait, and nothing is left to do. -/
theorem c79_edpc_measure (n lanes : Nat) (condensed explicit ystates : Bool) (o : Options) (ids : List Nat) (hl : 0 < lanes) (hfit : (n.sqrt + 2) * (lanes + 1) + 11 < 2 ^ 64) (hn : ids.Nodup)
    (hle : ids.length ≤ n) :
    ∃ L s, makeEdpc n lanes condensed explicit ystates o = .ok L ∧ DSlice.init L ids = .ok s ∧
      ∀ a ∈ ids, ∀ b ∈ ids, ∀ sop top, sop = .X ∨ sop = .Z → top = .X ∨ top = .Z → ∀ pick stop twists genIds asserts counter i neg loc, i.op = .multi [(a, sop), (b, top)] neg loc →
        ∃ x, apply ⟨false, twists, genIds, asserts, L, Router.dpRouter L pick stop false⟩ ⟨s, (), counter⟩ i = .ok x ∧ x.err = false ∧ x.followups = [] := by
  obtain ⟨g, h, w, L, k, e, hL, hcnt, hj, -⟩ := Walks.edpc_joined n lanes condensed explicit ystates o hl hfit
  obtain ⟨s, e1, e2, e3, e4, -⟩ := init_shows (ids := ids) hL (by rw [hL.eq]; simpa [hcnt] using hle)
  exact ⟨L, s, e, e1, fun a ha b hb sop top h1 h2 pick stop twists genIds asserts counter i neg loc hi =>
    Walks.first hL e2 e3 e4 hn (Apply.init_inv hn e1).inside ha hb h1 h2 (fun a b ha hb => hj a b ha hb _ _) pick stop genIds asserts twists counter i hi⟩

/-- Ten qubits with one lane in the condensed layout. -/
example : ∃ L s, makeEdpc 10 1 true false true {} = .ok L ∧ DSlice.init L [3, 5, 7] = .ok s ∧ ∀ pick, ∃ x,
    apply ⟨false, false, true, true, L, Router.dpRouter L pick false false⟩ ⟨s, (), 1⟩ { op := .multi [(3, .X), (7, .Z)] false none } = .ok x ∧ x.err = false ∧ x.followups = [] := by
  obtain ⟨L, s, h1, h2, h3⟩ := c79_edpc_measure 10 1 true false true {} [3, 5, 7] (by omega) (by
    have : Nat.sqrt 10 ≤ 10 := Nat.sqrt_le_self _
    omega) (by decide) (by decide)
  exact ⟨L, s, h1, h2, fun pick => h3 3 (by decide) 7 (by decide) .X .Z (.inl rfl) (.inr rfl) pick false false true true 1 _ _ _ rfl⟩

/-- C79: the same on a compact layout, for the operator Z on both qubits. -/
theorem c79_compact_measure (n : Nat) (o : Options) (noClogging : Bool) (ids : List Nat) (hn : ids.Nodup) (hle : ids.length ≤ n) :
    ∃ L s, makeCompact n o noClogging = .ok L ∧ DSlice.init L ids = .ok s ∧
      ∀ a ∈ ids, ∀ b ∈ ids, ∀ pick stop twists genIds asserts counter i neg loc, i.op = .multi [(a, .Z), (b, .Z)] neg loc →
        ∃ x, apply ⟨false, twists, genIds, asserts, L, Router.dpRouter L pick stop false⟩ ⟨s, (), counter⟩ i = .ok x ∧ x.err = false ∧ x.followups = [] := by
  obtain ⟨g, h, w, L, k, e, hL, hcnt, hj⟩ := Walks.compact_joined n o noClogging
  obtain ⟨s, e1, e2, e3, e4, -⟩ := init_shows (ids := ids) hL (by rw [hL.eq]; simpa [hcnt] using hle)
  exact ⟨L, s, e, e1, fun a ha b hb pick stop twists genIds asserts counter i neg loc hi =>
    Walks.first hL e2 e3 e4 hn (Apply.init_inv hn e1).inside ha hb (.inr rfl) (.inr rfl) hj pick stop genIds asserts twists counter i hi⟩

/-- Three qubits. -/
example : ∃ L s, makeCompact 3 {} true = .ok L ∧ DSlice.init L [0, 1, 2] = .ok s ∧ ∀ pick, ∃ x,
    apply ⟨false, false, true, true, L, Router.dpRouter L pick false false⟩ ⟨s, (), 1⟩ { op := .multi [(1, .Z), (2, .Z)] false none } = .ok x ∧ x.err = false ∧ x.followups = [] := by
  obtain ⟨L, s, h1, h2, h3⟩ := c79_compact_measure 3 {} true [0, 1, 2] (by decide) (by decide)
  exact ⟨L, s, h1, h2, fun pick => h3 1 (by decide) 2 (by decide) pick false false true true 1 _ _ _ rfl⟩

end Verif.Layouts.Spec
