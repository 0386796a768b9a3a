import Verif.QuantumRoute
import Verif.RouterProps

/-! # What long-range Bell instructions do to the qubits (C55) -/

namespace Verif.Quantum.Spec

open Verif Apply Verif.Wave Verif.Slices.Spec
open Verif.Router.Spec (Offers RealEnds)

variable {ρ : Type} {ctx : Ctx ρ}

/-- The operations do a CNOT from the patch on `ctl` to the patch on `tgt` with the help of the cells between: over any field in
which 2 is not 0, however each operation is carried out and whatever the outcomes. All they need is that joint X can be measured where the
cells between reach the target and joint Z where they reach the control. -/
def CnotVia (tgt ctl : Cell) (mid : List Cell) (ops : List LocalInstr) (sides : Sides → Prop) : Prop :=
  ∀ (K : Type) [Field K] (w : K), (2 : K) ≠ 0 → ∀ (sd : Sides), sides sd → ∀ x, LDoes w sd ops x [tgt, ctl] mid [] [ctl, tgt] (gateCX ctl tgt)

/-- The operations prepare a Bell pair in the first and the last cell of the route, whatever the outcomes. -/
def PairVia (a b : Cell) (mid : List Cell) (ops : List LocalInstr) : Prop :=
  ∀ (K : Type) [Field K] (w : K), (2 : K) ≠ 0 → ∀ (sd : Sides) (x : Nat → Run), LDoes w sd ops x [] (a :: mid ++ [b]) [a, b] [b] (bellPair a b)

/-- The sides over which a CNOT starts. -/
def CnotSides (tgt ctl : Cell) (mid : List Cell) (sd : Sides) : Prop :=
  (∀ u, mid.head? = some u → sd tgt u = some .X) ∧ ∀ v, mid.getLast? = some v → sd ctl v = some .Z

/-- Joint measurements are possible over the sides patches have in the slice. -/
def SidesOf (s : DSlice) (sd : Sides) : Prop := ∀ a b op, Offers s a b op → sd a b = some op

theorem ends_of {mid : List Cell} (h : 2 ≤ mid.length) : ∃ u v, mid.head? = some u ∧ mid.getLast? = some v := by
  cases mid with
  | nil => simp at h
  | cons a l => exact ⟨a, (a :: l).getLast (by simp), rfl, List.getLast?_eq_getLast_of_ne_nil (by simp)⟩

theorem built_does {t c : Cell} {mid : List Cell} {sets : List (List LocalInstr)} (hn : (t :: mid ++ [c]).Nodup) (hl : 2 ≤ mid.length) (h : Built (t :: mid ++ [c]) sets) :
    CnotVia t c mid sets.flatten (CnotSides t c mid) := by
  intro K _ w h2 sd hsd x
  obtain ⟨u, v, hu, hv⟩ := ends_of hl
  rcases h with ⟨cn, l, h1, rfl⟩ | ⟨cn, s, e, p, h1, h3, rfl⟩
  · simpa using compileWhole_does (w := w) h2 hn hl h1 hu hv (hsd.1 u hu) (hsd.2 v hv) x
  · simpa using compileEdpc_does (w := w) h2 hn hl h1 h3 hu hv (hsd.1 u hu) (hsd.2 v hv) x

/-! ## All operations of an instruction -/

/-- C55 for CNOTs, with and without EDPC, for any router: the operations of a CNOT, whenever it has any, do the CNOT between the two
patches over the cells of the route, provided its cells are distinct. -/
theorem c55_cnot {i j : Instr} {c c' : BellCNOT} {sets : List (List LocalInstr)} (hi : i.op = .bellCnot c) (hp : Plain i) (ha : Attempt ctx i j)
    (hj : j.op = .bellCnot c') (hs : c'.localSets = some sets) :
    ∃ (rs rs' : ρ) (s : DSlice) (region : RoutingRegion) (ctl tgt : Cell), ctx.router.find rs s c.control .Z c.target .X = .ok (some region, rs') ∧
      s.cellById c.control = some ctl ∧ s.cellById c.target = some tgt ∧
      ((tgt :: region.cells.map (·.cell) ++ [ctl]).Nodup → CnotVia tgt ctl (region.cells.map (·.cell)) sets.flatten (CnotSides tgt ctl (region.cells.map (·.cell)))) := by
  obtain ⟨_, ⟨rs, rs', s, region, a, b, h1, h2, h3, h4, rfl⟩, hb⟩ := cnot_built hi hp ha hj hs
  exact ⟨rs, rs', s, region, a, b, h1, h3, h4, fun hn => built_does hn (by simpa using h2) hb⟩

/-- The Bell pair has been compiled for a route. -/
def BellStage (ctx : Ctx ρ) (b b' : BellInit) : Prop :=
  (b' = b ∧ b'.counter = none ∧ b'.localInstrs = none) ∨
  ∃ (rs rs' : ρ) (s : DSlice) (region : RoutingRegion) (ls : List LocalInstr) (w : Nat × Nat), ctx.router.find rs s b.loc1.target b.loc1.op b.loc2.target b.loc2.op = .ok (some region, rs') ∧
    2 ≤ region.cells.length ∧ bellInitLocals b (region.cells.map (·.cell)) = .ok ls ∧ b'.localInstrs = some ls ∧ b'.counter = some w

theorem bellStage_apply {m : Mach ρ} {i : Instr} {r : Res (Mach ρ)} {b b' : BellInit} (hi : i.op = .bell b') (hs : BellStage ctx b b')
    (h : Apply.apply ctx m i = .ok r) : ∃ b'', r.instr.op = .bell b'' ∧ BellStage ctx b b'' := by
  unfold Apply.apply at h
  rw [hi] at h
  dsimp only at h
  rcases applyBell_ok h with hu | ⟨w, ls, h1, h2, h⟩ | ⟨h1, region, rs, ls, h2, h3, h4, h⟩
  · exact ⟨b', by rw [hu.1, hi], hs⟩
  · obtain ⟨n, -, g, -⟩ := bellInitRun_ok h
    refine ⟨_, congrArg Instr.op g, ?_⟩
    rcases hs with ⟨-, k1, -⟩ | ⟨rs, rs', s, region, ls', w', k1, k2, k3, k4, k5⟩
    · rw [h1] at k1; cases k1
    · rw [h2] at k4
      cases k4
      exact .inr ⟨rs, rs', s, region, ls, _, k1, k2, k3, rfl, rfl⟩
  · obtain ⟨n, -, g, -⟩ := bellInitRun_ok h
    refine ⟨_, congrArg Instr.op g, ?_⟩
    rcases hs with ⟨rfl, -, -⟩ | ⟨_, _, _, _, _, _, -, -, -, -, k5⟩
    · exact .inr ⟨_, _, _, region, ls, _, h2, h3, h4, rfl, rfl⟩
    · rw [h1] at k5; cases k5

theorem bell_does {b : BellInit} {route : List Cell} {ls : List LocalInstr} (hl : 2 ≤ route.length) (hn : route.Nodup) (h : bellInitLocals b route = .ok ls) :
    ∃ p q mid, route = p :: mid ++ [q] ∧ PairVia p q mid ls := by
  obtain ⟨p, mid, q, rfl⟩ : ∃ p mid q, route = p :: mid ++ [q] := by
    cases route with
    | nil => simp at hl
    | cons p l =>
      rcases List.eq_nil_or_concat l with rfl | ⟨mid, q, rfl⟩
      · simp at hl
      · exact ⟨p, mid, q, by simp⟩
  exact ⟨p, q, mid, rfl, fun K _ w h2 sd x => bellInit_does h2 hn h x⟩

/-- C55 for Bell pairs, for any router: the operations of a Bell pair instruction, whenever it has any, prepare a Bell pair in the two
ends of the route, provided the cells of the route are distinct. -/
theorem c55_bell {i j : Instr} {b b' : BellInit} {ls : List LocalInstr} (hi : i.op = .bell b) (hp : Plain i) (ha : Attempt ctx i j)
    (hj : j.op = .bell b') (hs : b'.localInstrs = some ls) :
    ∃ (rs rs' : ρ) (s : DSlice) (region : RoutingRegion), ctx.router.find rs s b.loc1.target b.loc1.op b.loc2.target b.loc2.op = .ok (some region, rs') ∧
      ((region.cells.map (·.cell)).Nodup → ∃ p q mid, region.cells.map (·.cell) = p :: mid ++ [q] ∧ PairVia p q mid ls) := by
  unfold Plain at hp
  rw [hi] at hp
  have key : ∃ b', j.op = .bell b' ∧ BellStage ctx b b' := by
    clear hj
    induction ha with
    | start => exact ⟨b, hi, .inl ⟨rfl, hp⟩⟩
    | next w _ hap ih =>
      obtain ⟨c1, h1, h2⟩ := ih
      exact bellStage_apply h1 h2 hap
  obtain ⟨b2, h1, h⟩ := key
  rw [hj] at h1
  cases h1
  rcases h with ⟨-, -, h⟩ | ⟨rs, rs', s, region, ls', w, k1, k2, k3, k4, -⟩
  · rw [hs] at h; cases h
  · rw [hs] at k4
    cases k4
    exact ⟨rs, rs', s, region, k1, fun hn => bell_does (by simpa using k2) hn k3⟩

/-! ## The operations that are shown -/

theorem cnot_remaining {m : Mach ρ} {i j : Instr} {c : BellCNOT} {r : Res (Mach ρ)} (hi : i.op = .bellCnot c) (h : Apply.apply ctx m i = .ok r) (hj : remaining r = [j]) : j = r.instr := by
  unfold Apply.apply at h
  rw [hi] at h
  dsimp only at h
  have two : r.followups = [] ∨ r.followups = [r.instr] := by
    rcases applyCnot_ok h with hu | ⟨-, h⟩ | ⟨-, h⟩
    · exact .inl hu.2.2
    · rcases applyCnotEdpc_ok h with hu | ⟨-, region, rs, a, b, region', -, -, -, -, -, -, -, g⟩ | ⟨region, e, p, -, -, -, -, -, -, g⟩ | ⟨region, pairs, phase, sets, -, -, -, -, h⟩
      · exact .inl hu.2.2
      · exact .inr g
      · exact .inl g
      · obtain ⟨w, k, ls, n, -, -, -, -, h | h | h⟩ := cnotPhase_ok h
        · exact .inr h.1
        · exact .inl h.2.2.1
        · exact .inr h.2.2.1
    · rcases applyCnotPlain_ok h with hu | ⟨pairs, sets, -, -, h⟩ | ⟨-, region, rs, region', l, -, -, -, -, h⟩
      · exact .inl hu.2.2
      all_goals
        obtain ⟨w, k, ps, ls, rest, n, -, -, -, -, -, g⟩ := cnotRun_ok h
        rcases g with g | g
        · exact .inl g.1
        · exact .inr g
  unfold remaining at hj
  rcases two with e | e <;> rw [e] at hj <;> dsimp only at hj
  · split at hj <;> cases hj; rfl
  · cases hj; rfl

theorem bell_remaining {m : Mach ρ} {i j : Instr} {b : BellInit} {r : Res (Mach ρ)} (hi : i.op = .bell b) (h : Apply.apply ctx m i = .ok r) (hj : remaining r = [j]) : j = r.instr := by
  unfold Apply.apply at h
  rw [hi] at h
  dsimp only at h
  have two : r.followups = [] ∨ r.followups = [r.instr] := by
    rcases applyBell_ok h with hu | ⟨w, ls, -, -, h⟩ | ⟨-, region, rs, ls, -, -, -, h⟩
    · exact .inl hu.2.2
    all_goals
      obtain ⟨n, -, -, -, g⟩ := bellInitRun_ok h
      rcases g with g | g
      · exact .inl g.1
      · exact .inr g
  unfold remaining at hj
  rcases two with e | e <;> rw [e] at hj <;> dsimp only at hj
  · split at hj <;> cases hj; rfl
  · cases hj; rfl

theorem worked_cnot_attempt {i0 i f : Instr} {c : BellCNOT} {ops : List LocalInstr} (h : Worked ctx i ops f) (hi : i.op = .bellCnot c) (ha : Attempt ctx i0 i) :
    ∃ j, Attempt ctx i0 j ∧ j.op = f.op := by
  induction h generalizing c with
  | last hap _ => exact ⟨_, .next 0 ha hap, rfl⟩
  | more w hap hrem _ ih =>
    have e := cnot_remaining hi hap hrem
    subst e
    obtain ⟨c', e', -⟩ : ∃ c', _ = Operation.bellCnot c' ∧ True := by
      unfold Apply.apply at hap
      rw [hi] at hap
      dsimp only at hap
      rcases applyCnot_ok hap with hu | ⟨-, h⟩ | ⟨-, h⟩
      · exact ⟨c, (congrArg Instr.op hu.1).trans hi, trivial⟩
      · rcases applyCnotEdpc_ok h with hu | ⟨-, region, rs, a, b, region', -, -, -, -, -, g, -⟩ | ⟨region, e, p, -, -, -, -, g, -⟩ | ⟨region, pairs, phase, sets, -, -, -, -, h⟩
        · exact ⟨c, (congrArg Instr.op hu.1).trans hi, trivial⟩
        · exact ⟨_, congrArg Instr.op g, trivial⟩
        · exact ⟨_, congrArg Instr.op g, trivial⟩
        · obtain ⟨w, k, ls, n, -, -, -, -, h | h | h⟩ := cnotPhase_ok h
          · exact ⟨_, congrArg Instr.op h.2, trivial⟩
          · exact ⟨_, congrArg Instr.op h.2.2.2, trivial⟩
          · exact ⟨_, congrArg Instr.op h.2.2.2, trivial⟩
      · rcases applyCnotPlain_ok h with hu | ⟨pairs, sets, -, -, h⟩ | ⟨-, region, rs, region', l, -, -, -, -, h⟩
        · exact ⟨c, (congrArg Instr.op hu.1).trans hi, trivial⟩
        all_goals
          obtain ⟨w, k, ps, ls, rest, n, -, -, -, g, -⟩ := cnotRun_ok h
          exact ⟨_, congrArg Instr.op g, trivial⟩
    exact ih e' (.next w ha hap)

theorem worked_bell_attempt {i0 i f : Instr} {b : BellInit} {ops : List LocalInstr} (h : Worked ctx i ops f) (hi : i.op = .bell b) (ha : Attempt ctx i0 i) :
    ∃ j, Attempt ctx i0 j ∧ j.op = f.op := by
  induction h generalizing b with
  | last hap _ => exact ⟨_, .next 0 ha hap, rfl⟩
  | more w hap hrem _ ih =>
    have e := bell_remaining hi hap hrem
    subst e
    obtain ⟨b', e', -⟩ : ∃ b', _ = Operation.bell b' ∧ True := by
      unfold Apply.apply at hap
      rw [hi] at hap
      dsimp only at hap
      rcases applyBell_ok hap with hu | ⟨w, ls, -, -, h⟩ | ⟨-, region, rs, ls, -, -, -, h⟩
      · exact ⟨b, (congrArg Instr.op hu.1).trans hi, trivial⟩
      all_goals
        obtain ⟨n, -, g, -⟩ := bellInitRun_ok h
        exact ⟨_, congrArg Instr.op g, trivial⟩
    exact ih e' (.next w ha hap)

/-- C55: what a CNOT shows over all slices in which it is worked on does the CNOT (without EDPC). -/
theorem c55_cnot_shown {i f : Instr} {c : BellCNOT} {ops : List LocalInstr} (he : ctx.router.edpc = false) (hi : i.op = .bellCnot c) (hp : Plain i) (h : Worked ctx i ops f) :
    ∃ (rs rs' : ρ) (s : DSlice) (region : RoutingRegion) (ctl tgt : Cell), ctx.router.find rs s c.control .Z c.target .X = .ok (some region, rs') ∧
      s.cellById c.control = some ctl ∧ s.cellById c.target = some tgt ∧
      ((tgt :: region.cells.map (·.cell) ++ [ctl]).Nodup → CnotVia tgt ctl (region.cells.map (·.cell)) ops (CnotSides tgt ctl (region.cells.map (·.cell)))) := by
  obtain ⟨-, c', h1, h2⟩ := c38_cnot he hi hp h
  obtain ⟨j, ha, hj⟩ := worked_cnot_attempt h hi .start
  simpa using c55_cnot hi hp ha (hj.trans h1) h2

/-- C55 with EDPC, partial: what is shown does the CNOT except when there is an operation in the second round of the second phase but none in
the first (`c38_edpc_skipped`: then that round is not shown). -/
theorem c55_edpc_shown_partial {i f : Instr} {c : BellCNOT} {ops : List LocalInstr} (he : ctx.router.edpc = true) (hi : i.op = .bellCnot c) (hp : Plain i) (h : Worked ctx i ops f) :
    ∃ (rs rs' : ρ) (s : DSlice) (region : RoutingRegion) (ctl tgt : Cell) (s0 s1 s2 s3 : List LocalInstr), ctx.router.find rs s c.control .Z c.target .X = .ok (some region, rs') ∧
      s.cellById c.control = some ctl ∧ s.cellById c.target = some tgt ∧ allLocals f.op = s0 ++ s1 ++ s2 ++ s3 ∧
      ((tgt :: region.cells.map (·.cell) ++ [ctl]).Nodup → (s2 = [] → s3 = []) →
        CnotVia tgt ctl (region.cells.map (·.cell)) ops (CnotSides tgt ctl (region.cells.map (·.cell)))) := by
  obtain ⟨c', s0, s1, s2, s3, h1, h2, -, h3⟩ := c38_edpc_partial he hi hp h
  obtain ⟨j, ha, hj⟩ := worked_cnot_attempt h hi .start
  obtain ⟨rs, rs', s, region, a, b, g1, g2, g3, g4⟩ := c55_cnot hi hp ha (hj.trans h1) h2
  have e : allLocals f.op = [s0, s1, s2, s3].flatten := by rw [h1]; simp [allLocals, h2]
  refine ⟨rs, rs', s, region, a, b, s0, s1, s2, s3, g1, g2, g3, by rw [e]; simp, fun hn hs => ?_⟩
  rw [h3 hs, e]
  exact g4 hn

/-- C55: what a Bell pair instruction shows over all slices in which it is worked on prepares the pair. -/
theorem c55_bell_shown {i f : Instr} {b : BellInit} {ops : List LocalInstr} (hi : i.op = .bell b) (hp : Plain i) (h : Worked ctx i ops f) :
    ∃ (rs rs' : ρ) (s : DSlice) (region : RoutingRegion), ctx.router.find rs s b.loc1.target b.loc1.op b.loc2.target b.loc2.op = .ok (some region, rs') ∧
      ((region.cells.map (·.cell)).Nodup → ∃ p q mid, region.cells.map (·.cell) = p :: mid ++ [q] ∧ PairVia p q mid ops) := by
  obtain ⟨-, b', h1, h2⟩ := c38_bell hi hp h
  obtain ⟨j, ha, hj⟩ := worked_bell_attempt h hi .start
  exact c55_bell hi hp ha (hj.trans h1) h2

/-! ## With the router of the code -/

theorem dp_find {L : Layout} {pick : Search.Pick} {stop edpc : Bool} {rs rs' : Unit} {s : DSlice} {a b : Nat} {p q : Pauli} {region : RoutingRegion}
    (h : (Router.dpRouter L pick stop edpc).find rs s a p b q = .ok (some region, rs')) : Router.find L pick stop edpc s a p b q = .ok (some region) := by
  obtain ⟨o, h1, h2⟩ := Outcome.bind_eq_ok.1 h
  cases h2
  exact h1

/-- A route of the router suits a CNOT. -/
theorem route_suits {L : Layout} {pick : Search.Pick} {stop edpc : Bool} {s : DSlice} {c : BellCNOT} {region : RoutingRegion} {ctl tgt : Cell}
    (hf : Router.Spec.Fits L s) (hr : RealEnds edpc s c.control c.target) (hne : c.control ≠ c.target)
    (h : Router.find L pick stop edpc s c.control .Z c.target .X = .ok (some region)) (h1 : s.cellById c.control = some ctl) (h2 : s.cellById c.target = some tgt) :
    (tgt :: region.cells.map (·.cell) ++ [ctl]).Nodup ∧ ∀ sd, SidesOf s sd → CnotSides tgt ctl (region.cells.map (·.cell)) sd := by
  obtain ⟨a, b, hx, hy, hrun⟩ := Router.Spec.find_cases h
  rw [h1] at hx; cases hx
  rw [h2] at hy; cases hy
  have hg := Router.Spec.good_of (sop := .Z) (top := .X) hf hr h1 h2
  obtain ⟨s0, st, ts, _, _, hfound, rfl⟩ := Router.Query.run_some hg hrun
  obtain ⟨g1, g2, -⟩ := Router.Query.found_admissible hg hfound
  have hmap : (ts.map (Router.Query.regionCell ⟨L, s, ctl, tgt, .Z, .X, c.control == c.target, edpc⟩)).map (·.cell) =
      ts.map fun t => (Router.Query.cellOf ⟨L, s, ctl, tgt, .Z, .X, c.control == c.target, edpc⟩) t.2.1 := by
    rw [List.map_map]
    apply List.map_congr_left
    intro t _
    exact (Router.Query.join_spec (q := ⟨L, s, ctl, tgt, .Z, .X, c.control == c.target, edpc⟩)).1
  rw [← hmap] at g1 g2
  have hc := Router.Spec.holds_of h1
  have ht := Router.Spec.holds_of h2
  have n1 := Router.Spec.held hr hc (.inl rfl)
  have n2 := Router.Spec.held hr ht (.inr rfl)
  have hct : tgt ≠ ctl := by
    rintro rfl
    obtain ⟨_, _, _, _, p, hp, hi⟩ := hc
    obtain ⟨_, _, _, _, p', hp', hi'⟩ := ht
    rw [hp] at hp'; cases hp'; rw [hi] at hi'; exact hne (Option.some.inj hi')
  refine ⟨?_, fun sd hsd => ⟨fun u hu => ?_, fun v hv => ?_⟩⟩
  · rw [List.cons_append, List.nodup_cons, List.nodup_append]
    refine ⟨?_, g2, by simp, ?_⟩
    · intro hm
      rcases List.mem_append.1 hm with hm | hm
      · exact n2 (g1.clear _ hm)
      · simp at hm; exact hct hm
    · intro x hx y hy e
      simp at hy
      subst hy; subst e
      exact n1 (g1.clear _ hx)
  · exact hsd _ _ _ (g1.toTgt u (by rw [List.head?_append, hu]; rfl))
  · exact hsd _ _ _ (g1.fromSrc v (by rw [← List.singleton_append, List.getLast?_append, hv]; rfl))

/-- C55: with the search of the code, the operations of a CNOT between two different patches do the CNOT, on every slice of the size of the layout
and over the sides the patches have there. The cells between are free in that slice, or hold routing marks with EDPC. -/
theorem c55_cnot_routed {ctx : Ctx Unit} {L : Layout} {pick : Search.Pick} {stop edpc : Bool} (hc : ctx.router = Router.dpRouter L pick stop edpc) {i j : Instr} {c c' : BellCNOT}
    {sets : List (List LocalInstr)} (hi : i.op = .bellCnot c) (hp : Plain i) (hne : c.control ≠ c.target) (ha : Attempt ctx i j) (hj : j.op = .bellCnot c') (hs : c'.localSets = some sets) :
    ∃ (s : DSlice) (region : RoutingRegion) (ctl tgt : Cell), Router.find L pick stop edpc s c.control .Z c.target .X = .ok (some region) ∧
      s.cellById c.control = some ctl ∧ s.cellById c.target = some tgt ∧
      (Router.Spec.Fits L s → RealEnds edpc s c.control c.target →
        (∀ q ∈ region.cells.map (·.cell), Router.Spec.Passable edpc s q) ∧ CnotVia tgt ctl (region.cells.map (·.cell)) sets.flatten (SidesOf s)) := by
  obtain ⟨rs, rs', s, region, a, b, g1, g2, g3, g4⟩ := c55_cnot hi hp ha hj hs
  rw [hc] at g1
  have g1 := dp_find g1
  refine ⟨s, region, a, b, g1, g2, g3, fun hf hr => ?_⟩
  obtain ⟨n1, n2⟩ := route_suits hf hr hne g1 g2 g3
  obtain ⟨_, _, -, -, adm, -⟩ := Router.Spec.c33_route hf hr g1
  exact ⟨adm.clear, fun K _ w h2 sd hsd x => g4 n1 K w h2 sd (n2 sd hsd) x⟩

/-- C55: with the search of the code, the operations of a Bell pair instruction prepare a Bell pair in the ends of the route. -/
theorem c55_bell_routed {ctx : Ctx Unit} {L : Layout} {pick : Search.Pick} {stop edpc : Bool} (hc : ctx.router = Router.dpRouter L pick stop edpc) {i j : Instr} {b b' : BellInit}
    {ls : List LocalInstr} (hi : i.op = .bell b) (hp : Plain i) (ha : Attempt ctx i j) (hj : j.op = .bell b') (hs : b'.localInstrs = some ls) :
    ∃ (s : DSlice) (region : RoutingRegion), Router.find L pick stop edpc s b.loc1.target b.loc1.op b.loc2.target b.loc2.op = .ok (some region) ∧
      (Router.Spec.Fits L s → RealEnds edpc s b.loc1.target b.loc2.target →
        ∃ p q mid, region.cells.map (·.cell) = p :: mid ++ [q] ∧ (∀ x ∈ p :: mid ++ [q], Router.Spec.Passable edpc s x) ∧ PairVia p q mid ls) := by
  obtain ⟨rs, rs', s, region, g1, g2⟩ := c55_bell hi hp ha hj hs
  rw [hc] at g1
  have g1 := dp_find g1
  refine ⟨s, region, g1, fun hf hr => ?_⟩
  obtain ⟨_, _, -, -, adm, nd, -⟩ := Router.Spec.c33_route hf hr g1
  obtain ⟨p, q, mid, e1, e2⟩ := g2 nd
  exact ⟨p, q, mid, e1, by rw [← e1]; exact adm.clear, e2⟩

/-! ## Examples -/

open Verif.Router.Spec (gapLayout gapSlice gap_fits)

def nextTo (a : Cell) : CellDirection → Cell
  | .top => ⟨a.row - 1, a.col⟩
  | .bottom => ⟨a.row + 1, a.col⟩
  | .left => ⟨a.row, a.col - 1⟩
  | .right => ⟨a.row, a.col + 1⟩

/-- The sides of the patches in a slice, read off. -/
def sidesIn (s : DSlice) : Sides := fun a b =>
  match s.cells a, [CellDirection.top, .bottom, .left, .right].find? fun d => nextTo a d == b with
  | some p, some d => match (p.bounds.get d).ty with
    | .rough => some .X
    | .smooth => some .Z
    | _ => none
  | _, _ => none

/-- Every slice has sides. -/
example (s : DSlice) : SidesOf s (sidesIn s) := by
  rintro a b op ⟨p, d, hp, hd, h⟩
  obtain ⟨r, k⟩ := a
  obtain rfl : b = nextTo ⟨r, k⟩ d := by
    obtain ⟨r', k'⟩ := b
    cases d <;> obtain ⟨h1, h2⟩ := hd <;> dsimp only at h1 h2 <;> rw [h1, h2] <;> rfl
  have hx : ∀ d', (nextTo ⟨r, k⟩ d' == nextTo ⟨r, k⟩ d) = (d' == d) := by
    intro d'
    rw [Bool.eq_iff_iff, beq_iff_eq, beq_iff_eq]
    constructor
    · cases d' <;> cases d <;> simp only [nextTo, Cell.mk.injEq] <;> intro h <;> first | rfl | omega
    · rintro rfl; rfl
  have hf : ([CellDirection.top, .bottom, .left, .right].find? fun d' => nextTo ⟨r, k⟩ d' == nextTo ⟨r, k⟩ d) = some d := by
    simp only [hx]
    cases d <;> rfl
  unfold sidesIn
  rw [hp, hf]
  dsimp only
  rcases h with ⟨rfl, e⟩ | ⟨rfl, e⟩ <;> rw [e]

/-- A context with the search of the code, and a CNOT there. -/
def gapCtx (edpc : Bool) : Ctx Unit :=
  { localInstrs := true, twists := false, genIds := true, asserts := true, layout := gapLayout, router := Router.dpRouter gapLayout Router.pickMin false edpc }

def gapCnot : Instr := { op := .bellCnot { control := 8, target := 7, side1 := 11, side2 := 12 } }

def setsOf (o : Outcome (Res (Mach Unit))) : Option (List (List LocalInstr)) :=
  match o with
  | .ok r => match r.instr.op with
    | .bellCnot c => c.localSets
    | _ => none
  | _ => none

/-- c55_cnot, c55_cnot_routed: a CNOT between patches 7 and 8 round the corner. -/
example : ∃ j c' sets, Attempt (gapCtx false) gapCnot j ∧ j.op = .bellCnot c' ∧ c'.localSets = some sets ∧ Plain gapCnot ∧ sets.flatten.length = 5 ∧ sets.length = 1 ∧
    Router.Spec.Fits gapLayout (gapSlice []) := by
  have h : (setsOf (Apply.apply (gapCtx false) ⟨gapSlice [], (), 1⟩ gapCnot)).map (fun l => (l.flatten.length, l.length)) = some (5, 1) := by decide +kernel
  cases ha : Apply.apply (gapCtx false) ⟨gapSlice [], (), 1⟩ gapCnot with
  | ok r =>
    rw [ha] at h
    unfold setsOf at h
    dsimp only at h
    split at h
    · rename_i c' hc
      cases hs : c'.localSets with
      | none => rw [hs] at h; cases h
      | some sets =>
        rw [hs] at h
        simp only [Option.map_some, Option.some.injEq, Prod.mk.injEq] at h
        exact ⟨_, c', sets, .next 0 .start ha, hc, hs, ⟨rfl, rfl, rfl, rfl⟩, h.1, h.2, gap_fits _⟩
    · cases h
  | throws => rw [ha] at h; cases h
  | ub => rw [ha] at h; cases h

/-- c55_cnot: along a route of six cells the sides alone decide. -/
example (w : ℚ) (x : Nat → Run) : LDoes w (fun a _ => if a.col = 0 then some .X else some .Z)
    [.bellPrepare (some 12) none ⟨0, 1⟩ ⟨0, 2⟩, .bellPrepare none (some 11) ⟨0, 3⟩ ⟨0, 4⟩,
     .mergeContract ⟨0, 5⟩ ⟨0, 4⟩, .mergeContract ⟨0, 0⟩ ⟨0, 1⟩, .bellMeasure ⟨0, 2⟩ ⟨0, 3⟩] x
    [⟨0, 0⟩, ⟨0, 5⟩] [⟨0, 1⟩, ⟨0, 2⟩, ⟨0, 3⟩, ⟨0, 4⟩] [] [⟨0, 5⟩, ⟨0, 0⟩] (gateCX ⟨0, 5⟩ ⟨0, 0⟩) :=
  compileWhole_does (cn := { control := 8, target := 7, side1 := 11, side2 := 12 }) (t := ⟨0, 0⟩) (c := ⟨0, 5⟩) (mid := [⟨0, 1⟩, ⟨0, 2⟩, ⟨0, 3⟩, ⟨0, 4⟩])
    (l := ⟨[.bellPrepare (some 12) none ⟨0, 1⟩ ⟨0, 2⟩, .bellPrepare none (some 11) ⟨0, 3⟩ ⟨0, 4⟩],
      [.mergeContract ⟨0, 5⟩ ⟨0, 4⟩, .mergeContract ⟨0, 0⟩ ⟨0, 1⟩, .bellMeasure ⟨0, 2⟩ ⟨0, 3⟩]⟩)
    (by norm_num) (by decide) (by decide) rfl rfl rfl rfl rfl x

/-- c55_cnot_shown, c55_bell_shown: the hypotheses are those of c38_cnot and c38_bell, with the same examples; the route there has distinct cells. -/
example : ((⟨0, 0⟩ : Cell) :: [laneCell 1, laneCell 2].map OccCell.cell ++ [(⟨0, 3⟩ : Cell)]).Nodup := by decide

/-- A Bell pair on an empty grid: both qubits zero or both one, with equal amplitudes. -/
example : bellPair (K := ℚ) ⟨0, 1⟩ ⟨0, 4⟩ (fun b => if b ⟨0, 1⟩ || b ⟨0, 4⟩ then 0 else 1) (fun q => q == ⟨0, 1⟩ || q == ⟨0, 4⟩) = 1 ∧
    bellPair (K := ℚ) ⟨0, 1⟩ ⟨0, 4⟩ (fun b => if b ⟨0, 1⟩ || b ⟨0, 4⟩ then 0 else 1) (fun _ => false) = 1 ∧
    bellPair (K := ℚ) ⟨0, 1⟩ ⟨0, 4⟩ (fun b => if b ⟨0, 1⟩ || b ⟨0, 4⟩ then 0 else 1) (fun q => q == ⟨0, 4⟩) = 0 := by
  refine ⟨?_, ?_, ?_⟩ <;> simp [bellPair, gateCX, prepare, flip, upd]

end Verif.Quantum.Spec
