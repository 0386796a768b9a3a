import Verif.BellRun
import Verif.SliceProps
import Verif.Lli

/-! # Long-range Bell operations (C37, C38) -/

namespace Verif.Slices.Spec

open Verif Apply Verif.Wave

/-! ## C37: where the local operations act -/

/-- Every operation acts on two consecutive cells of the route, and every two consecutive cells are acted on by exactly
one operation. -/
def OnPath (route : List Cell) (ls : List LocalInstr) : Prop :=
  ∃ ks : List Nat, ks.Perm (List.range (route.length - 1)) ∧ ks.length = ls.length ∧
    ∀ (n : Nat) (i : LocalInstr) (k : Nat), ls[n]? = some i → ks[n]? = some k → ∃ a b, route[k]? = some a ∧ route[k + 1]? = some b ∧ (touched i = [a, b] ∨ touched i = [b, a])

/-- No cell is acted on twice. -/
def Parallel (ls : List LocalInstr) : Prop := (ls.flatMap touched).Nodup

/-- The instruction `j` is what is left of `i` after some attempts on any machine states, with any waiting budget. -/
inductive Attempt {ρ : Type} (ctx : Ctx ρ) (i : Instr) : Instr → Prop
  | start : Attempt ctx i i
  | next {m : Mach ρ} {j : Instr} {r : Res (Mach ρ)} (w : Nat) : Attempt ctx i j → Apply.apply ctx m j = .ok r → Attempt ctx i { r.instr with wait := w }

section

variable {ρ : Type} {ctx : Ctx ρ}

theorem along_length {route : List Cell} {ks : List Nat} {is : List LocalInstr} (h : Along route ks is) : ks.length = is.length := by
  induction h with
  | nil => rfl
  | cons _ _ ih => simp [ih]

theorem along_get {route : List Cell} {ks : List Nat} {is : List LocalInstr} (h : Along route ks is) {n k : Nat} {i : LocalInstr} (h1 : is[n]? = some i) (h2 : ks[n]? = some k) :
    Uses route k i := by
  induction h generalizing n with
  | nil => simp at h1
  | cons hu _ ih =>
    cases n with
    | zero => simp at h1 h2; subst h1; subst h2; exact hu
    | succ n => simp at h1 h2; exact ih h1 h2

theorem along_onPath {route : List Cell} {ks : List Nat} {is : List LocalInstr} (h : Along route ks is) (hc : ∀ k, ks.count k = if k < route.length - 1 then 1 else 0) :
    OnPath route is := by
  refine ⟨ks, ?_, along_length h, fun n i k h1 h2 => along_get h h1 h2⟩
  rw [List.perm_iff_count]
  intro k
  rw [hc k, List.count_range]

theorem uses_mem {route : List Cell} {k : Nat} {i : LocalInstr} (h : Uses route k i) {c : Cell} (hc : c ∈ touched i) : route[k]? = some c ∨ route[k + 1]? = some c := by
  obtain ⟨a, b, h1, h2, h3 | h3⟩ := h <;> rw [h3] at hc <;> simp only [List.mem_cons, List.not_mem_nil, or_false] at hc <;>
    rcases hc with rfl | rfl <;> simp [h1, h2]

theorem nodup_get {route : List Cell} (hn : route.Nodup) {i j : Nat} {c : Cell} (h1 : route[i]? = some c) (h2 : route[j]? = some c) : i = j := by
  obtain ⟨hi, e1⟩ := List.getElem?_eq_some_iff.1 h1
  obtain ⟨hj, e2⟩ := List.getElem?_eq_some_iff.1 h2
  exact (List.getElem_inj hn).1 (e1.trans e2.symm)

theorem along_mem {route : List Cell} {ks : List Nat} {is : List LocalInstr} (h : Along route ks is) {c : Cell} (hc : c ∈ is.flatMap touched) :
    ∃ k ∈ ks, route[k]? = some c ∨ route[k + 1]? = some c := by
  induction h with
  | nil => simp at hc
  | cons hu _ ih =>
    simp only [List.flatMap_cons, List.mem_append] at hc
    rcases hc with hc | hc
    · exact ⟨_, by simp, uses_mem hu hc⟩
    · obtain ⟨k, h1, h2⟩ := ih hc
      exact ⟨k, List.mem_cons_of_mem _ h1, h2⟩

theorem along_parallel {route : List Cell} (hn : route.Nodup) {ks : List Nat} {is : List LocalInstr} (h : Along route ks is) (ha : Apart ks) : Parallel is := by
  induction h with
  | nil => exact List.Pairwise.nil
  | cons hu hrest ih =>
    rename_i k i ks is
    obtain ⟨ha1, ha2⟩ := List.pairwise_cons.1 ha
    unfold Parallel
    rw [List.flatMap_cons, List.nodup_append]
    refine ⟨?_, ih ha2, ?_⟩
    · obtain ⟨a, b, h1, h2, h3⟩ := hu
      have hab : a ≠ b := by
        rintro rfl
        have := nodup_get hn h1 h2
        omega
      rcases h3 with h3 | h3 <;> rw [h3] <;> simp [hab, Ne.symm hab]
    · rintro c hc d hd rfl
      obtain ⟨k', hk', h4⟩ := along_mem hrest hd
      have := ha1 k' hk'
      rcases uses_mem hu hc with h5 | h5 <;> rcases h4 with h4 | h4 <;> have := nodup_get hn h5 h4 <;> omega

/-- Compiling a Bell pair over any route of at least two cells is defined: no index is out of range. -/
theorem c37_bell_defined (b : BellInit) (route : List Cell) (h : 2 ≤ route.length) : ∃ ls, bellInitLocals b route = .ok ls ∧ OnPath route ls ∧
    (route.Nodup → ∃ l1 l2, ls = l1 ++ l2 ∧ Parallel l1 ∧ Parallel l2) := by
  obtain ⟨l, k1, k2, h1, h2, h3, h4⟩ := compile_ok (ty := .prep) (route := route) (a := 0) (e := route.length - 1) (rev := false) (p := some b.side1) (q := some b.side2) (l := {})
    (by omega) (by omega)
  obtain ⟨i1, i2⟩ := h2.phased1
  have hs := h3.splits h4
  refine ⟨l.l1 ++ l.l2, by unfold bellInitLocals; rw [h1]; rfl, along_onPath (i1.append i2) ?_, fun hn => ⟨_, _, rfl, along_parallel hn i1 hs.1, along_parallel hn i2 hs.2.1⟩⟩
  intro k
  rw [hs.2.2 k]
  simp

/-- C37 for Bell pairs: whatever operations an instruction has after its first attempt, they act along the route the
router gave, one operation for every two consecutive cells, in two rounds of operations on disjoint cells. -/
theorem c37_bell {m : Mach ρ} {i : Instr} {r : Res (Mach ρ)} {b b' : BellInit} {ls : List LocalInstr} (hi : i.op = .bell b) (hp : Plain i)
    (h : Apply.apply ctx m i = .ok r) (hr : r.instr.op = .bell b') (hl : b'.localInstrs = some ls) :
    ∃ region rs, ctx.router.find m.rs m.slice b.loc1.target b.loc1.op b.loc2.target b.loc2.op = .ok (some region, rs) ∧ OnPath (region.cells.map (·.cell)) ls ∧
      ((region.cells.map (·.cell)).Nodup → ∃ l1 l2, ls = l1 ++ l2 ∧ Parallel l1 ∧ Parallel l2) := by
  unfold Plain at hp
  rw [hi] at hp
  unfold Apply.apply at h
  rw [hi] at h
  dsimp only at h
  rcases applyBell_ok h with hu | ⟨w, ls', h1, -, -⟩ | ⟨-, region, rs, ls', h1, h2, h3, h4⟩
  · rw [hu.1, hi] at hr
    cases hr
    rw [hp.2] at hl
    cases hl
  · rw [hp.1] at h1; cases h1
  · refine ⟨region, rs, h1, ?_⟩
    obtain ⟨n, -, g, -⟩ := bellInitRun_ok h4
    rw [g] at hr
    cases hr
    cases hl
    obtain ⟨ls, e1, e2⟩ := c37_bell_defined b (region.cells.map (·.cell)) (by simpa using h2)
    rw [h3] at e1
    cases e1
    exact e2

/-- The route of a CNOT: from the target patch along the cells the router gave to the control patch. -/
def CnotRoute (ctx : Ctx ρ) (c : BellCNOT) (route : List Cell) : Prop :=
  ∃ (rs rs' : ρ) (s : DSlice) (region : RoutingRegion) (a b : Cell), ctx.router.find rs s c.control .Z c.target .X = .ok (some region, rs') ∧ 2 ≤ region.cells.length ∧
    s.cellById c.control = some a ∧ s.cellById c.target = some b ∧ route = b :: region.cells.map (·.cell) ++ [a]

/-- The operations fit the route: along it, in at most four rounds of operations on disjoint cells. -/
def Compiled (route : List Cell) (sets : List (List LocalInstr)) : Prop :=
  OnPath route sets.flatten ∧ (route.Nodup → ∃ rounds : List (List LocalInstr), rounds.flatten = sets.flatten ∧ rounds.length ≤ 4 ∧ ∀ l ∈ rounds, Parallel l)

/-- The operations come from compiling the route, as a whole or in segments. -/
def Built (route : List Cell) (sets : List (List LocalInstr)) : Prop :=
  (∃ c l, compileWhole c route {} = .ok l ∧ sets = [l.l1 ++ l.l2]) ∨
  ∃ c s e p, endpoints s route = .ok e ∧ compileEdpc c route e.1 e.2 = .ok p ∧ sets = [p.p1.l1, p.p1.l2, p.p2.l1, p.p2.l2]

/-- Where an attempted CNOT can be. -/
def Stage (ctx : Ctx ρ) (c c' : BellCNOT) : Prop :=
  c'.control = c.control ∧ c'.target = c.target ∧
  (c'.route = none ∧ c'.counterPairs = none ∧ c'.localSets = none ∨
   (∃ region, c'.route = some region ∧ CnotRoute ctx c (region.cells.map (·.cell))) ∧ c'.counterPairs = none ∧ c'.localSets = none ∨
   ∃ route sets pairs, CnotRoute ctx c route ∧ c'.localSets = some sets ∧ c'.counterPairs = some pairs ∧ Built route sets)

theorem route_length {c : BellCNOT} {route : List Cell} (h : CnotRoute ctx c route) : 4 ≤ route.length := by
  obtain ⟨rs, rs', s, region, a, b, -, h1, -, -, rfl⟩ := h
  simp
  omega

theorem upto_compiled {route : List Cell} {p : Phases} {a b c d : List Nat} (h : Upto route p (route.length - 1) .none a b c d) :
    Compiled route [p.p1.l1, p.p1.l2, p.p2.l1, p.p2.l2] := by
  constructor
  · have := along_onPath (((h.ph.a.append h.ph.b).append h.ph.c).append h.ph.d) h.count
    simpa using this
  · intro hn
    refine ⟨_, rfl, by simp, ?_⟩
    intro l hl
    simp only [List.mem_cons, List.not_mem_nil, or_false] at hl
    rcases hl with rfl | rfl | rfl | rfl
    · exact along_parallel hn h.ph.a h.apart.1
    · exact along_parallel hn h.ph.b h.apart.2.1
    · exact along_parallel hn h.ph.c h.apart.2.2.1
    · exact along_parallel hn h.ph.d h.apart.2.2.2

theorem whole_compiled {c : BellCNOT} {route : List Cell} {l : Layers} (h : 4 ≤ route.length) (hl : compileWhole c route {} = .ok l) : Compiled route [l.l1 ++ l.l2] := by
  obtain ⟨l', k1, k2, h1, h2, h3, h4⟩ := compileWhole_ok (c := c) (l := {}) h
  rw [hl] at h1
  cases h1
  obtain ⟨i1, i2⟩ := h2.phased1
  have hs := h4.splits (h3.congr (c' := 0 + 1) rfl)
  constructor
  · have := along_onPath (i1.append i2) (fun k => by
      have := hs.2.2 k
      simp only [List.count_append, Nat.zero_le, true_and] at this ⊢
      omega)
    simpa using this
  · intro hn
    refine ⟨[l.l1, l.l2], by simp, by simp, ?_⟩
    intro x hx
    simp only [List.mem_cons, List.not_mem_nil, or_false] at hx
    rcases hx with rfl | rfl
    · exact along_parallel hn i1 h3.apart
    · exact along_parallel hn i2 h4.apart

theorem built_compiled {route : List Cell} {sets : List (List LocalInstr)} (h : 4 ≤ route.length) : Built route sets → Compiled route sets := by
  rintro (⟨c, l, h1, rfl⟩ | ⟨c, s, e, p, h1, h2, rfl⟩)
  · exact whole_compiled h h1
  · obtain ⟨p', x1, x2, x3, x4, y1, y2⟩ := compileEdpc_ok (cn := c) h1 h (compileEdpc_labels h1 h2)
    rw [h2] at y1
    cases y1
    exact upto_compiled y2

theorem stage_apply {m : Mach ρ} {i : Instr} {r : Res (Mach ρ)} {c c' : BellCNOT} (hi : i.op = .bellCnot c') (hs : Stage ctx c c')
    (h : Apply.apply ctx m i = .ok r) : ∃ c'', r.instr.op = .bellCnot c'' ∧ Stage ctx c c'' := by
  unfold Apply.apply at h
  rw [hi] at h
  dsimp only at h
  obtain ⟨e1, e2, hs⟩ := hs
  rcases applyCnot_ok h with hu | ⟨-, h⟩ | ⟨-, h⟩
  · exact ⟨c', by rw [hu.1, hi], e1, e2, hs⟩
  · rcases applyCnotEdpc_ok h with hu | ⟨g1, region, rs, a, b, region', g2, g3, g4, g5, g6, g7, -⟩ | ⟨region, e, p, g1, g2, g3, g4, g5, -⟩ | ⟨region, pairs, phase, sets, g1, g2, g3, g4, h⟩
    · exact ⟨c', by rw [hu.1, hi], e1, e2, hs⟩
    · rcases hs with ⟨-, k2, k3⟩ | ⟨⟨_, k1, _⟩, -⟩ | hs
      · refine ⟨_, congrArg Instr.op g7, e1, e2, .inr (.inl ⟨⟨region', rfl, ?_⟩, k2, k3⟩)⟩
        rw [e1, e2] at g2
        rw [e1] at g4
        rw [e2] at g5
        exact ⟨_, _, _, region, a, b, g2, g3, g4, g5, g6⟩
      · rw [g1] at k1; cases k1
      · refine ⟨_, congrArg Instr.op g7, e1, e2, .inr (.inr hs)⟩
    · rcases hs with ⟨k1, -⟩ | ⟨⟨region2, k1, k2⟩, -⟩ | ⟨_, _, _, _, _, k, _⟩
      · rw [g1] at k1; cases k1
      · rw [g1] at k1
        cases k1
        exact ⟨_, congrArg Instr.op g5, e1, e2, .inr (.inr ⟨_, _, _, k2, rfl, rfl, .inr ⟨_, _, _, _, g3, g4, rfl⟩⟩)⟩
      · rw [g2] at k; cases k
    · rcases hs with ⟨k1, -⟩ | ⟨-, k1, -⟩ | ⟨route, sets', pairs', k1, k2, k3, k4⟩
      · rw [g1] at k1; cases k1
      · rw [g2] at k1; cases k1
      · rw [k2] at g4
        cases g4
        obtain ⟨w, k, ls, n, -, -, -, -, h | h | h⟩ := cnotPhase_ok h
        · exact ⟨_, congrArg Instr.op h.2, e1, e2, .inr (.inr ⟨route, sets, _, k1, k2, rfl, k4⟩)⟩
        · exact ⟨_, congrArg Instr.op h.2.2.2, e1, e2, .inr (.inr ⟨route, sets, _, k1, k2, rfl, k4⟩)⟩
        · exact ⟨_, congrArg Instr.op h.2.2.2, e1, e2, .inr (.inr ⟨route, sets, _, k1, k2, rfl, k4⟩)⟩
  · rcases applyCnotPlain_ok h with hu | ⟨pairs, sets, g1, g2, h⟩ | ⟨g1, region, rs, region', l, g2, g3, g4, g5, h⟩
    · exact ⟨c', by rw [hu.1, hi], e1, e2, hs⟩
    · obtain ⟨w, k, ps, ls, rest, n, -, -, -, g, -⟩ := cnotRun_ok h
      rcases hs with ⟨-, k1, -⟩ | ⟨-, k1, -⟩ | ⟨route, sets', pairs', k1, k2, k3, k4⟩
      · rw [g1] at k1; cases k1
      · rw [g1] at k1; cases k1
      · rw [k2] at g2
        cases g2
        exact ⟨_, congrArg Instr.op g, e1, e2, .inr (.inr ⟨route, sets, _, k1, rfl, rfl, k4⟩)⟩
    · obtain ⟨w, k, ps, ls, rest, n, -, -, -, g, -⟩ := cnotRun_ok h
      obtain ⟨a, b, w1, w2, w3⟩ := withEnds_ok g4
      rw [e1, e2] at g2
      rw [e1] at w1
      rw [e2] at w2
      have hr : CnotRoute ctx c (region'.cells.map (·.cell)) := ⟨_, _, _, region, a, b, g2, g3, w1, w2, w3⟩
      exact ⟨_, congrArg Instr.op g, e1, e2, .inr (.inr ⟨_, _, _, hr, rfl, rfl, .inl ⟨_, _, g5, rfl⟩⟩)⟩

theorem cnot_built {i j : Instr} {c c' : BellCNOT} {sets : List (List LocalInstr)} (hi : i.op = .bellCnot c) (hp : Plain i) (ha : Attempt ctx i j)
    (hj : j.op = .bellCnot c') (hs : c'.localSets = some sets) : ∃ route, CnotRoute ctx c route ∧ Built route sets := by
  unfold Plain at hp
  rw [hi] at hp
  have key : ∃ c', j.op = .bellCnot c' ∧ Stage ctx c c' := by
    clear hj
    induction ha with
    | start => exact ⟨c, hi, rfl, rfl, .inl ⟨hp.1, hp.2.1, hp.2.2.1⟩⟩
    | next w _ hap ih =>
      obtain ⟨c1, h1, h2⟩ := ih
      exact stage_apply h1 h2 hap
  obtain ⟨c2, h1, -, -, h⟩ := key
  rw [hj] at h1
  cases h1
  rcases h with ⟨-, -, h⟩ | ⟨-, -, h⟩ | ⟨route, sets', _, h1, h2, -, h3⟩
  · rw [hs] at h; cases h
  · rw [hs] at h; cases h
  · rw [hs] at h2
    cases h2
    exact ⟨route, h1, h3⟩

/-- C37 for CNOTs, with and without EDPC: the operations of a CNOT, whenever it has any, act along its route. -/
theorem c37_cnot {i j : Instr} {c c' : BellCNOT} {sets : List (List LocalInstr)} (hi : i.op = .bellCnot c) (hp : Plain i) (ha : Attempt ctx i j)
    (hj : j.op = .bellCnot c') (hs : c'.localSets = some sets) : ∃ route, CnotRoute ctx c route ∧ Compiled route sets := by
  obtain ⟨route, h1, h2⟩ := cnot_built hi hp ha hj hs
  exact ⟨route, h1, built_compiled (route_length h1) h2⟩

/-- Compiling a CNOT over any route of at least four cells is defined, and over any division of the route into labelled
segments. -/
theorem c37_cnot_defined (c : BellCNOT) (route : List Cell) (h : 4 ≤ route.length) :
    (∃ l, compileWhole c route {} = .ok l) ∧
    ∀ s e, endpoints s route = .ok e → (∀ y ∈ e.1, y.2 = .reserved1 ∨ y.2 = .reserved2) → ∃ p, compileEdpc c route e.1 e.2 = .ok p := by
  refine ⟨?_, fun s e he hl => ?_⟩
  · obtain ⟨l, _, _, h1, -⟩ := compileWhole_ok (c := c) (l := {}) h
    exact ⟨l, h1⟩
  · obtain ⟨p, _, _, _, _, h1, -⟩ := compileEdpc_ok (cn := c) he h hl
    exact ⟨p, h1⟩

/-- On a route of neighbouring cells all operations are between neighbours. -/
theorem c37_neighbours {route : List Cell} {ls : List LocalInstr} (h : OnPath route ls)
    (hr : ∀ k a b, route[k]? = some a → route[k + 1]? = some b → Adjacent a b) : ∀ i ∈ ls, ∃ a b, touched i = [a, b] ∧ Adjacent a b ∧ a ∈ route ∧ b ∈ route := by
  intro i hi
  obtain ⟨ks, -, h2, h3⟩ := h
  obtain ⟨n, hn⟩ := List.mem_iff_getElem?.1 hi
  have hlt : n < ls.length := (List.getElem?_eq_some_iff.1 hn).1
  obtain ⟨a, b, e1, e2, e3⟩ := h3 n i ks[n] hn (List.getElem?_eq_getElem (by omega))
  have m1 := List.mem_of_getElem? e1
  have m2 := List.mem_of_getElem? e2
  have had := hr _ _ _ e1 e2
  rcases e3 with e3 | e3
  · exact ⟨a, b, e3, had, m1, m2⟩
  · refine ⟨b, a, e3, ?_, m2, m1⟩
    unfold Adjacent dist at had ⊢
    omega

/-! ## C38: every local operation once, in order -/

/-- The local operations an instruction shows when it is printed (ls_instructions.cpp:127-141, 187-208). -/
def reported : Operation → List LocalInstr
  | .bell b =>
    match b.counter, b.localInstrs with
    | some w, some ls => window ls w
    | _, _ => []
  | .bellCnot c =>
    match c.counterPairs, c.localSets with
    | some ws, some sets => (List.zipWith window sets ws).flatten
    | _, _ => []
  | _ => []

/-- All local operations of an instruction. -/
def allLocals : Operation → List LocalInstr
  | .bell b => b.localInstrs.getD []
  | .bellCnot c => (c.localSets.getD []).flatten
  | _ => []

/-- What one attempt shows: pipelines print an instruction when its attempt did not fail. -/
def shown (r : Res (Mach ρ)) : List LocalInstr := if r.err then [] else reported r.instr.op

/-- The instruction is attempted, on any machine states and with any waiting budgets, until nothing is left to do; all that was shown and the final
instruction. -/
inductive Worked (ctx : Ctx ρ) : Instr → List LocalInstr → Instr → Prop
  | last {m : Mach ρ} {i : Instr} {r : Res (Mach ρ)} : Apply.apply ctx m i = .ok r → remaining r = [] → Worked ctx i (shown r) r.instr
  | more {m : Mach ρ} {i j : Instr} {r : Res (Mach ρ)} {ops : List LocalInstr} {f : Instr} (w : Nat) : Apply.apply ctx m i = .ok r → remaining r = [j] →
      Worked ctx { j with wait := w } ops f → Worked ctx i (shown r ++ ops) f

theorem unchanged_remaining {i : Instr} {r : Res (Mach ρ)} (h : Unchanged i r) : remaining r = [i] ∧ shown r = [] := by
  obtain ⟨h1, h2, h3⟩ := h
  unfold remaining shown
  rw [h3, h2, h1]
  exact ⟨rfl, rfl⟩

theorem worked_bell {i f : Instr} {ops : List LocalInstr} (h : Worked ctx i ops f) : ∀ {b : BellInit}, i.op = .bell b →
    (∀ w ls, b.counter = some w → b.localInstrs = some ls → w.2 ≤ ls.length → ∃ b', f.op = .bell b' ∧ b'.localInstrs = some ls ∧ ops = ls.drop w.2) ∧
    (b.counter = none → ∃ b' ls, f.op = .bell b' ∧ b'.localInstrs = some ls ∧ ops = ls) := by
  induction h with
  | last hap hrem =>
    intro b hi
    unfold Apply.apply at hap
    rw [hi] at hap
    dsimp only at hap
    rename_i i0 r
    have run : ∀ {m : Mach ρ} {ls : List LocalInstr} {k : Nat}, bellInitRun ctx m i0 b ls k = .ok r → ∃ b', r.instr.op = .bell b' ∧ b'.localInstrs = some ls ∧ shown r = ls.drop k := by
      intro m ls k h
      obtain ⟨n, h1, h2, h3, h4⟩ := bellInitRun_ok h
      rcases h4 with ⟨h4, rfl⟩ | h4
      · refine ⟨_, by rw [h2], rfl, ?_⟩
        unfold shown
        rw [h3, h2]
        simp only [Bool.false_eq_true, if_false, reported]
        exact window_all
      · unfold remaining at hrem
        rw [h4] at hrem
        cases hrem
    rcases applyBell_ok hap with hu | ⟨w, ls, h1, h2, h3⟩ | ⟨h1, region, rs, ls, -, -, -, h3⟩
    · rw [(unchanged_remaining hu).1] at hrem; cases hrem
    · refine ⟨fun w' ls' e1 e2 _ => ?_, fun e => ?_⟩
      · rw [h1] at e1; rw [h2] at e2; cases e1; cases e2
        exact run h3
      · rw [h1] at e; cases e
    · refine ⟨fun w' ls' e1 => ?_, fun _ => ?_⟩
      · rw [h1] at e1; cases e1
      · obtain ⟨b', g1, g2, g3⟩ := run h3
        exact ⟨b', ls, g1, g2, by simpa using g3⟩
  | more w hap hrem _ ih =>
    intro b hi
    unfold Apply.apply at hap
    rw [hi] at hap
    dsimp only at hap
    rename_i i0 j r ops f _
    have run : ∀ {m : Mach ρ} {ls : List LocalInstr} {k : Nat}, bellInitRun ctx m i0 b ls k = .ok r → k ≤ ls.length →
        ∃ b', f.op = .bell b' ∧ b'.localInstrs = some ls ∧ shown r ++ ops = ls.drop k := by
      intro m ls k h hk
      obtain ⟨n, h1, h2, h3, h4⟩ := bellInitRun_ok h
      rcases h4 with ⟨h4, rfl⟩ | h4
      · unfold remaining at hrem
        rw [h4, h3] at hrem
        cases hrem
      · unfold remaining at hrem
        rw [h4] at hrem
        cases hrem
        have hop : r.instr.op = .bell { b with localInstrs := some ls, counter := some (k, k + n) } := by rw [h2]
        obtain ⟨b', g1, g2, g3⟩ := (ih hop).1 _ _ rfl rfl (by simp at h1; dsimp only; omega)
        refine ⟨b', g1, g2, ?_⟩
        unfold shown
        rw [h3, hop, g3]
        simp only [Bool.false_eq_true, if_false, reported]
        exact window_drop h1
    rcases applyBell_ok hap with hu | ⟨w', ls, h1, h2, h3⟩ | ⟨h1, region, rs, ls, -, -, -, h3⟩
    · obtain ⟨e1, e2⟩ := unchanged_remaining hu
      rw [e1] at hrem
      cases hrem
      rw [e2]
      exact ih hi
    · refine ⟨fun w'' ls' e1 e2 e3 => ?_, fun e => ?_⟩
      · rw [h1] at e1; rw [h2] at e2; cases e1; cases e2
        exact run h3 e3
      · rw [h1] at e; cases e
    · refine ⟨fun w' ls' e1 => ?_, fun _ => ?_⟩
      · rw [h1] at e1; cases e1
      · obtain ⟨b', g1, g2, g3⟩ := run h3 (Nat.zero_le _)
        exact ⟨b', ls, g1, g2, by simpa using g3⟩

/-- C38 for Bell pairs: what is shown over all attempts is the whole list of operations, in order, each once. -/
theorem c38_bell {i f : Instr} {b : BellInit} {ops : List LocalInstr} (hi : i.op = .bell b) (hp : Plain i) (h : Worked ctx i ops f) :
    ops = allLocals f.op ∧ ∃ b', f.op = .bell b' ∧ b'.localInstrs = some ops := by
  unfold Plain at hp
  rw [hi] at hp
  obtain ⟨b', ls, h1, h2, rfl⟩ := (worked_bell h hi).2 hp.1
  exact ⟨by rw [h1]; simp [allLocals, h2], b', h1, h2⟩

theorem worked_plain {i f : Instr} {ops : List LocalInstr} (he : ctx.router.edpc = false) (h : Worked ctx i ops f) : ∀ {c : BellCNOT}, i.op = .bellCnot c →
    (∀ w ls, c.counterPairs = some [w] → c.localSets = some [ls] → w.2 ≤ ls.length → ∃ c', f.op = .bellCnot c' ∧ c'.localSets = some [ls] ∧ ops = ls.drop w.2) ∧
    (c.counterPairs = none → ∃ c' ls, f.op = .bellCnot c' ∧ c'.localSets = some [ls] ∧ ops = ls) := by
  induction h with
  | last hap hrem =>
    intro c hi
    unfold Apply.apply at hap
    rw [hi] at hap
    dsimp only at hap
    rename_i i0 r
    have run : ∀ {m : Mach ρ} {ls : List LocalInstr} {k x : Nat}, cnotRun ctx m i0 c [ls] [(x, k)] = .ok r → ∃ c', r.instr.op = .bellCnot c' ∧ c'.localSets = some [ls] ∧ shown r = ls.drop k := by
      intro m ls k x h
      obtain ⟨_, _, _, _, _, n, e1, e2, h1, h2, h3, h4⟩ := cnotRun_ok h
      cases e1
      cases e2
      rcases h4 with ⟨h4, rfl⟩ | h4
      · refine ⟨_, congrArg Instr.op h2, rfl, ?_⟩
        unfold shown
        rw [h3, h2]
        simp only [Bool.false_eq_true, if_false, reported, List.zipWith_cons_cons, List.zipWith_nil_left, List.flatten_cons, List.flatten_nil, List.append_nil]
        exact window_all
      · unfold remaining at hrem
        rw [h4] at hrem
        cases hrem
    rcases applyCnot_ok hap with hu | ⟨he', -⟩ | ⟨-, hap⟩
    · rw [(unchanged_remaining hu).1] at hrem; cases hrem
    · rw [he] at he'; cases he'
    rcases applyCnotPlain_ok hap with hu | ⟨pairs, sets, h1, h2, h3⟩ | ⟨h1, region, rs, region', l, -, -, -, -, h3⟩
    · rw [(unchanged_remaining hu).1] at hrem; cases hrem
    · refine ⟨fun w' ls' e1 e2 _ => ?_, fun e => ?_⟩
      · rw [h1] at e1; rw [h2] at e2; cases e1; cases e2
        exact run h3
      · rw [h1] at e; cases e
    · refine ⟨fun w' ls' e1 => ?_, fun _ => ?_⟩
      · rw [h1] at e1; cases e1
      · obtain ⟨b', g1, g2, g3⟩ := run h3
        exact ⟨b', _, g1, g2, by simpa using g3⟩
  | more w hap hrem _ ih =>
    intro c hi
    unfold Apply.apply at hap
    rw [hi] at hap
    dsimp only at hap
    rename_i i0 j r ops f _
    have run : ∀ {m : Mach ρ} {ls : List LocalInstr} {k x : Nat}, cnotRun ctx m i0 c [ls] [(x, k)] = .ok r → k ≤ ls.length →
        ∃ c', f.op = .bellCnot c' ∧ c'.localSets = some [ls] ∧ shown r ++ ops = ls.drop k := by
      intro m ls k x h hk
      obtain ⟨_, _, _, _, _, n, e1, e2, h1, h2, h3, h4⟩ := cnotRun_ok h
      cases e1
      cases e2
      rcases h4 with ⟨h4, rfl⟩ | h4
      · unfold remaining at hrem
        rw [h4, h3] at hrem
        cases hrem
      · unfold remaining at hrem
        rw [h4] at hrem
        cases hrem
        have hop : r.instr.op = .bellCnot { c with localSets := some [ls], counterPairs := some [(k, k + n)] } := by rw [h2]
        obtain ⟨b', g1, g2, g3⟩ := (ih hop).1 _ _ rfl rfl (by simp at h1; dsimp only; omega)
        refine ⟨b', g1, g2, ?_⟩
        unfold shown
        rw [h3, hop, g3]
        simp only [Bool.false_eq_true, if_false, reported, List.zipWith_cons_cons, List.zipWith_nil_left, List.flatten_cons, List.flatten_nil, List.append_nil]
        exact window_drop h1
    rcases applyCnot_ok hap with hu | ⟨he', -⟩ | ⟨-, hap⟩
    · obtain ⟨e1, e2⟩ := unchanged_remaining hu
      rw [e1] at hrem
      cases hrem
      rw [e2]
      exact ih hi
    · rw [he] at he'; cases he'
    rcases applyCnotPlain_ok hap with hu | ⟨pairs, sets, h1, h2, h3⟩ | ⟨h1, region, rs, region', l, -, -, -, -, h3⟩
    · obtain ⟨e1, e2⟩ := unchanged_remaining hu
      rw [e1] at hrem
      cases hrem
      rw [e2]
      exact ih hi
    · refine ⟨fun w'' ls' e1 e2 e3 => ?_, fun e => ?_⟩
      · rw [h1] at e1; rw [h2] at e2; cases e1; cases e2
        exact run h3 e3
      · rw [h1] at e; cases e
    · refine ⟨fun w' ls' e1 => ?_, fun _ => ?_⟩
      · rw [h1] at e1; cases e1
      · obtain ⟨b', g1, g2, g3⟩ := run h3 (Nat.zero_le _)
        exact ⟨b', _, g1, g2, by simpa using g3⟩

/-- C38 for CNOTs without EDPC. -/
theorem c38_cnot {i f : Instr} {c : BellCNOT} {ops : List LocalInstr} (he : ctx.router.edpc = false) (hi : i.op = .bellCnot c) (hp : Plain i) (h : Worked ctx i ops f) :
    ops = allLocals f.op ∧ ∃ c', f.op = .bellCnot c' ∧ c'.localSets = some [ops] := by
  unfold Plain at hp
  rw [hi] at hp
  obtain ⟨b', ls, h1, h2, rfl⟩ := (worked_plain he h hi).2 hp.2.1
  exact ⟨by rw [h1]; simp [allLocals, h2], b', h1, h2⟩

/-- The windows in phase `ph` when the first `k` operations of the phase have been applied. -/
def Windows (l0 l1 l2 l3 : Nat) (k : Nat) (ps : List (Nat × Nat)) : Nat → Prop
  | 0 => (∃ x, ps = [(x, k), (0, 0), (0, 0), (0, 0)]) ∧ k ≤ l0
  | 1 => (∃ x y, ps = [(x, l0), (y, k), (0, 0), (0, 0)]) ∧ k ≤ l1
  | 2 => (∃ x y, ps = [(l0, l0), (x, l1), (y, k), (0, 0)]) ∧ k ≤ l2
  | 3 => (∃ x y, ps = [(l0, l0), (l1, l1), (x, l2), (y, k)]) ∧ k ≤ l3
  | _ => False

/-- The operations still to come. -/
def todo (s0 s1 s2 s3 : List LocalInstr) (k : Nat) : Nat → List LocalInstr
  | 0 => s0.drop k ++ (s1 ++ if s2 = [] then [] else s2 ++ s3)
  | 1 => s1.drop k ++ if s2 = [] then [] else s2 ++ s3
  | 2 => s2.drop k ++ s3
  | _ => s3.drop k

theorem phase_step {m : Mach ρ} {i : Instr} {c : BellCNOT} {s0 s1 s2 s3 : List LocalInstr} {ps : List (Nat × Nat)} {ph k : Nat} {r : Res (Mach ρ)}
    (hs : c.localSets = some [s0, s1, s2, s3]) (hph : c.phase = some ph)
    (hw : Windows s0.length s1.length s2.length s3.length k ps ph) (h : cnotPhase ctx m i c [s0, s1, s2, s3] ps ph = .ok r) :
    r.err = false ∧ ∃ c', r.instr.op = .bellCnot c' ∧ c'.localSets = some [s0, s1, s2, s3] ∧ c'.route = c.route ∧
      (r.followups = [] ∧ reported r.instr.op = todo s0 s1 s2 s3 k ph ∨
       r.followups = [r.instr] ∧ ∃ ps' ph' k', c'.counterPairs = some ps' ∧ c'.phase = some ph' ∧ Windows s0.length s1.length s2.length s3.length k' ps' ph' ∧
         reported r.instr.op ++ todo s0 s1 s2 s3 k' ph' = todo s0 s1 s2 s3 k ph) := by
  obtain ⟨w, k', ls, n, h1, h2, h3, he, h⟩ := cnotPhase_ok h
  refine ⟨he, ?_⟩
  have zip : ∀ (a b c d : Nat × Nat), (List.zipWith window [s0, s1, s2, s3] [a, b, c, d]).flatten = window s0 a ++ (window s1 b ++ (window s2 c ++ window s3 d)) := by
    intro a b c d; simp
  match ph, hw with
  | 0, ⟨⟨x, e⟩, hk⟩ =>
    subst e
    have hpost : (closeWindow (if (0 : Nat) ≠ 0 then closeWindow [(x, k), (0, 0), (0, 0), (0, 0)] (0 - 1) else [(x, k), (0, 0), (0, 0), (0, 0)]) 0).set 0 (k, k + n) =
      [(k, k + n), (0, 0), (0, 0), (0, 0)] := rfl
    cases h1
    cases h2
    rw [hpost] at h
    rcases h with ⟨g1, g2⟩ | ⟨g0, g, g1, g2⟩ | ⟨g0, g, g1, g2⟩
    · refine ⟨_, congrArg Instr.op g2, hs, rfl, .inr ⟨g1, _, 0, k + n, rfl, hph, ⟨⟨_, rfl⟩, ?_⟩, ?_⟩⟩
      · simp at h3; omega
      · rw [g2]
        simp only [reported, hs]
        rw [zip]
        simp only [window_closed, List.append_nil, List.nil_append, todo]
        rw [← List.append_assoc, window_drop h3]
    · simp at g
    · have hn : k + n = s0.length := by simp at g0; omega
      refine ⟨_, congrArg Instr.op g2, hs, rfl, .inr ⟨g1, _, 1, 0, rfl, rfl, ⟨⟨_, 0, by rw [hn]⟩, Nat.zero_le _⟩, ?_⟩⟩
      subst g0
      rw [g2]
      simp only [reported, hs]
      rw [zip]
      simp only [window_closed, window_all, List.append_nil, List.nil_append, todo, List.drop_zero]
  | 1, ⟨⟨x, y, e⟩, hk⟩ =>
    subst e
    have hpost : (closeWindow (if (1 : Nat) ≠ 0 then closeWindow [(x, s0.length), (y, k), (0, 0), (0, 0)] (1 - 1) else [(x, s0.length), (y, k), (0, 0), (0, 0)]) 1).set 1 (k, k + n) =
      [(s0.length, s0.length), (k, k + n), (0, 0), (0, 0)] := rfl
    cases h1
    cases h2
    rw [hpost] at h
    rcases h with ⟨g1, g2⟩ | ⟨g0, g, g1, g2⟩ | ⟨g0, g, g1, g2⟩
    · refine ⟨_, congrArg Instr.op g2, hs, rfl, .inr ⟨g1, _, 1, k + n, rfl, hph, ⟨⟨_, _, rfl⟩, ?_⟩, ?_⟩⟩
      · simp at h3; omega
      · rw [g2]
        simp only [reported, hs]
        rw [zip]
        simp only [window_closed, List.append_nil, List.nil_append, todo]
        rw [← List.append_assoc, window_drop h3]
    · refine ⟨_, congrArg Instr.op g2, hs, rfl, .inl ⟨g1, ?_⟩⟩
      have g : s2 = [] := by simpa using g
      subst g0
      rw [g2]
      simp only [reported, hs]
      rw [zip]
      simp only [window_closed, window_all, List.append_nil, List.nil_append, todo, if_pos g]
    · have hn : k + n = s1.length := by simp at g0; omega
      refine ⟨_, congrArg Instr.op g2, hs, rfl, .inr ⟨g1, _, 2, 0, rfl, rfl, ⟨⟨_, 0, by rw [hn]⟩, Nat.zero_le _⟩, ?_⟩⟩
      subst g0
      rw [g2]
      simp only [reported, hs]
      rw [zip]
      have g : s2 ≠ [] := by simpa using g
      simp only [window_closed, window_all, List.append_nil, List.nil_append, todo, List.drop_zero, if_neg g]
  | 2, ⟨⟨x, y, e⟩, hk⟩ =>
    subst e
    have hpost : (closeWindow (if (2 : Nat) ≠ 0 then closeWindow [(s0.length, s0.length), (x, s1.length), (y, k), (0, 0)] (2 - 1) else [(s0.length, s0.length), (x, s1.length), (y, k), (0, 0)]) 2).set 2 (k, k + n) =
      [(s0.length, s0.length), (s1.length, s1.length), (k, k + n), (0, 0)] := rfl
    cases h1
    cases h2
    rw [hpost] at h
    rcases h with ⟨g1, g2⟩ | ⟨g0, g, g1, g2⟩ | ⟨g0, g, g1, g2⟩
    · refine ⟨_, congrArg Instr.op g2, hs, rfl, .inr ⟨g1, _, 2, k + n, rfl, hph, ⟨⟨_, _, rfl⟩, ?_⟩, ?_⟩⟩
      · simp at h3; omega
      · rw [g2]
        simp only [reported, hs]
        rw [zip]
        simp only [window_closed, List.append_nil, List.nil_append, todo]
        rw [← List.append_assoc, window_drop h3]
    · simp at g
    · have hn : k + n = s2.length := by simp at g0; omega
      refine ⟨_, congrArg Instr.op g2, hs, rfl, .inr ⟨g1, _, 3, 0, rfl, rfl, ⟨⟨_, 0, by rw [hn]⟩, Nat.zero_le _⟩, ?_⟩⟩
      subst g0
      rw [g2]
      simp only [reported, hs]
      rw [zip]
      simp only [window_closed, window_all, List.append_nil, List.nil_append, todo, List.drop_zero]
  | 3, ⟨⟨x, y, e⟩, hk⟩ =>
    subst e
    have hpost : (closeWindow (if (3 : Nat) ≠ 0 then closeWindow [(s0.length, s0.length), (s1.length, s1.length), (x, s2.length), (y, k)] (3 - 1) else [(s0.length, s0.length), (s1.length, s1.length), (x, s2.length), (y, k)]) 3).set 3 (k, k + n) =
      [(s0.length, s0.length), (s1.length, s1.length), (s2.length, s2.length), (k, k + n)] := rfl
    cases h1
    cases h2
    rw [hpost] at h
    rcases h with ⟨g1, g2⟩ | ⟨g0, g, g1, g2⟩ | ⟨g0, g, g1, g2⟩
    · refine ⟨_, congrArg Instr.op g2, hs, rfl, .inr ⟨g1, _, 3, k + n, rfl, hph, ⟨⟨_, _, rfl⟩, ?_⟩, ?_⟩⟩
      · simp at h3; omega
      · rw [g2]
        simp only [reported, hs]
        rw [zip]
        simp only [window_closed, List.append_nil, List.nil_append, todo]
        rw [window_drop h3]
    · refine ⟨_, congrArg Instr.op g2, hs, rfl, .inl ⟨g1, ?_⟩⟩
      subst g0
      rw [g2]
      simp only [reported, hs]
      rw [zip]
      simp only [window_closed, window_all, List.append_nil, List.nil_append, todo]
    · simp at g

/-- A CNOT under EDPC between attempts. -/
theorem worked_edpc {i f : Instr} {ops : List LocalInstr} (he : ctx.router.edpc = true) (h : Worked ctx i ops f) : ∀ {c : BellCNOT}, i.op = .bellCnot c →
    (∀ s0 s1 s2 s3 ps ph k region, c.localSets = some [s0, s1, s2, s3] → c.counterPairs = some ps → c.phase = some ph → c.route = some region →
      Windows s0.length s1.length s2.length s3.length k ps ph →
      ∃ c', f.op = .bellCnot c' ∧ c'.localSets = some [s0, s1, s2, s3] ∧ ops = todo s0 s1 s2 s3 k ph) ∧
    (c.counterPairs = none → ∃ c' s0 s1 s2 s3, f.op = .bellCnot c' ∧ c'.localSets = some [s0, s1, s2, s3] ∧ ops = todo s0 s1 s2 s3 0 0) := by
  induction h with
  | last hap hrem =>
    intro c hi
    unfold Apply.apply at hap
    rw [hi] at hap
    dsimp only at hap
    rename_i i0 r
    rcases applyCnot_ok hap with hu | ⟨-, hap⟩ | ⟨he', -⟩
    · rw [(unchanged_remaining hu).1] at hrem; cases hrem
    · rcases applyCnotEdpc_ok hap with hu | ⟨g1, region, rs, a, b, region', -, -, -, -, -, g7, g8, g9⟩ | ⟨region, e, p, g1, g2, -, -, g5, g6, g7⟩ |
        ⟨region, pairs, phase, sets, g1, g2, g3, g4, hap⟩
      · rw [(unchanged_remaining hu).1] at hrem; cases hrem
      · unfold remaining at hrem; rw [g9] at hrem; cases hrem
      · unfold remaining at hrem; rw [g7, g6] at hrem; cases hrem
      · refine ⟨fun s0 s1 s2 s3 ps ph k region' e1 e2 e3 e4 hw => ?_, fun e => by rw [g2] at e; cases e⟩
        rw [e2] at g2; rw [e3] at g3; rw [e1] at g4; cases g2; cases g3; cases g4
        obtain ⟨k1, c', k2, k3, -, k5⟩ := phase_step e1 e3 hw hap
        refine ⟨c', k2, k3, ?_⟩
        rcases k5 with ⟨-, k5⟩ | ⟨k5, -⟩
        · unfold shown; rw [k1]; exact k5
        · unfold remaining at hrem; rw [k5] at hrem; cases hrem
    · rw [he] at he'; cases he'
  | more w hap hrem _ ih =>
    intro c hi
    unfold Apply.apply at hap
    rw [hi] at hap
    dsimp only at hap
    rename_i i0 j r ops f _
    rcases applyCnot_ok hap with hu | ⟨-, hap⟩ | ⟨he', -⟩
    · obtain ⟨e1, e2⟩ := unchanged_remaining hu
      rw [e1] at hrem
      cases hrem
      rw [e2]
      exact ih hi
    · rcases applyCnotEdpc_ok hap with hu | ⟨g1, region, rs, a, b, region', -, -, -, -, -, g7, g8, g9⟩ | ⟨region, e, p, g1, g2, -, -, g5, g6, g7⟩ |
        ⟨region, pairs, phase, sets, g1, g2, g3, g4, hap⟩
      · obtain ⟨e1, e2⟩ := unchanged_remaining hu
        rw [e1] at hrem
        cases hrem
        rw [e2]
        exact ih hi
      · unfold remaining at hrem
        rw [g9] at hrem
        cases hrem
        have hop : r.instr.op = .bellCnot { c with route := some region' } := by rw [g7]
        refine ⟨fun s0 s1 s2 s3 ps ph k region' e1 e2 e3 e4 hw => (by rw [g1] at e4; cases e4), fun e => ?_⟩
        unfold shown
        rw [g8]
        exact (ih hop).2 e
      · unfold remaining at hrem
        rw [g7, g6] at hrem
        cases hrem
        have hop := congrArg Instr.op g5
        refine ⟨fun s0 s1 s2 s3 ps ph k region' e1 e2 e3 e4 hw => (by rw [g2] at e2; cases e2), fun e => ?_⟩
        unfold shown
        rw [g6]
        obtain ⟨c', k1, k2, k3⟩ := (ih hop).1 _ _ _ _ _ 0 0 region rfl rfl rfl g1 ⟨⟨0, rfl⟩, Nat.zero_le _⟩
        exact ⟨c', _, _, _, _, k1, k2, k3⟩
      · refine ⟨fun s0 s1 s2 s3 ps ph k region' e1 e2 e3 e4 hw => ?_, fun e => by rw [g2] at e; cases e⟩
        rw [e2] at g2; rw [e3] at g3; rw [e1] at g4; cases g2; cases g3; cases g4
        obtain ⟨k1, c', k2, k3, k4, k5⟩ := phase_step e1 e3 hw hap
        rcases k5 with ⟨k5, -⟩ | ⟨k5, ps', ph', k', k6, k7, k8, k9⟩
        · unfold remaining at hrem; rw [k5, k1] at hrem; cases hrem
        · unfold remaining at hrem
          rw [k5] at hrem
          cases hrem
          obtain ⟨c'', j1, j2, j3⟩ := (ih k2).1 _ _ _ _ _ _ _ region k3 k6 k7 (k4.trans g1) k8
          refine ⟨c'', j1, j2, ?_⟩
          unfold shown
          rw [k1, j3]
          exact k9
    · rw [he] at he'; cases he'

/-- C38 for CNOTs with EDPC. Missing: if the third set of operations is empty the fourth one is never worked on, so the
claim needs it to be empty too. -/
theorem c38_edpc_partial {i f : Instr} {c : BellCNOT} {ops : List LocalInstr} (he : ctx.router.edpc = true) (hi : i.op = .bellCnot c) (hp : Plain i) (h : Worked ctx i ops f) :
    ∃ c' s0 s1 s2 s3, f.op = .bellCnot c' ∧ c'.localSets = some [s0, s1, s2, s3] ∧ (s2 = [] → ops = s0 ++ s1) ∧ ((s2 = [] → s3 = []) → ops = allLocals f.op) := by
  unfold Plain at hp
  rw [hi] at hp
  obtain ⟨c', s0, s1, s2, s3, h1, h2, rfl⟩ := (worked_edpc he h hi).2 hp.2.1
  refine ⟨c', s0, s1, s2, s3, h1, h2, fun e => by simp [todo, e], fun e => ?_⟩
  rw [h1]
  simp only [todo, allLocals, h2, Option.getD_some, List.drop_zero, List.flatten_cons, List.flatten_nil, List.append_nil]
  split
  · rename_i e2; simp [e2, e e2]
  · rfl

/-- The fourth set is empty with the third if, when the CNOT is divided, no step of the route is the only one in a row
that has the second label. -/
theorem c38_edpc_sets {m : Mach ρ} {i : Instr} {r : Res (Mach ρ)} {c : BellCNOT} {region : RoutingRegion} {lab : Nat → BoundaryType} (he : ctx.router.edpc = true)
    (hi : i.op = .bellCnot c) (h1 : c.route = some region) (h2 : c.counterPairs = none) (h3 : 4 ≤ region.cells.length)
    (hl : ∀ j a b, (region.cells.map (·.cell))[j]? = some a → (region.cells.map (·.cell))[j + 1]? = some b → ∃ x, m.slice.boundaryBetween a b = .ok (some x) ∧ x.ty = lab j)
    (hc : ∀ k, k + 1 < region.cells.length → lab k = .reserved2 → (k + 2 < region.cells.length ∧ lab (k + 1) = .reserved2) ∨ (∃ j, k = j + 1 ∧ lab j = .reserved2))
    (h : Apply.apply ctx m i = .ok r) :
    r.instr = i ∨ ∃ c' s0 s1 s2 s3, r.instr.op = .bellCnot c' ∧ c'.localSets = some [s0, s1, s2, s3] ∧ (s2 = [] → s3 = []) := by
  unfold Apply.apply at h
  rw [hi] at h
  dsimp only at h
  rcases applyCnot_ok h with hu | ⟨-, h⟩ | ⟨he', -⟩
  · exact .inl hu.1
  · rcases applyCnotEdpc_ok h with hu | ⟨g1, -⟩ | ⟨region', e, p, g1, g2, g3, g4, g5, g6, g7⟩ | ⟨region, pairs, phase, sets, g1, g2, -⟩
    · exact .inl hu.1
    · rw [h1] at g1; cases g1
    · rw [h1] at g1
      cases g1
      refine .inr ⟨_, _, _, _, _, congrArg Instr.op g5, rfl, ?_⟩
      refine compileEdpc_second (lab := lab) (by simpa using h3) g3 g4 (fun j a b ha hb => ?_) (by simpa using hc)
      obtain ⟨x, e1, e2⟩ := hl j a b ha hb
      unfold labelBetween
      rw [e1, Outcome.bind_ok, ← e2]
    · rw [h2] at g2; cases g2
  · rw [he] at he'; cases he'

/-! ## C38: what is printed -/

/-- The operations separated by semicolons. -/
def semis : List LocalInstr → Str
  | [] => []
  | [x] => Lli.localStr x
  | x :: y :: ls => Lli.localStr x ++ ';' :: semis (y :: ls)

theorem localRange_eq {v : List LocalInstr} {second : Nat} (hs : second ≤ v.length) : ∀ {n i : Nat}, i + n = second → Lli.localRange v second n i = .ok (semis ((v.drop i).take n))
  | 0, i, _ => by simp [Lli.localRange, semis]
  | n + 1, i, h => by
    have hi : i < v.length := by omega
    have e1 : v[i]? = some v[i] := List.getElem?_eq_getElem hi
    rw [Lli.localRange, if_pos (by omega), e1]
    dsimp only
    rw [localRange_eq hs (n := n) (i := i + 1) (by omega), Outcome.bind_ok, List.drop_eq_getElem_cons hi, List.take_succ_cons]
    cases n with
    | zero => rw [if_neg (by omega)]; simp [semis]
    | succ n =>
      have hi2 : i + 1 < v.length := by omega
      rw [if_pos (by omega), List.drop_eq_getElem_cons hi2, List.take_succ_cons, semis]
      simp

/-- The text of a Bell pair instruction whose attempt did not fail contains exactly the operations applied in it. -/
theorem c38_printed {m : Mach ρ} {i j : Instr} {r : Res (Mach ρ)} {b : BellInit} (hj : j.op = .bell b) (hp : Plain j) (ha : Attempt ctx j i)
    (h : Apply.apply ctx m i = .ok r) (hr : r.err = false) : ∃ head, Lli.printOp r.instr.op = .ok (head ++ " [".toList ++ semis (shown r) ++ [']']) := by
  have key : ∃ b', i.op = .bell b' ∧ (b'.counter = none ∨ ∃ w ls, b'.counter = some w ∧ b'.localInstrs = some ls ∧ w.2 ≤ ls.length) := by
    clear h
    induction ha with
    | start => unfold Plain at hp; rw [hj] at hp; exact ⟨b, hj, .inl hp.1⟩
    | next w _ hap ih =>
      obtain ⟨b1, e1, e2⟩ := ih
      unfold Apply.apply at hap
      rw [e1] at hap
      dsimp only at hap
      rcases applyBell_ok hap with hu | ⟨w, ls, h1, h2, h3⟩ | ⟨h1, region, rs, ls, -, -, -, h3⟩
      · exact ⟨b1, by dsimp only; rw [hu.1, e1], e2⟩
      · obtain ⟨n, g1, g2, -⟩ := bellInitRun_ok h3
        rcases e2 with e2 | ⟨w', ls', e2, e3, e4⟩
        · rw [h1] at e2; cases e2
        · rw [h1] at e2; rw [h2] at e3; cases e2; cases e3
          refine ⟨_, congrArg Instr.op g2, .inr ⟨_, _, rfl, rfl, ?_⟩⟩
          simp at g1
          dsimp only
          omega
      · obtain ⟨n, g1, g2, -⟩ := bellInitRun_ok h3
        refine ⟨_, congrArg Instr.op g2, .inr ⟨_, _, rfl, rfl, ?_⟩⟩
        simp at g1
        dsimp only
        omega
  obtain ⟨b', e1, e2⟩ := key
  unfold Apply.apply at h
  rw [e1] at h
  dsimp only at h
  have run : ∀ {m : Mach ρ} {ls : List LocalInstr} {k : Nat}, k ≤ ls.length → bellInitRun ctx m i b' ls k = .ok r →
      ∃ head, Lli.printOp r.instr.op = .ok (head ++ " [".toList ++ semis (shown r) ++ [']']) := by
    intro m ls k hk h
    obtain ⟨n, g1, g2, -⟩ := bellInitRun_ok h
    simp at g1
    unfold shown
    rw [hr, g2]
    simp only [Bool.false_eq_true, if_false, reported, Lli.printOp, Lli.localsStr]
    rw [localRange_eq (v := ls) (second := k + n) (by omega) (by omega)]
    simp only [Outcome.bind_ok]
    exact ⟨"BellPairInit ".toList ++ showNat b'.side1 ++ ' ' :: showNat b'.side2 ++ ' ' :: Lli.nextStr b'.loc1 ++ ',' :: Lli.nextStr b'.loc2, by
      simp [window]⟩
  rcases applyBell_ok h with hu | ⟨w, ls, h1, h2, h3⟩ | ⟨h1, region, rs, ls, -, -, -, h3⟩
  · rw [hu.2.1] at hr; cases hr
  · rcases e2 with e2 | ⟨w', ls', e2, e3, e4⟩
    · rw [h1] at e2; cases e2
    · rw [h1] at e2; rw [h2] at e3; cases e2; cases e3
      exact run e4 h3
  · exact run (Nat.zero_le _) h3

end

/-! ## Examples and a counterexample -/

/-- A cell of a route from left to right. -/
def laneCell (c : Int) : OccCell := ⟨⟨⟨.none, false⟩, ⟨.none, false⟩, ⟨.connected, true⟩, ⟨.connected, true⟩⟩, ⟨0, c⟩⟩

def laneLayout : Layout :=
  { core := [basicSquare ⟨0, 0⟩ none none, basicSquare ⟨0, 3⟩ none none], furthest := ⟨1, 3⟩, ancilla := [], distilled := [], times := [] }

/-- A context whose router proposes the two cells between the patches. -/
def laneCtx (edpc : Bool) : Ctx Unit :=
  { localInstrs := true, twists := false, genIds := true, asserts := true, layout := laneLayout,
    router := ⟨fun _ _ _ _ _ _ => .ok (some ⟨[laneCell 1, laneCell 2], none⟩, ()), edpc⟩ }

def laneCnot : Instr := { op := .bellCnot { control := 8, target := 7, side1 := 11, side2 := 12 } }

/-- The first step of the route gets the second label. -/
def laneLabels (s : DSlice) : DSlice :=
  (s.setSide ⟨0, 0⟩ .right fun x => { x with ty := .reserved2 }).setSide ⟨0, 1⟩ .left fun x => { x with ty := .reserved2 }

/-- Under EDPC, if only the first step of a route has the second label, its operation is compiled but never worked on:
the third set of operations is empty and the fourth is skipped with it. -/
theorem c38_edpc_skipped : ∃ ops f, Worked (laneCtx true) laneCnot ops f ∧ ops ≠ allLocals f.op ∧
    allLocals f.op = ops ++ [.mergeContract ⟨0, 0⟩ ⟨0, 1⟩] := by
  have h0 : ∃ s r1 r2 r3 s3 r4, DSlice.init laneLayout [7, 8] = .ok s ∧ Apply.apply (laneCtx true) ⟨s, (), 1⟩ laneCnot = .ok r1 ∧
      Apply.apply (laneCtx true) ⟨laneLabels r1.slice.slice, (), 1⟩ { r1.instr with wait := 0 } = .ok r2 ∧
      Apply.apply (laneCtx true) ⟨s, (), 1⟩ { r2.instr with wait := 0 } = .ok r3 ∧ r3.slice.slice.advance laneLayout = .ok s3 ∧
      Apply.apply (laneCtx true) ⟨s3, (), 1⟩ { r3.instr with wait := 0 } = .ok r4 ∧
      remaining r1 = [r1.instr] ∧ remaining r2 = [r2.instr] ∧ remaining r3 = [r3.instr] ∧ remaining r4 = [] ∧
      shown r1 ++ (shown r2 ++ (shown r3 ++ shown r4)) = [.extendSplit none ⟨0, 3⟩ ⟨0, 2⟩, .move ⟨0, 2⟩ ⟨0, 1⟩ none] ∧
      allLocals r4.instr.op = [.extendSplit none ⟨0, 3⟩ ⟨0, 2⟩, .move ⟨0, 2⟩ ⟨0, 1⟩ none, .mergeContract ⟨0, 0⟩ ⟨0, 1⟩] :=
    ⟨_, _, _, _, _, _, rfl, rfl, rfl, rfl, rfl, rfl, rfl, rfl, rfl, rfl, rfl, rfl⟩
  obtain ⟨s, r1, r2, r3, s3, r4, -, h1, h2, h3, -, h4, e1, e2, e3, e4, e5, e6⟩ := h0
  refine ⟨_, _, .more 0 h1 e1 (.more 0 h2 e2 (.more 0 h3 e3 (.last h4 e4))), ?_, ?_⟩
  · rw [e5, e6]; decide
  · rw [e5, e6]; rfl

/-- c38_edpc_sets: after the first pass all steps have the first label. -/
example : ∃ s r region, DSlice.init laneLayout [7, 8] = .ok s ∧ Apply.apply (laneCtx true) ⟨s, (), 1⟩ laneCnot = .ok r ∧
    (∃ c, r.instr.op = .bellCnot c ∧ c.route = some region ∧ c.counterPairs = none) ∧ region.cells.length = 4 ∧
    ∀ (j : Nat) (a b : Cell), (region.cells.map (·.cell))[j]? = some a → (region.cells.map (·.cell))[j + 1]? = some b →
      ∃ x, r.slice.slice.boundaryBetween a b = .ok (some x) ∧ x.ty = .reserved1 := by
  refine ⟨_, _, _, rfl, rfl, ⟨_, rfl, rfl, rfl⟩, rfl, ?_⟩
  intro j a b ha hb
  rcases j with _ | _ | _ | j
  · cases ha; cases hb; exact ⟨_, rfl, rfl⟩
  · cases ha; cases hb; exact ⟨_, rfl, rfl⟩
  · cases ha; cases hb; exact ⟨_, rfl, rfl⟩
  · cases hb

/-- c37: the operations of a CNOT over a route of six cells, without EDPC. -/
example : ∃ l, compileWhole { control := 8, target := 7, side1 := 11, side2 := 12 } [⟨0, 0⟩, ⟨0, 1⟩, ⟨0, 2⟩, ⟨0, 3⟩, ⟨0, 4⟩, ⟨0, 5⟩] {} = .ok l ∧
    l.l1 = [.bellPrepare (some 12) none ⟨0, 1⟩ ⟨0, 2⟩, .bellPrepare none (some 11) ⟨0, 3⟩ ⟨0, 4⟩] ∧
    l.l2 = [.mergeContract ⟨0, 5⟩ ⟨0, 4⟩, .mergeContract ⟨0, 0⟩ ⟨0, 1⟩, .bellMeasure ⟨0, 2⟩ ⟨0, 3⟩] := ⟨_, rfl, rfl, rfl⟩

/-- c37_cnot, c38_cnot: a CNOT is worked on to the end. -/
example : ∃ ops f, Worked (laneCtx false) laneCnot ops f ∧ Plain laneCnot ∧ (laneCtx false).router.edpc = false ∧
    ops = [.bellPrepare (some 12) (some 11) ⟨0, 1⟩ ⟨0, 2⟩, .mergeContract ⟨0, 3⟩ ⟨0, 2⟩, .mergeContract ⟨0, 0⟩ ⟨0, 1⟩] ∧
    ∃ s r1, DSlice.init laneLayout [7, 8] = .ok s ∧ Apply.apply (laneCtx false) ⟨s, (), 1⟩ laneCnot = .ok r1 ∧ (shown r1).length = 1 := by
  have h0 : ∃ s r1 s1 r2, DSlice.init laneLayout [7, 8] = .ok s ∧ Apply.apply (laneCtx false) ⟨s, (), 1⟩ laneCnot = .ok r1 ∧ r1.slice.slice.advance laneLayout = .ok s1 ∧
      Apply.apply (laneCtx false) ⟨s1, (), 1⟩ { r1.instr with wait := 0 } = .ok r2 ∧ remaining r1 = [r1.instr] ∧ remaining r2 = [] ∧
      shown r1 ++ shown r2 = [.bellPrepare (some 12) (some 11) ⟨0, 1⟩ ⟨0, 2⟩, .mergeContract ⟨0, 3⟩ ⟨0, 2⟩, .mergeContract ⟨0, 0⟩ ⟨0, 1⟩] ∧ (shown r1).length = 1 :=
    ⟨_, _, _, _, rfl, rfl, rfl, rfl, rfl, rfl, rfl, rfl⟩
  obtain ⟨s, r1, s1, r2, h1, h2, h3, h4, h5, h6, h7, h8⟩ := h0
  exact ⟨_, _, .more 0 h2 h5 (.last h4 h6), ⟨rfl, rfl, rfl, rfl⟩, rfl, h7, s, r1, h1, h2, h8⟩

/-- c37_bell, c38_bell, c38_printed: a Bell pair over the two cells between the patches. -/
example : ∃ s r, DSlice.init laneLayout [7, 8] = .ok s ∧
    Apply.apply (laneCtx false) ⟨s, (), 1⟩ { op := .bell { side1 := 11, side2 := 12, loc1 := ⟨7, .Z⟩, loc2 := ⟨8, .X⟩ } } = .ok r ∧
    shown r = [.bellPrepare (some 12) (some 11) ⟨0, 1⟩ ⟨0, 2⟩] ∧ remaining r = [] := ⟨_, _, rfl, rfl, rfl, rfl⟩

end Verif.Slices.Spec
