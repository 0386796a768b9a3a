import Verif.BellLemmas
import Verif.SlicePropsIds

/-!
# Attempts of Bell instructions: lemmas

An attempt applies a run of local operations, starting where the last attempt stopped.
-/

namespace Verif.Apply

open Verif Verif.Wave

variable {ρ : Type}

theorem runLocals_count {edpc : Bool} : ∀ {is : List LocalInstr} {s : DSlice} {x : DSlice × Nat × Bool}, runLocals edpc is s = .ok x →
    x.2.1 ≤ is.length ∧ (x.2.2 = true → x.2.1 = is.length)
  | [], s, x, h => by
    simp only [runLocals, Outcome.ok.injEq] at h
    subst h
    simp
  | i :: is, s, x, h => by
    rw [runLocals] at h
    obtain ⟨r, h1, h⟩ := Outcome.bind_eq_ok.1 h
    by_cases hr : r.2 = true
    · rw [if_pos hr] at h
      simp only [Outcome.ok.injEq] at h
      subst h
      simp
    · rw [if_neg hr] at h
      obtain ⟨y, h2, h⟩ := Outcome.bind_eq_ok.1 h
      simp only [Outcome.ok.injEq] at h
      subst h
      obtain ⟨h3, h4⟩ := runLocals_count h2
      exact ⟨by simp; omega, fun hx => by simp [h4 hx]⟩

/-- The local operations in a window. -/
def window (ls : List LocalInstr) (w : Nat × Nat) : List LocalInstr := (ls.drop w.1).take (w.2 - w.1)

theorem window_closed (ls : List LocalInstr) (n : Nat) : window ls (n, n) = [] := by simp [window]

theorem window_drop {ls : List LocalInstr} {a n : Nat} (h : n ≤ (ls.drop a).length) : window ls (a, a + n) ++ ls.drop (a + n) = ls.drop a := by
  unfold window
  rw [Nat.add_sub_cancel_left, ← List.drop_drop, List.take_append_drop]

theorem window_all {ls : List LocalInstr} {a : Nat} : window ls (a, a + (ls.drop a).length) = ls.drop a := by
  unfold window
  rw [Nat.add_sub_cancel_left, List.take_length]

/-- One attempt at a Bell pair that has been started. -/
theorem bellInitRun_ok {ctx : Ctx ρ} {m : Mach ρ} {i : Instr} {b : BellInit} {ls : List LocalInstr} {k : Nat} {r : Res (Mach ρ)} (h : bellInitRun ctx m i b ls k = .ok r) :
    ∃ n, n ≤ (ls.drop k).length ∧ r.instr = { i with op := .bell { b with localInstrs := some ls, counter := some (k, k + n) } } ∧ r.err = false ∧
      (r.followups = [] ∧ n = (ls.drop k).length ∨ r.followups = [r.instr]) := by
  unfold bellInitRun at h
  obtain ⟨x, h1, h⟩ := Outcome.bind_eq_ok.1 h
  obtain ⟨c1, c2⟩ := runLocals_count h1
  dsimp only at h
  split at h
  · rename_i hx
    cases h
    exact ⟨_, c1, rfl, rfl, .inl ⟨rfl, c2 hx⟩⟩
  · cases h
    exact ⟨_, c1, rfl, rfl, .inr rfl⟩

/-- A failed attempt that changes nothing about the instruction. -/
def Unchanged (i : Instr) (r : Res (Mach ρ)) : Prop := r.instr = i ∧ r.err = true ∧ r.followups = []

theorem fail_unchanged {m : Mach ρ} {i : Instr} {r : Res (Mach ρ)} (h : fail m i = .ok r) : Unchanged i r := by
  cases h
  exact ⟨rfl, rfl, rfl⟩

theorem applyBell_ok {ctx : Ctx ρ} {m : Mach ρ} {i : Instr} {b : BellInit} {r : Res (Mach ρ)} (h : applyBell ctx m i b = .ok r) :
    Unchanged i r ∨
    (∃ w ls, b.counter = some w ∧ b.localInstrs = some ls ∧ bellInitRun ctx m i b ls w.2 = .ok r) ∨
    (b.counter = none ∧ ∃ region rs ls, ctx.router.find m.rs m.slice b.loc1.target b.loc1.op b.loc2.target b.loc2.op = .ok (some region, rs) ∧
      2 ≤ region.cells.length ∧ bellInitLocals b (region.cells.map (·.cell)) = .ok ls ∧ bellInitRun ctx { m with rs := rs } i b ls 0 = .ok r) := by
  unfold applyBell at h
  split at h
  · cases h
  split at h
  · exact .inl (fail_unchanged h)
  split at h
  · exact .inl (fail_unchanged h)
  split at h
  · rename_i w second hw
    split at h
    · cases h
    · rename_i ls hl
      exact .inr (.inl ⟨_, ls, hw, hl, h⟩)
  · rename_i hw
    obtain ⟨⟨o, rs⟩, h1, h⟩ := Outcome.bind_eq_ok.1 h
    dsimp only at h
    split at h
    · exact .inl (fail_unchanged h)
    · rename_i region
      split at h
      · exact .inl (fail_unchanged h)
      · rename_i hlen
        obtain ⟨ls, h2, h⟩ := Outcome.bind_eq_ok.1 h
        exact .inr (.inr ⟨hw, region, rs, ls, h1, by omega, h2, h⟩)

/-- One attempt at a CNOT that has been started, without EDPC. -/
theorem cnotRun_ok {ctx : Ctx ρ} {m : Mach ρ} {i : Instr} {c : BellCNOT} {sets : List (List LocalInstr)} {pairs : List (Nat × Nat)} {r : Res (Mach ρ)}
    (h : cnotRun ctx m i c sets pairs = .ok r) :
    ∃ w k ps ls rest n, pairs = (w, k) :: ps ∧ sets = ls :: rest ∧ n ≤ (ls.drop k).length ∧
      r.instr = { i with op := .bellCnot { c with localSets := some sets, counterPairs := some ((k, k + n) :: ps) } } ∧ r.err = false ∧
      (r.followups = [] ∧ n = (ls.drop k).length ∨ r.followups = [r.instr]) := by
  unfold cnotRun at h
  split at h
  · rename_i w k ps ls rest
    obtain ⟨x, h1, h⟩ := Outcome.bind_eq_ok.1 h
    obtain ⟨c1, c2⟩ := runLocals_count h1
    dsimp only at h
    split at h
    · rename_i hx
      cases h
      exact ⟨w, k, ps, ls, rest, _, rfl, rfl, c1, rfl, rfl, .inl ⟨rfl, c2 hx⟩⟩
    · cases h
      exact ⟨w, k, ps, ls, rest, _, rfl, rfl, c1, rfl, rfl, .inr rfl⟩
  · cases h

theorem applyCnot_ok {ctx : Ctx ρ} {m : Mach ρ} {i : Instr} {c : BellCNOT} {r : Res (Mach ρ)} (h : applyCnot ctx m i c = .ok r) :
    Unchanged i r ∨ (ctx.router.edpc = true ∧ applyCnotEdpc ctx m i c = .ok r) ∨ (ctx.router.edpc = false ∧ applyCnotPlain ctx m i c = .ok r) := by
  unfold applyCnot at h
  split at h
  · cases h
  split at h
  · split at h
    · exact .inl (fail_unchanged h)
    · split at h
      · rename_i he; exact .inr (.inl ⟨he, h⟩)
      · rename_i he; exact .inr (.inr ⟨by simpa using he, h⟩)
  · exact .inl (fail_unchanged h)

theorem applyCnotPlain_ok {ctx : Ctx ρ} {m : Mach ρ} {i : Instr} {c : BellCNOT} {r : Res (Mach ρ)} (h : applyCnotPlain ctx m i c = .ok r) :
    Unchanged i r ∨
    (∃ pairs sets, c.counterPairs = some pairs ∧ c.localSets = some sets ∧ cnotRun ctx m i c sets pairs = .ok r) ∨
    (c.counterPairs = none ∧ ∃ region rs region' l, ctx.router.find m.rs m.slice c.control .Z c.target .X = .ok (some region, rs) ∧ 2 ≤ region.cells.length ∧
      withEnds m.slice c region = .ok region' ∧ compileWhole c (region'.cells.map (·.cell)) {} = .ok l ∧
      cnotRun ctx { m with rs := rs } i c [l.l1 ++ l.l2] [(0, 0)] = .ok r) := by
  unfold applyCnotPlain at h
  split at h
  · rename_i pairs hp
    split at h
    · cases h
    · rename_i sets hs
      exact .inr (.inl ⟨pairs, sets, hp, hs, h⟩)
  · rename_i hp
    obtain ⟨⟨o, rs⟩, h1, h⟩ := Outcome.bind_eq_ok.1 h
    dsimp only at h
    split at h
    · exact .inl (fail_unchanged h)
    · rename_i region
      split at h
      · cases h
      · rename_i hlen
        obtain ⟨region', h2, h⟩ := Outcome.bind_eq_ok.1 h
        obtain ⟨l, h3, h⟩ := Outcome.bind_eq_ok.1 h
        exact .inr (.inr ⟨hp, region, rs, region', l, h1, by omega, h2, h3, h⟩)

theorem withEnds_ok {s : DSlice} {c : BellCNOT} {r r' : RoutingRegion} (h : withEnds s c r = .ok r') :
    ∃ a b, s.cellById c.control = some a ∧ s.cellById c.target = some b ∧ r'.cells.map (·.cell) = b :: r.cells.map (·.cell) ++ [a] := by
  unfold withEnds at h
  split at h
  · rename_i a b ha hb
    cases h
    exact ⟨a, b, ha, hb, by simp [bareCell]⟩
  · cases h

theorem markOne_cell {L : Layout} {as : Bool} {act : PatchActivity} {rid : Option Nat} {cs : List Cell} {k : Nat} {o : OccCell} {s : DSlice} {label : BoundaryType}
    {x : DSlice × BoundaryType × OccCell} (h : markOne L as act rid cs k o s label = .ok x) : x.2.2.cell = o.cell := by
  unfold markOne at h
  obtain ⟨p, h1, h⟩ := Outcome.bind_eq_ok.1 h
  split at h
  · split at h
    · split at h
      · split at h
        · cases h
        · split at h
          · cases h
          · split at h
            · cases h
            · obtain ⟨y, -, h⟩ := Outcome.bind_eq_ok.1 h
              cases h
              rfl
      · obtain ⟨y, -, h⟩ := Outcome.bind_eq_ok.1 h
        cases h
        rfl
    · cases h
  · obtain ⟨y, -, h⟩ := Outcome.bind_eq_ok.1 h
    cases h
    dsimp only
    split <;> rfl

theorem markGo_cells {L : Layout} {as : Bool} {act : PatchActivity} {rid : Option Nat} {cs : List Cell} : ∀ {os : List OccCell} {k : Nat} {s : DSlice} {label : BoundaryType}
    {x : DSlice × List OccCell}, markGo L as act rid cs os k s label = .ok x → x.2.map (·.cell) = os.map (·.cell)
  | [], k, s, label, x, h => by
    simp only [markGo, Outcome.ok.injEq] at h
    subst h
    rfl
  | o :: os, k, s, label, x, h => by
    rw [markGo] at h
    obtain ⟨y, h1, h⟩ := Outcome.bind_eq_ok.1 h
    obtain ⟨z, h2, h⟩ := Outcome.bind_eq_ok.1 h
    cases h
    simp [markOne_cell h1, markGo_cells h2]

theorem mark_cells {L : Layout} {as : Bool} {act : PatchActivity} {s : DSlice} {r : RoutingRegion} {x : DSlice × RoutingRegion} (h : mark L as s r act = .ok x) :
    x.2.cells.map (·.cell) = r.cells.map (·.cell) := by
  unfold mark at h
  obtain ⟨y, h1, h⟩ := Outcome.bind_eq_ok.1 h
  cases h
  exact markGo_cells h1

/-- The three passes of EDPC. -/
theorem applyCnotEdpc_ok {ctx : Ctx ρ} {m : Mach ρ} {i : Instr} {c : BellCNOT} {r : Res (Mach ρ)} (h : applyCnotEdpc ctx m i c = .ok r) :
    Unchanged i r ∨
    (c.route = none ∧ ∃ region rs a b region', ctx.router.find m.rs m.slice c.control .Z c.target .X = .ok (some region, rs) ∧ 2 ≤ region.cells.length ∧
      m.slice.cellById c.control = some a ∧ m.slice.cellById c.target = some b ∧ region'.cells.map (·.cell) = b :: region.cells.map (·.cell) ++ [a] ∧
      r.instr = { i with op := .bellCnot { c with route := some region' } } ∧ r.err = true ∧ r.followups = [r.instr]) ∨
    (∃ region e p, c.route = some region ∧ c.counterPairs = none ∧ endpoints m.slice (region.cells.map (·.cell)) = .ok e ∧
      compileEdpc c (region.cells.map (·.cell)) e.1 e.2 = .ok p ∧
      r.instr = { i with op := .bellCnot { c with localSets := some [p.p1.l1, p.p1.l2, p.p2.l1, p.p2.l2], counterPairs := some [(0, 0), (0, 0), (0, 0), (0, 0)], phase := some 0 } } ∧
      r.err = true ∧ r.followups = []) ∨
    (∃ region pairs phase sets, c.route = some region ∧ c.counterPairs = some pairs ∧ c.phase = some phase ∧ c.localSets = some sets ∧ cnotPhase ctx m i c sets pairs phase = .ok r) := by
  unfold applyCnotEdpc at h
  split at h
  · rename_i hr
    unfold cnotRoute at h
    obtain ⟨⟨o, rs⟩, h1, h⟩ := Outcome.bind_eq_ok.1 h
    dsimp only at h
    split at h
    · exact .inl (fail_unchanged h)
    · rename_i region
      split at h
      · cases h
      · rename_i hlen
        obtain ⟨region', h2, h⟩ := Outcome.bind_eq_ok.1 h
        obtain ⟨x, h3, h⟩ := Outcome.bind_eq_ok.1 h
        obtain ⟨a, b, w1, w2, w3⟩ := withEnds_ok h2
        cases h
        exact .inr (.inl ⟨hr, region, rs, a, b, x.2, h1, by omega, w1, w2, by rw [mark_cells h3, w3], rfl, rfl, rfl⟩)
  · rename_i region hr
    split at h
    · rename_i hp
      unfold cnotDecompose at h
      dsimp only at h
      obtain ⟨e, h1, h⟩ := Outcome.bind_eq_ok.1 h
      obtain ⟨p, h2, h⟩ := Outcome.bind_eq_ok.1 h
      cases h
      exact .inr (.inr (.inl ⟨region, e, p, hr, hp, h1, h2, rfl, rfl, rfl⟩))
    · rename_i pairs hp
      split at h
      · rename_i phase sets hph hs
        exact .inr (.inr (.inr ⟨region, pairs, phase, sets, hr, hp, hph, hs, h⟩))
      · cases h

/-- One attempt in a phase of EDPC. -/
theorem cnotPhase_ok {ctx : Ctx ρ} {m : Mach ρ} {i : Instr} {c : BellCNOT} {sets : List (List LocalInstr)} {pairs : List (Nat × Nat)} {phase : Nat} {r : Res (Mach ρ)}
    (h : cnotPhase ctx m i c sets pairs phase = .ok r) :
    ∃ w k ls n, pairs[phase]? = some (w, k) ∧ sets[phase]? = some ls ∧ n ≤ (ls.drop k).length ∧ r.err = false ∧
      (r.followups = [r.instr] ∧ r.instr = { i with op := .bellCnot { c with
          counterPairs := some ((closeWindow (if phase ≠ 0 then closeWindow pairs (phase - 1) else pairs) phase).set phase (k, k + n)) } } ∨
       n = (ls.drop k).length ∧ (phase = sets.length - 1 ∨ phase = 1 ∧ sets[2]? = some []) ∧ r.followups = [] ∧ r.instr = { i with op := .bellCnot { c with
          counterPairs := some ((closeWindow (if phase ≠ 0 then closeWindow pairs (phase - 1) else pairs) phase).set phase (k, k + n)) } } ∨
       n = (ls.drop k).length ∧ ¬ (phase = sets.length - 1 ∨ phase = 1 ∧ sets[2]? = some []) ∧ r.followups = [r.instr] ∧ r.instr = { i with op := .bellCnot { c with
          counterPairs := some ((closeWindow (if phase ≠ 0 then closeWindow pairs (phase - 1) else pairs) phase).set phase (k, k + n))
          phase := some (phase + 1) } }) := by
  have hc : ((sets[2]?).map List.isEmpty = some true) ↔ sets[2]? = some [] := by
    cases sets[2]? with
    | none => simp
    | some l => cases l <;> simp
  unfold cnotPhase at h
  split at h
  · rename_i w k ls hp hs
    dsimp only at h
    obtain ⟨x, h1, h⟩ := Outcome.bind_eq_ok.1 h
    obtain ⟨c1, c2⟩ := runLocals_count h1
    refine ⟨w, k, ls, x.2.1, hp, hs, c1, ?_⟩
    split at h
    · cases h
      exact ⟨rfl, .inl ⟨rfl, rfl⟩⟩
    · rename_i hx
      have hx : x.2.2 = true := by simpa using hx
      split at h
      · rename_i hend
        rw [hc] at hend
        cases h
        exact ⟨rfl, .inr (.inl ⟨c2 hx, hend, rfl, rfl⟩)⟩
      · rename_i hend
        rw [hc] at hend
        cases h
        exact ⟨rfl, .inr (.inr ⟨c2 hx, hend, rfl, rfl⟩)⟩
  · cases h

/-! ### When a label has at least two steps in a row -/

/-- Segments with the labels of their steps. -/
inductive LSegs (lab : Nat → BoundaryType) (n : Nat) : Nat × BoundaryType → List (Nat × BoundaryType) → Prop
  | last {a ty} : a < n → (∀ k, a ≤ k → k < n → lab k = ty) → LSegs lab n (a, ty) [(n, ty)]
  | more {a ty b ty' rest} : a < b → (∀ k, a ≤ k → k < b → lab k = ty) → ty' ≠ ty → LSegs lab n (b, ty') rest → LSegs lab n (a, ty) ((b, ty') :: rest)

theorem LSegs.segs {lab : Nat → BoundaryType} {n : Nat} {a : Nat × BoundaryType} {es : List (Nat × BoundaryType)} (h : LSegs lab n a es) : Segs n a es := by
  induction h with
  | last h _ => exact .last h
  | more h _ h2 _ ih => exact .more h h2 ih

theorem LSegs.first {lab : Nat → BoundaryType} {n : Nat} {a : Nat × BoundaryType} {es : List (Nat × BoundaryType)} (h : LSegs lab n a es) : lab a.1 = a.2 := by
  cases h with
  | last h h1 => exact h1 _ (Nat.le_refl _) h
  | more h h1 _ _ => exact h1 _ (Nat.le_refl _) h

theorem LSegs.back {lab : Nat → BoundaryType} {n a : Nat} {ty : BoundaryType} {es : List (Nat × BoundaryType)} (h : LSegs lab n (a + 1, ty) es) (hl : lab a = ty) :
    LSegs lab n (a, ty) es := by
  cases h with
  | last h h1 =>
    refine .last (by omega) fun k hk hk2 => ?_
    by_cases e : k = a
    · rw [e]; exact hl
    · exact h1 k (by omega) hk2
  | more h h1 h2 h3 =>
    refine .more (by omega) (fun k hk hk2 => ?_) h2 h3
    by_cases e : k = a
    · rw [e]; exact hl
    · exact h1 k (by omega) hk2

theorem endpointsGo_labels {s : DSlice} {lab : Nat → BoundaryType} : ∀ {rest : List Cell} {c : Cell} {k : Nat} {x : List (Nat × BoundaryType) × BoundaryType},
    (∀ j a b, (c :: rest)[j]? = some a → (c :: rest)[j + 1]? = some b → labelBetween s a b = .ok (lab (k + 1 + j))) →
    endpointsGo s (c :: rest) (k + 1) (lab k) = .ok x → LSegs lab (k + 1 + rest.length) (k, lab k) (x.1 ++ [(k + 1 + rest.length, x.2)])
  | [], c, k, x, _, h => by
    simp only [endpointsGo, Outcome.ok.injEq] at h
    subst h
    refine .last (by simp) fun j h1 h2 => ?_
    simp only [List.length_nil, Nat.add_zero] at h2
    rw [show j = k by omega]
  | d :: rest, c, k, x, hl, h => by
    rw [endpointsGo] at h
    obtain ⟨ty, h1, h⟩ := Outcome.bind_eq_ok.1 h
    obtain ⟨y, h2, h⟩ := Outcome.bind_eq_ok.1 h
    have hty : ty = lab (k + 1) := by
      have := hl 0 c d (by simp) (by simp)
      rw [h1] at this
      simpa using this
    subst hty
    have ih := endpointsGo_labels (lab := lab) (fun j a b ha hb => by
      rw [hl (j + 1) a b (by simpa using ha) (by simpa using hb)]
      rw [show k + 1 + (j + 1) = k + 1 + 1 + j by omega]) h2
    simp only [Outcome.ok.injEq] at h
    rw [show k + 1 + 1 + rest.length = k + 1 + (d :: rest).length by simp; omega] at ih
    by_cases ht : lab (k + 1) = lab k
    · rw [if_neg (by simp [ht])] at h
      subst h
      rw [ht] at ih
      exact ih.back rfl
    · rw [if_pos ht] at h
      subst h
      refine .more (by omega) (fun j hj hj2 => ?_) ht ih
      rw [show j = k by omega]

theorem endpoints_labels {s : DSlice} {lab : Nat → BoundaryType} {route : List Cell} {x : List (Nat × BoundaryType) × BoundaryType} (h : endpoints s route = .ok x)
    (hl : ∀ j a b, route[j]? = some a → route[j + 1]? = some b → labelBetween s a b = .ok (lab j)) :
    ∃ es, x.1 = (0, lab 0) :: es ∧ LSegs lab (route.length - 1) (0, lab 0) es := by
  match route, h with
  | a :: b :: rest, h =>
    rw [endpoints] at h
    obtain ⟨ty, h1, h⟩ := Outcome.bind_eq_ok.1 h
    obtain ⟨y, h2, h⟩ := Outcome.bind_eq_ok.1 h
    have hty : ty = lab 0 := by
      have := hl 0 a b (by simp) (by simp)
      rw [h1] at this
      simpa using this
    subst hty
    have := endpointsGo_labels (lab := lab) (k := 0) (fun j a' b' ha hb => by
      rw [hl (j + 1) a' b' (by simpa using ha) (by simpa using hb)]
      rw [show j + 1 = 0 + 1 + j by omega]) h2
    simp only [Outcome.ok.injEq] at h
    subst h
    rw [show 0 + 1 + rest.length = (a :: b :: rest).length - 1 by simp; omega] at this
    exact ⟨_, rfl, this⟩

theorem along_nonempty {route : List Cell} {ks : List Nat} {is : List LocalInstr} (h : Along route ks is) (hk : ks ≠ []) : is ≠ [] := by
  cases h with
  | nil => exact absurd rfl hk
  | cons => simp

theorem edges_nonempty {a e c : Nat} {ks : List Nat} (h : Edges a e c ks) (he : a + 2 ≤ e) : ks ≠ [] := by
  rintro rfl
  by_cases hp : a % 2 = c % 2
  · have := (h.2 a).2 ⟨Nat.le_refl _, by omega, hp⟩
    simp at this
  · have := (h.2 (a + 1)).2 ⟨by omega, by omega, by omega⟩
    simp at this

theorem compile_layer1 {ty : LongRange} {route : List Cell} {a e : Nat} {rev : Bool} {p q : Option Nat} {l l' : Layers} (h1 : a + 2 ≤ e) (h2 : e < route.length)
    (h : compile ty route a e rev p q l = .ok l') : l'.l1 ≠ [] := by
  obtain ⟨l2, k1, k2, g1, g2, g3, -⟩ := compile_ok (ty := ty) (rev := rev) (p := p) (q := q) (l := l) (by omega : a < e) h2
  rw [h] at g1
  cases g1
  obtain ⟨x, e1, e2⟩ := g2.l1
  rw [e1]
  have := along_nonempty e2 (edges_nonempty g3 h1)
  simp [this]

theorem compileSegments_second {cn : BellCNOT} {route : List Cell} {lab : Nat → BoundaryType} {last n : Nat} (hn : n < route.length)
    (hc : ∀ k, k < n → lab k = .reserved2 → (k + 1 < n ∧ lab (k + 1) = .reserved2) ∨ (∃ j, k = j + 1 ∧ lab j = .reserved2))
    {es : List (Nat × BoundaryType)} {x : Nat × BoundaryType} {k : Nat} {p p' : Phases} (hs : LSegs lab n x es) (hx : ∀ j, x.1 = j + 1 → lab j ≠ x.2)
    (hp : p.p2.l1 = [] → p.p2.l2 = []) (h : compileSegments cn route last (x :: es) k p = .ok p') : p'.p2.l1 = [] → p'.p2.l2 = [] := by
  have one : ∀ {a b : Nat × BoundaryType} {k : Nat} {p p' : Phases}, (a.2 = .reserved2 → a.1 + 2 ≤ b.1) → b.1 < route.length → (p.p2.l1 = [] → p.p2.l2 = []) →
      compileSegment cn route last k a b p = .ok p' → p'.p2.l1 = [] → p'.p2.l2 = [] := by
    intro a b k p p' h1 h2 hp h
    unfold compileSegment at h
    split at h
    · dsimp only at h
      split at h
      · obtain ⟨l, -, h⟩ := Outcome.bind_eq_ok.1 h
        cases h
        exact hp
      · split at h
        · obtain ⟨l, -, h⟩ := Outcome.bind_eq_ok.1 h
          cases h
          exact hp
        · obtain ⟨l, -, h⟩ := Outcome.bind_eq_ok.1 h
          cases h
          exact hp
    · rename_i e
      intro hl1
      refine absurd hl1 ?_
      dsimp only at h
      split at h
      · obtain ⟨l, hl, h⟩ := Outcome.bind_eq_ok.1 h
        cases h
        exact compile_layer1 (h1 e) h2 hl
      · split at h
        · obtain ⟨l, hl, h⟩ := Outcome.bind_eq_ok.1 h
          cases h
          exact compile_layer1 (h1 e) h2 hl
        · obtain ⟨l, hl, h⟩ := Outcome.bind_eq_ok.1 h
          cases h
          exact compile_layer1 (h1 e) h2 hl
    · cases h
  induction hs generalizing k p with
  | last h0 h1 =>
    rename_i a ty
    rw [compileSegments] at h
    obtain ⟨p1, h2, h⟩ := Outcome.bind_eq_ok.1 h
    cases h
    refine one (fun e => ?_) hn hp h2
    dsimp only at e ⊢
    have := hc a h0 (by rw [h1 a (Nat.le_refl _) h0]; exact e)
    rcases this with h3 | ⟨j, rfl, h3⟩
    · omega
    · exact absurd (h3.trans e.symm) (hx j rfl)
  | more h0 h1 h2 h3 ih =>
    rename_i a ty b ty' rest
    rw [compileSegments] at h
    obtain ⟨p1, h4, h⟩ := Outcome.bind_eq_ok.1 h
    have hb := h3.segs.lt
    dsimp only at hb
    refine ih (fun j hj => ?_) (one (fun e => ?_) (by dsimp only; omega) hp h4) h
    · dsimp only at hj ⊢
      rw [h1 j (by omega) (by omega)]
      exact Ne.symm h2
    · dsimp only at e ⊢
      have := hc a (by omega) (by rw [h1 a (Nat.le_refl _) h0]; exact e)
      rcases this with h5 | ⟨j, rfl, h5⟩
      · by_cases he : b = a + 1
        · subst he
          have := h3.first
          dsimp only at this
          rw [this] at h5
          exact absurd (h5.2.trans e.symm) h2
        · omega
      · exact absurd (h5.trans e.symm) (hx j rfl)

theorem compileEdpc_second {cn : BellCNOT} {route : List Cell} {s : DSlice} {lab : Nat → BoundaryType} {e : List (Nat × BoundaryType) × BoundaryType} {p : Phases}
    (hn : 4 ≤ route.length) (h : endpoints s route = .ok e) (hp : compileEdpc cn route e.1 e.2 = .ok p)
    (hl : ∀ j a b, route[j]? = some a → route[j + 1]? = some b → labelBetween s a b = .ok (lab j))
    (hc : ∀ k, k + 1 < route.length → lab k = .reserved2 → (k + 2 < route.length ∧ lab (k + 1) = .reserved2) ∨ (∃ j, k = j + 1 ∧ lab j = .reserved2)) :
    p.p2.l1 = [] → p.p2.l2 = [] := by
  unfold compileEdpc at hp
  split at hp
  · obtain ⟨l, -, hp⟩ := Outcome.bind_eq_ok.1 hp
    cases hp
    intro _; rfl
  · split at hp
    · obtain ⟨l, h1, hp⟩ := Outcome.bind_eq_ok.1 hp
      cases hp
      intro h2
      obtain ⟨l', k1, k2, g1, g2, g3, -⟩ := compileWhole_ok (c := cn) (l := {}) hn
      rw [h1] at g1
      cases g1
      exact absurd h2 (along_nonempty g2.phased1.1 (edges_nonempty g3 (by omega)))
    · obtain ⟨es, e1, e2⟩ := endpoints_labels h hl
      rw [e1] at hp
      exact compileSegments_second (by omega) (fun k hk hlk => by
        rcases hc k (by omega) hlk with ⟨h1, h2⟩ | h1
        · exact .inl ⟨by omega, h2⟩
        · exact .inr h1) e2 (fun j hj => by cases hj) (fun _ => rfl) hp

end Verif.Apply
