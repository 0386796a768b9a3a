import Verif.SliceInv

/-!
# What instructions leave alone: lemmas

An instruction that is not a Bell operation only changes cells that were free or hold a patch with an id.
-/

namespace Verif

open Apply

namespace DSlice

/-- Only free cells, cells with an id, and idle cells of `Y` changed by more than their boundaries. -/
structure Steady (Y : List Cell) (s s' : DSlice) : Prop where
  rows : s'.rows = s.rows
  cols : s'.cols = s.cols
  magic : s'.magic = s.magic
  cell : ∀ c, s'.core c = s.core c ∨ s.cells c = none ∨ (s.idAt c).isSome ∨ (c ∈ Y ∧ ∃ p, s.core c = some p ∧ p.activity = .none)

theorem Steady.refl (Y : List Cell) (s : DSlice) : Steady Y s s := ⟨rfl, rfl, rfl, fun _ => .inl rfl⟩

theorem Steady.trans {Y : List Cell} {a b c : DSlice} (h : Steady Y a b) (h' : Steady Y b c) : Steady Y a c := by
  refine ⟨h'.rows.trans h.rows, h'.cols.trans h.cols, h'.magic.trans h.magic, fun x => ?_⟩
  rcases h.cell x with e | e
  · rcases h'.cell x with g | g | g | g
    · exact .inl (g.trans e)
    · exact .inr (.inl (by rw [← core_eq_none, ← e, core_eq_none]; exact g))
    · exact .inr (.inr (.inl (by rw [← idAt_of_core e]; exact g)))
    · exact .inr (.inr (.inr (by rw [← e]; exact g)))
  · exact .inr e

theorem SameCore.steady {Y : List Cell} {a b : DSlice} (h : SameCore a b) : Steady Y a b :=
  ⟨h.rows, h.cols, h.magic, fun c => .inl (h.core c)⟩

theorem Filled.steady {Y R : List Cell} {act : PatchActivity} {a b : DSlice} (h : Filled R act a b) : Steady Y a b := by
  refine ⟨h.rows, h.cols, h.magic, fun c => ?_⟩
  rcases h.cell c with e | ⟨-, e, -⟩
  · exact .inl e
  · exact .inr (.inl e)

theorem core_put (s : DSlice) (c x : Cell) (p : Option DensePatch) : (s.put c p).core x = if x = c then p.map (·.toPatch) else s.core x := by
  unfold core
  simp only [put_cells, upd]
  split <;> rfl

theorem steady_put {Y : List Cell} {s : DSlice} {c : Cell} {p : Option DensePatch}
    (h : s.cells c = none ∨ (s.idAt c).isSome ∨ (c ∈ Y ∧ ∃ p, s.core c = some p ∧ p.activity = .none)) : Steady Y s (s.put c p) := by
  refine ⟨rfl, rfl, rfl, fun x => ?_⟩
  rw [core_put]
  by_cases e : x = c
  · subst e; exact .inr h
  · rw [if_neg e]; exact .inl rfl

theorem steady_modPatch {Y : List Cell} {s : DSlice} {c : Cell} {f : DensePatch → DensePatch}
    (h : s.cells c = none ∨ (s.idAt c).isSome ∨ (c ∈ Y ∧ ∃ p, s.core c = some p ∧ p.activity = .none)) : Steady Y s (s.modPatch c f) := steady_put h

theorem steady_placeSingle {Y : List Cell} {s : DSlice} {p : SparsePatch} {r : DSlice × Cell} (h : s.placeSingle p false = .ok r) : Steady Y s r.1 := by
  obtain ⟨o, ho⟩ := placeSingle_single h
  obtain ⟨-, hf, rfl⟩ := placeSingle_ok ho h
  exact steady_put (.inl hf)

theorem steady_fields {Y : List Cell} {a b b' : DSlice} (h : Steady Y a b) (e : b'.cells = b.cells) (hr : b'.rows = b.rows) (hk : b'.cols = b.cols)
    (hm : b'.magic = b.magic) : Steady Y a b' :=
  ⟨hr.trans h.rows, hk.trans h.cols, hm.trans h.magic, fun c => by
    have : b'.core c = b.core c := by unfold core; rw [e]
    rw [this]; exact h.cell c⟩

end DSlice

namespace Apply

open DSlice

theorem cellById_some {s : DSlice} {t : Nat} {c : Cell} (h : s.cellById t = some c) : (s.idAt c).isSome := by rw [(cellById_holds h).1]; rfl

theorem steady_merge {Y : List Cell} {ctx : Ctx ρ} {m : Mach ρ} {a b : Nat} {opA opB : Pauli} {x : Mach ρ × Bool} (h : merge ctx m a opA b opB = .ok x) :
    Steady Y m.slice x.1.slice := by
  unfold merge at h
  split at h
  · split at h
    · cases h; exact .refl _ _
    · obtain ⟨⟨r, rs⟩, h1, h⟩ := Outcome.bind_eq_ok.1 h
      simp only at h
      split at h
      · cases h; exact .refl _ _
      · split at h
        · obtain ⟨s, h2, h⟩ := Outcome.bind_eq_ok.1 h
          obtain ⟨y, h3, h⟩ := Outcome.bind_eq_ok.1 h
          cases h
          exact (stitch_same h2).steady.trans (mark_filled h3).1.steady
        · cases h
  · cases h

/-- Operations that are neither Bell operations nor busy regions nor magic state requests. -/
def Ordinary : Operation → Prop
  | .bell _ => False
  | .bellCnot _ => False
  | .busy _ _ _ => False
  | .magic _ _ => False
  | _ => True

theorem mem_yCandidates {s : DSlice} : ∀ {cs l : List Cell}, yCandidates s cs = .ok l → ∀ c ∈ l, c ∈ cs ∧ ∃ p, s.cells c = some p ∧ p.id = none ∧ p.isActive = false
  | [], l, h, c, hc => by cases h; cases hc
  | x :: cs, l, h, c, hc => by
    rw [yCandidates] at h
    obtain ⟨p, h1, h⟩ := Outcome.bind_eq_ok.1 h
    obtain ⟨-, h2⟩ := patchAt_ok h1
    split at h
    · cases h
    · rename_i p
      obtain ⟨rest, h3, h⟩ := Outcome.bind_eq_ok.1 h
      cases h
      have ih := mem_yCandidates h3
      split at hc
      · rename_i hp
        rcases List.mem_cons.1 hc with rfl | hc
        · exact ⟨by simp, p, h2, hp.1, hp.2⟩
        · obtain ⟨i1, i2⟩ := ih c hc; exact ⟨by simp [i1], i2⟩
      · obtain ⟨i1, i2⟩ := ih c hc; exact ⟨by simp [i1], i2⟩

theorem nearest_mem {near : Cell} : ∀ {cs : List Cell} {acc : Option Cell} {c : Cell}, nearest near cs acc = some c → c ∈ cs ∨ acc = some c
  | [], acc, c, h => by rw [nearest] at h; exact .inr h
  | x :: cs, none, c, h => by
    rw [nearest] at h
    rcases nearest_mem h with h | h
    · exact .inl (by simp [h])
    · cases h; exact .inl (by simp)
  | x :: cs, some b, c, h => by
    rw [nearest] at h
    rcases nearest_mem h with h | h
    · exact .inl (by simp [h])
    · split at h
      · cases h; exact .inl (by simp)
      · exact .inr h

theorem steady_apply {ctx : Ctx ρ} {m : Mach ρ} {i : Instr} (ho : Ordinary i.op) {r : Wave.Res (Mach ρ)} (h : apply ctx m i = .ok r) :
    Steady ctx.layout.predistilled m.slice r.slice.slice := by
  unfold apply at h
  split at h
  · unfold applyMeasure at h
    split at h
    · cases h; exact .refl _ _
    · rename_i e; cases h; exact steady_modPatch (.inr (.inl (cellById_some e)))
  · unfold applySq at h
    split at h
    · rename_i hc hp
      split at h
      · split at h
        · cases h
        · obtain ⟨⟨m', ok⟩, h1, h⟩ := Outcome.bind_eq_ok.1 h
          have := steady_merge (Y := ctx.layout.predistilled) h1
          simp only at h
          split at h <;> cases h <;> exact this
      · split at h
        · cases h; exact .refl _ _
        · split at h
          · cases h; exact steady_modPatch (.inr (.inl (cellById_some hc)))
          · cases h; exact .refl _ _
    · cases h; exact .refl _ _
  · unfold applyMulti at h
    split at h
    · split at h
      · rename_i hca hcb
        split at h
        · unfold applyMultiLocal at h
          obtain ⟨b1, h1, h⟩ := Outcome.bind_eq_ok.1 h
          split at h
          · cases h
          obtain ⟨b2, h2, h⟩ := Outcome.bind_eq_ok.1 h
          split at h
          · cases h
          · obtain ⟨x, h3, h⟩ := Outcome.bind_eq_ok.1 h
            cases h
            simp only [applyLocal, twoPatchMeasure] at h3
            obtain ⟨f, h4, h3⟩ := Outcome.bind_eq_ok.1 h3
            split at h3
            · cases h3; exact .refl _ _
            · obtain ⟨y, h5, h3⟩ := Outcome.bind_eq_ok.1 h3
              obtain ⟨z, h6, h3⟩ := Outcome.bind_eq_ok.1 h3
              cases h3
              exact ((activateOrFail_same h5).trans (activateOrFail_same h6)).steady
        · split at h
          · cases h
          · obtain ⟨⟨m', ok⟩, h1, h⟩ := Outcome.bind_eq_ok.1 h
            have := steady_merge (Y := ctx.layout.predistilled) h1
            simp only at h
            split at h <;> cases h <;> exact this
      · cases h; exact .refl _ _
    · cases h
  · unfold applyInit at h
    obtain ⟨c, h1, h⟩ := Outcome.bind_eq_ok.1 h
    split at h
    · cases h; exact .refl _ _
    · obtain ⟨x, h2, h⟩ := Outcome.bind_eq_ok.1 h
      cases h
      obtain ⟨-, hf, rfl⟩ := placeSingle_ok rfl h2
      simp only [basicSquare, put_modPatch]
      exact steady_put (.inl hf)
  · rename_i e; rw [e] at ho; exact ho.elim
  · rename_i e; rw [e] at ho; exact ho.elim
  · rcases applyRotate_ok h with rfl | ⟨c, p, n, reg, x, hc, hpc, -, -, h3, rfl⟩
    · exact .refl _ _
    · exact (steady_put (.inr (.inl (cellById_some hc)))).trans (mark_filled h3).1.steady
  · rename_i e; rw [e] at ho; exact ho.elim
  · unfold applyY at h
    split at h
    · rename_i hc
      cases h
      exact steady_fields (steady_modPatch (c := _) (.inr (.inl (cellById_some hc)))) rfl rfl rfl rfl
    · split at h
      · unfold yPredistilled at h
        obtain ⟨cs, h1, h⟩ := Outcome.bind_eq_ok.1 h
        split at h
        · cases h; exact .refl _ _
        · split at h
          · cases h
          · split at h
            · cases h; exact .refl _ _
            · rename_i c hn
              cases h
              refine steady_fields (steady_modPatch (c := c) (.inr (.inr ?_))) rfl rfl rfl rfl
              rcases nearest_mem hn with hm | hm
              · obtain ⟨j1, p, j2, j3, j4⟩ := mem_yCandidates h1 c hm
                refine ⟨j1, p.toPatch, by simp [core, j2], ?_⟩
                unfold DensePatch.isActive at j4
                split at j4
                · cases j4
                · rename_i e; simpa using e
              · cases hm
      · split at h
        · unfold yTwist at h
          split at h
          · cases h
          · obtain ⟨c, h1, h⟩ := Outcome.bind_eq_ok.1 h
            split at h
            · cases h; exact .refl _ _
            · obtain ⟨x, h2, h⟩ := Outcome.bind_eq_ok.1 h
              cases h
              simp only [applyLocal, prepareY] at h2
              obtain ⟨f, h4, h2⟩ := Outcome.bind_eq_ok.1 h2
              split at h2
              · cases h2
              · obtain ⟨y, h5, h2⟩ := Outcome.bind_eq_ok.1 h2
                cases h2
                obtain ⟨-, hf, rfl⟩ := placeSingle_ok rfl h5
                simp only [basicSquare, put_modPatch]
                exact steady_put (.inl hf)
        · cases h; exact .refl _ _
  · rename_i e; rw [e] at ho; exact ho.elim
  · cases h; exact .refl _ _
  · cases h

end Apply

end Verif

namespace Verif

open Apply

namespace DSlice

/-! ### The next slice -/

/-- What the factories do: a cell keeps its patch, or it held neither a qubit nor a prepared state and gets a patch
without id that is not a qubit. -/
structure Made (s s' : DSlice) : Prop where
  rows : s'.rows = s.rows
  cols : s'.cols = s.cols
  cell : ∀ c, s'.cells c = s.cells c ∨
    ((∃ p, s'.cells c = some p ∧ p.id = none ∧ p.type ≠ .qubit) ∧ ∀ p, s.cells c = some p → p.type ≠ .qubit ∧ p.type ≠ .preparedState)

theorem Made.refl (s : DSlice) : Made s s := ⟨rfl, rfl, fun _ => .inl rfl⟩

theorem Made.trans {a b c : DSlice} (h : Made a b) (h' : Made b c) : Made a c := by
  refine ⟨h'.rows.trans h.rows, h'.cols.trans h.cols, fun x => ?_⟩
  rcases h'.cell x with e | ⟨e1, e2⟩
  · rcases h.cell x with g | ⟨g1, g2⟩
    · exact .inl (e.trans g)
    · exact .inr ⟨by rw [e]; exact g1, g2⟩
  · rcases h.cell x with g | ⟨g1, g2⟩
    · exact .inr ⟨e1, by rw [← g]; exact e2⟩
    · exact .inr ⟨e1, g2⟩

/-- The same for factories with a queue: only free cells change. -/
structure Delivered (s s' : DSlice) : Prop where
  rows : s'.rows = s.rows
  cols : s'.cols = s.cols
  cell : ∀ c, s'.cells c = s.cells c ∨ (s.cells c = none ∧ ∃ p, s'.cells c = some p ∧ p.id = none ∧ p.type = .preparedState)

theorem Delivered.refl (s : DSlice) : Delivered s s := ⟨rfl, rfl, fun _ => .inl rfl⟩

theorem Delivered.trans {a b c : DSlice} (h : Delivered a b) (h' : Delivered b c) : Delivered a c := by
  refine ⟨h'.rows.trans h.rows, h'.cols.trans h.cols, fun x => ?_⟩
  rcases h'.cell x with e | ⟨e1, e2⟩
  · rcases h.cell x with g | ⟨g1, g2⟩
    · exact .inl (e.trans g)
    · exact .inr ⟨g1, by rw [e]; exact g2⟩
  · rcases h.cell x with g | ⟨g1, p, g2, -⟩
    · exact .inr ⟨by rw [← g]; exact e1, e2⟩
    · rw [e1] at g2; cases g2

theorem Delivered.made {a b : DSlice} (h : Delivered a b) : Made a b := by
  refine ⟨h.rows, h.cols, fun c => ?_⟩
  rcases h.cell c with e | ⟨e, p, h1, h2, h3⟩
  · exact .inl e
  · exact .inr ⟨⟨p, h1, h2, by simp [h3]⟩, by simp [e]⟩

/-- The queue names prepared states without id or activity. -/
def Queued (s : DSlice) : Prop := ∀ c ∈ s.magic, ∃ p, s.cells c = some p ∧ p.type = .preparedState ∧ p.id = none ∧ p.activity = .none

theorem mem_setInsert {c x : Cell} : ∀ {l : List Cell}, x ∈ setInsert c l ↔ x = c ∨ x ∈ l
  | [] => by simp [setInsert]
  | y :: l => by
    rw [setInsert]
    split
    · rename_i e; subst e; simp
    · split
      · simp
      · simp only [List.mem_cons, mem_setInsert (l := l)]
        constructor
        · rintro (h | h | h) <;> simp [h]
        · rintro (h | h | h) <;> simp [h]

/-- The patch of a magic state. -/
def magicPatch : DensePatch :=
  { type := .preparedState, activity := .none, label := some "Magic State", bounds := ⟨⟨.smooth, false⟩, ⟨.smooth, false⟩, ⟨.rough, false⟩, ⟨.rough, false⟩⟩ }

theorem spawn_ok {s s' : DSlice} {c : Cell} (h : s.spawn c = .ok s') : s' = { s.put c (some magicPatch) with magic := setInsert c s.magic } := by
  unfold spawn at h
  obtain ⟨r, h1, h⟩ := Outcome.bind_eq_ok.1 h
  obtain ⟨-, rfl⟩ := placeSingle_any (o := ⟨⟨⟨.smooth, false⟩, ⟨.smooth, false⟩, ⟨.rough, false⟩, ⟨.rough, false⟩⟩, c⟩) rfl h1
  cases h
  rfl

theorem queued_spawn {s s' : DSlice} {c : Cell} (h : s.spawn c = .ok s') (hq : Queued s) : Queued s' := by
  rw [spawn_ok h]
  intro x hx
  simp only [mem_setInsert] at hx
  by_cases e : x = c
  · subst e; exact ⟨magicPatch, by simp, rfl, rfl, rfl⟩
  · obtain ⟨p, hp, h1⟩ := hq x (hx.resolve_left e)
    refine ⟨p, ?_, h1⟩
    simp only [put_cells]
    rw [upd_other _ _ e]; exact hp

theorem respawn_made {L : Layout} : ∀ {cs : List Cell} {i : Nat} {s s' : DSlice}, respawn L cs i s = .ok s' → Made s s' ∧ (Queued s → Queued s')
  | [], _, s, s', h => by cases h; exact ⟨.refl _, fun h => h⟩
  | c :: cs, i, s, s', h => by
    rw [respawn] at h
    obtain ⟨s1, h1, h⟩ := Outcome.bind_eq_ok.1 h
    obtain ⟨s2, h2, h⟩ := Outcome.bind_eq_ok.1 h
    obtain ⟨i1, i2⟩ := respawn_made h
    have g1 : Made s s1 ∧ (Queued s → Queued s1) := by
      unfold respawnCount at h1
      obtain ⟨p, h0, h1⟩ := Outcome.bind_eq_ok.1 h1
      obtain ⟨hr, hp⟩ := patchAt_ok h0
      split at h1
      · split at h1
        · cases h1
          refine ⟨⟨rfl, rfl, fun x => ?_⟩, ?_⟩
          · by_cases e : x = c
            · subst e
              right
              refine ⟨⟨_, by simp; rfl, rfl, by simp [distillationPatch]⟩, by simp [hp]⟩
            · left; simp only [put_cells]; rw [upd_other _ _ e]
          · intro hq x hx
            obtain ⟨q, hq1, hq2⟩ := hq x hx
            refine ⟨q, ?_, hq2⟩
            have e : x ≠ c := by rintro rfl; rw [hp] at hq1; cases hq1
            simp only [put_cells]; rw [upd_other _ _ e]; exact hq1
        · cases h1
      · split at h1
        · split at h1
          · cases h1; exact ⟨⟨rfl, rfl, fun _ => .inl rfl⟩, fun h => h⟩
          · cases h1
        · cases h1; exact ⟨.refl _, fun h => h⟩
    have g2 : Made s1 s2 ∧ (Queued s1 → Queued s2) := by
      unfold respawnPlace at h2
      split at h2
      · rename_i t p ht hp
        split at h2
        · rename_i hc
          refine ⟨?_, queued_spawn h2⟩
          rw [spawn_ok h2]
          refine ⟨rfl, rfl, fun x => ?_⟩
          by_cases e : x = c
          · subst e
            right
            refine ⟨⟨magicPatch, by simp, rfl, by simp [magicPatch]⟩, ?_⟩
            intro q hq
            rw [hp] at hq
            cases hq
            exact ⟨hc.2.2, hc.2.1⟩
          · left; simp only [put_cells]; rw [upd_other _ _ e]
        · cases h2; exact ⟨.refl _, fun h => h⟩
      · cases h2
    exact ⟨(g1.1.trans g2.1).trans i1, fun hq => i2 (g2.2 (g1.2 hq))⟩

theorem firstFree_ok {s : DSlice} : ∀ {cs : List Cell} {c : Cell}, s.firstFree cs = .ok (some c) → c ∈ cs ∧ s.inRange c = true ∧ s.cells c = none
  | [], c, h => by cases h
  | x :: cs, c, h => by
    rw [firstFree] at h
    obtain ⟨f, h1, h⟩ := Outcome.bind_eq_ok.1 h
    obtain ⟨hr, hf⟩ := isFree_ok h1
    split at h
    · rename_i e; cases h; exact ⟨by simp, hr, hf.1 e⟩
    · obtain ⟨i1, i2⟩ := firstFree_ok h; exact ⟨by simp [i1], i2⟩

theorem deliver_ok {L : Layout} {s s' : DSlice} {i : Nat} (h : deliver L s i = .ok s') : Delivered s s' ∧ (Queued s → Queued s') := by
  unfold deliver at h
  split at h
  · obtain ⟨o, h2, h⟩ := Outcome.bind_eq_ok.1 h
    split at h
    · rename_i c
      obtain ⟨-, -, hfree⟩ := firstFree_ok h2
      obtain ⟨s2, h3, h⟩ := Outcome.bind_eq_ok.1 h
      cases h
      refine ⟨⟨by rw [spawn_ok h3]; rfl, by rw [spawn_ok h3]; rfl, fun x => ?_⟩, fun hq => (show Queued s2 from queued_spawn h3 hq)⟩
      rw [spawn_ok h3]
      by_cases e : x = c
      · subst e; exact .inr ⟨hfree, magicPatch, by simp, rfl, rfl⟩
      · left; simp only [put_cells]; rw [upd_other _ _ e]
    · cases h; exact ⟨⟨rfl, rfl, fun _ => .inl rfl⟩, fun h => h⟩
  · cases h

theorem factories_ok {L : Layout} : ∀ {n i : Nat} {s s' : DSlice}, factories L n i s = .ok s' → Delivered s s' ∧ (Queued s → Queued s')
  | 0, _, s, s', h => by cases h; exact ⟨.refl _, fun h => h⟩
  | n + 1, i, s, s', h => by
    rw [factories] at h
    split at h
    · obtain ⟨s1, h1, h⟩ := Outcome.bind_eq_ok.1 h
      obtain ⟨d1, d2⟩ := deliver_ok h1
      obtain ⟨i1, i2⟩ := factories_ok h
      have d0 : Delivered s { s with times := s.times.set i (dec32 (s.times.getD i 0)) } := ⟨rfl, rfl, fun _ => .inl rfl⟩
      exact ⟨(d0.trans d1).trans i1, fun hq => i2 (d2 hq)⟩
    · obtain ⟨i1, i2⟩ := factories_ok h
      have d0 : Delivered s { s with times := s.times.set i (dec32 (s.times.getD i 0)) } := ⟨rfl, rfl, fun _ => .inl rfl⟩
      exact ⟨d0.trans i1, fun hq => i2 hq⟩

theorem advance_ok {L : Layout} {s s' : DSlice} (h : s.advance L = .ok s') :
    Made s.ageAll s' ∧ (L.magicReserved = false → Delivered s.ageAll s') ∧ (Queued s.ageAll → Queued s') := by
  unfold advance at h
  simp only at h
  split at h
  · rename_i e
    obtain ⟨s1, h1, h⟩ := Outcome.bind_eq_ok.1 h
    obtain ⟨g1, g2⟩ := respawn_made h1
    cases h
    exact ⟨⟨g1.rows, g1.cols, g1.cell⟩, by simp [e], g2⟩
  · obtain ⟨s1, h1, h⟩ := Outcome.bind_eq_ok.1 h
    obtain ⟨g1, g2⟩ := factories_ok h1
    cases h
    exact ⟨⟨g1.made.rows, g1.made.cols, g1.made.cell⟩, fun _ => ⟨g1.rows, g1.cols, g1.cell⟩, g2⟩

/-- The boundary types of a patch. -/
def sideTypes (b : CellBoundaries) : BoundaryType × BoundaryType × BoundaryType × BoundaryType := (b.top.ty, b.bottom.ty, b.left.ty, b.right.ty)

theorem age_ok (p : DensePatch) : (age p = none ↔ p.activity = .measurement ∨ p.activity = .multiPatchMeasurement) ∧
    ∀ q, age p = some q → q.type = p.type ∧ q.id = p.id ∧ q.label = p.label ∧ q.opId = p.opId ∧ sideTypes q.bounds = sideTypes p.bounds ∧
      q.activity = (if p.activity = .unitary then .none else if p.activity = .edpc then .reserved else p.activity) ∧
      (p.activity ≠ .rotation → p.activity ≠ .edpc → p.activity ≠ .reserved → q.bounds.hasActive = false) := by
  rcases p with ⟨⟨type, act, id, label, op⟩, b⟩
  cases act <;> simp [age, sideTypes, CellBoundaries.hasActive]

theorem queued_ageAll {s : DSlice} (h : Queued s) : Queued s.ageAll := by
  intro c hc
  obtain ⟨p, hp, h1, h2, h3⟩ := h c hc
  obtain ⟨a1, a2⟩ := age_ok p
  cases ha : age p with
  | none => rcases a1.1 ha with e | e <;> (rw [h3] at e; cases e)
  | some q =>
    obtain ⟨b1, b2, -, -, -, b6, -⟩ := a2 q ha
    exact ⟨q, by simp [ageAll, hp, ha], by rw [b1, h1], by rw [b2, h2], by rw [b6, h3]; rfl⟩

/-! ### Queue and rotations over a history -/

/-- A cell that a rotation keeps busy. -/
def Turning (s : DSlice) (c : Cell) : Prop := s.inRange c = true ∧ ∃ p, s.core c = some p ∧ p.type = .routing ∧ p.activity = .rotation ∧ p.id = none

/-- The cells of the busy regions among some instructions. -/
def busyCells (w : List Instr) : List Cell :=
  w.flatMap fun i => match i.op with
    | .busy r _ _ => r.cells.map (·.cell)
    | _ => []

theorem busyCells_append (a b : List Instr) : busyCells (a ++ b) = busyCells a ++ busyCells b := by unfold busyCells; rw [List.flatMap_append]

theorem busyCells_perm {a b : List Instr} (h : a.Perm b) : (busyCells a).Perm (busyCells b) := List.Perm.flatMap_right _ h

theorem Steady.turning {Y : List Cell} {s s' : DSlice} (h : Steady Y s s') {c : Cell} (ht : Turning s c) : Turning s' c := by
  obtain ⟨hr, p, hp, h1, h2, h3⟩ := ht
  refine ⟨?_, ?_⟩
  · unfold inRange at hr ⊢; rw [h.rows, h.cols]; exact hr
  rcases h.cell c with e | e | e | ⟨-, q, hq, ha⟩
  · exact ⟨p, by rw [e]; exact hp, h1, h2, h3⟩
  · rw [← core_eq_none] at e; rw [e] at hp; cases hp
  · unfold idAt at e
    unfold core at hp
    cases hc : s.cells c with
    | none => simp [hc] at hp
    | some d =>
      simp only [hc, Option.map_some, Option.some.injEq, Option.bind_some] at hp e
      rw [hp, h3] at e
      cases e
  · rw [hp] at hq; cases hq; rw [h2] at ha; cases ha

theorem Steady.queued {Y : List Cell} {s s' : DSlice} (h : Steady Y s s') (hY : ∀ c ∈ s.magic, c ∉ Y) (hq : Queued s) : Queued s' := by
  intro c hc
  rw [h.magic] at hc
  obtain ⟨p, hp, h1, h2, h3⟩ := hq c hc
  rcases h.cell c with e | e | e | ⟨e, -⟩
  · have : s'.core c = some p.toPatch := by rw [e]; simp [core, hp]
    unfold core at this
    cases hd : s'.cells c with
    | none => simp [hd] at this
    | some d =>
      simp only [hd, Option.map_some, Option.some.injEq] at this
      exact ⟨d, rfl, by rw [this]; exact h1, by rw [this]; exact h2, by rw [this]; exact h3⟩
  · rw [e] at hp; cases hp
  · simp [idAt, hp, h2] at e
  · exact absurd e (hY c hc)

end DSlice

end Verif
