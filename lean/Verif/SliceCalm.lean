import Verif.SliceSteady

/-!
# Queue and rotations over a history: lemmas
-/

namespace Verif

open Apply DSlice

variable {ρ : Type}

namespace Apply

/-- Not a Bell operation. -/
def NoBell : Operation → Prop
  | .bell _ => False
  | .bellCnot _ => False
  | _ => True

/-- A busy region is that of a rotation: two cells, the first of which gets the patch back. -/
def Shaped (i : Instr) : Prop := ∀ r n after, i.op = .busy r n after →
  ∃ a b p o, r.cells = [a, b] ∧ after = [p] ∧ p.cells = .single o ∧ o.cell = a.cell ∧ a.cell ≠ b.cell

theorem shaped_of {i : Instr} (h : ∀ r n after, i.op ≠ .busy r n after) : Shaped i := fun r n after e => absurd e (h r n after)

theorem shaped_ordinary {i : Instr} (h : Ordinary i.op) : Shaped i := shaped_of fun r n after e => by rw [e] at h; exact h

theorem noBell_ordinary {o : Operation} (h : Ordinary o) : NoBell o := by cases o <;> first | trivial | exact h.elim

theorem busyCells_ordinary : ∀ {l : List Instr}, (∀ j ∈ l, Ordinary j.op) → busyCells l = []
  | [], _ => rfl
  | j :: l, h => by
    have hj := h j (by simp)
    have ih := busyCells_ordinary fun k hk => h k (List.mem_cons_of_mem _ hk)
    unfold busyCells at ih ⊢
    rw [List.flatMap_cons, ih]
    cases e : j.op <;> rw [e] at hj <;> first | exact hj.elim | rfl

theorem leftover_fail (m : Mach ρ) (i : Instr) : leftover (⟨m, i, true, []⟩ : Wave.Res (Mach ρ)) = [i] := rfl
theorem leftover_success (m : Mach ρ) (i : Instr) : leftover (⟨m, i, false, []⟩ : Wave.Res (Mach ρ)) = [] := rfl
theorem leftover_followup (m : Mach ρ) (i f : Instr) (b : Bool) : leftover (⟨m, i, b, [f]⟩ : Wave.Res (Mach ρ)) = [f] := rfl

/-- What remains of an ordinary instruction is ordinary, except for the busy region of a rotation. -/
theorem ordinary_leftover {ctx : Ctx ρ} {m : Mach ρ} {i : Instr} (ho : Ordinary i.op) {r : Wave.Res (Mach ρ)} (h : apply ctx m i = .ok r) :
    (∀ j ∈ leftover r, Ordinary j.op) ∨ ∃ t c p n reg x, i.op = .rotate t ∧ m.slice.cellById t = some c ∧ m.slice.cells c = some p ∧
      rotationRegion c n = some reg ∧ mark ctx.layout ctx.asserts (m.slice.put c none) reg .rotation = .ok x ∧
      r = ⟨{ m with slice := x.1 }, i, false, [{ op := .busy x.2 2 [rotated p c] }]⟩ := by
  have same : ∀ m' : Mach ρ, ∀ j ∈ leftover (⟨m', i, true, []⟩ : Wave.Res (Mach ρ)), Ordinary j.op := by
    intro m' j hj; rw [leftover_fail, List.mem_singleton] at hj; rw [hj]; exact ho
  have none : ∀ (m' : Mach ρ) (i' : Instr), ∀ j ∈ leftover (⟨m', i', false, []⟩ : Wave.Res (Mach ρ)), Ordinary j.op := by
    intro m' i' j hj; rw [leftover_success] at hj; cases hj
  unfold apply at h
  split at h
  · unfold applyMeasure at h
    split at h
    · cases h; exact .inl (same _)
    · cases h; exact .inl (none _ _)
  · unfold applySq at h
    split at h
    · split at h
      · split at h
        · cases h
        · obtain ⟨⟨m', ok⟩, h1, h⟩ := Outcome.bind_eq_ok.1 h
          simp only at h
          split at h
          · cases h
            left
            intro j hj
            rw [leftover_followup, List.mem_singleton] at hj
            rw [hj]; trivial
          · cases h; exact .inl (same _)
      · split at h
        · cases h; exact .inl (same _)
        · split at h
          · cases h; exact .inl (none _ _)
          · cases h; exact .inl (none _ _)
    · cases h; exact .inl (same _)
  · unfold applyMulti at h
    split at h
    · split at h
      · split at h
        · unfold applyMultiLocal at h
          obtain ⟨b1, h1, h⟩ := Outcome.bind_eq_ok.1 h
          split at h
          · cases h
          obtain ⟨b2, h2, h⟩ := Outcome.bind_eq_ok.1 h
          split at h
          · cases h
          · obtain ⟨x, h3, h⟩ := Outcome.bind_eq_ok.1 h
            cases h
            left
            cases x.2
            · exact none _ _
            · intro j hj; rw [leftover_fail, List.mem_singleton] at hj; rw [hj]; trivial
        · split at h
          · cases h
          · obtain ⟨⟨m', ok⟩, h1, h⟩ := Outcome.bind_eq_ok.1 h
            simp only at h
            split at h
            · cases h; exact .inl (none _ _)
            · cases h; exact .inl (same _)
      · cases h; exact .inl (same _)
    · cases h
  · unfold applyInit at h
    obtain ⟨c, h1, h⟩ := Outcome.bind_eq_ok.1 h
    split at h
    · cases h; exact .inl (same _)
    · obtain ⟨x, h2, h⟩ := Outcome.bind_eq_ok.1 h
      cases h; exact .inl (none _ _)
  · rename_i e; rw [e] at ho; exact ho.elim
  · rename_i e; rw [e] at ho; exact ho.elim
  · rename_i t e
    rcases applyRotate_ok h with rfl | ⟨c, p, n, reg, x, hc, hpc, -, hr, h3, hres⟩
    · exact .inl (same _)
    · exact .inr ⟨t, c, p, n, reg, x, e, hc, hpc, hr, h3, hres⟩
  · rename_i e; rw [e] at ho; exact ho.elim
  · left
    unfold applyY at h
    split at h
    · cases h; exact none _ _
    · split at h
      · unfold yPredistilled at h
        obtain ⟨cs, h1, h⟩ := Outcome.bind_eq_ok.1 h
        split at h
        · cases h; exact same _
        · split at h
          · cases h
          · split at h
            · cases h; exact same _
            · cases h; exact none _ _
      · split at h
        · unfold yTwist at h
          split at h
          · cases h
          · obtain ⟨c, h1, h⟩ := Outcome.bind_eq_ok.1 h
            split at h
            · cases h; exact same _
            · obtain ⟨x, h2, h⟩ := Outcome.bind_eq_ok.1 h
              cases h; exact none _ _
        · cases h; exact same _
  · rename_i e; rw [e] at ho; exact ho.elim
  · cases h; exact .inl (none _ _)
  · cases h

theorem clear_ok {asserts : Bool} : ∀ {os : List OccCell} {s s' : DSlice}, clear asserts os s = .ok s' →
    s' = { s with cells := fun c => if c ∈ os.map (·.cell) then none else s.cells c } ∧
    (asserts = true → ∀ o ∈ os, ∃ p, s.cells o.cell = some p ∧ p.type = .routing)
  | [], s, s', h => by cases h; exact ⟨by simp, by simp⟩
  | o :: os, s, s', h => by
    rw [clear] at h
    obtain ⟨p, h1, h⟩ := Outcome.bind_eq_ok.1 h
    obtain ⟨hr, hp⟩ := patchAt_ok h1
    split at h
    · cases h
    · rename_i hn
      obtain ⟨e, i2⟩ := clear_ok h
      refine ⟨?_, ?_⟩
      · rw [e]
        simp only [put, DSlice.mk.injEq, true_and, and_true]
        funext c
        simp only [List.map_cons, List.mem_cons, upd]
        by_cases h1 : c = o.cell
        · simp [h1]
        · by_cases h2 : c ∈ os.map (·.cell)
          · simp [h1, h2]
          · simp [h1, h2]
      · intro ha o' ho'
        rcases List.mem_cons.1 ho' with rfl | ho'
        · have : p.map (·.type) = some .routing := by
            cases hd : decide (p.map (·.type) = some .routing) with
            | true => exact of_decide_eq_true hd
            | false => exact absurd ⟨ha, of_decide_eq_false hd⟩ hn
          cases p with
          | none => cases this
          | some q => exact ⟨q, hp, by simpa using this⟩
        · obtain ⟨q, h2, h3⟩ := i2 ha o' ho'
          simp only [put_cells] at h2
          by_cases e1 : o'.cell = o.cell
          · rw [e1, upd_same] at h2; cases h2
          · rw [upd_other _ _ e1] at h2; exact ⟨q, h2, h3⟩

/-- Restoring one patch of one cell. -/
theorem restore_one {p : SparsePatch} {o : OccCell} (hp : p.cells = .single o) {s : DSlice} {x : DSlice × Bool} (h : restore [p] s = .ok x) :
    s.inRange o.cell = true ∧ ((x = (s, true) ∧ s.cells o.cell ≠ none) ∨
      (x = (s.put o.cell (some { toPatch := p.toPatch, bounds := o.bounds }), false) ∧ s.cells o.cell = none)) := by
  rw [restore] at h
  obtain ⟨f, h1, h⟩ := Outcome.bind_eq_ok.1 h
  simp only [SparsePatch.occ, hp, allFree] at h1
  obtain ⟨f', h2, h1⟩ := Outcome.bind_eq_ok.1 h1
  obtain ⟨hr, hf⟩ := isFree_ok h2
  simp only [Outcome.bind_ok, Bool.and_true, Outcome.ok.injEq] at h1
  subst h1
  refine ⟨hr, ?_⟩
  split at h
  · rename_i e
    cases h
    left
    refine ⟨rfl, ?_⟩
    intro e'
    rw [hf.2 e'] at e
    cases e
  · rename_i e
    right
    obtain ⟨s1, h3, h⟩ := Outcome.bind_eq_ok.1 h
    rw [restore] at h
    cases h
    unfold place at h3
    rw [hp] at h3
    obtain ⟨y, h4, h3⟩ := Outcome.bind_eq_ok.1 h3
    obtain ⟨-, hfree, rfl⟩ := placeSingle_ok hp h4
    cases h3
    exact ⟨rfl, hfree⟩

/-- The state of a history with queue and rotations. -/
structure Calm (ctx : Ctx ρ) (s : DSlice) (w : List Instr) : Prop where
  queued : Queued s
  source : ∀ c ∈ s.magic, c ∉ ctx.layout.predistilled
  turning : ctx.layout.magicReserved = false → (busyCells w).Nodup ∧ ∀ c ∈ busyCells w, Turning s c
  shaped : ∀ j ∈ w, NoBell j.op ∧ Shaped j

theorem Calm.add {ctx : Ctx ρ} {s : DSlice} {w : List Instr} (h : Calm ctx s w) {i : Instr} (hi : NoBell i.op) (hb : ∀ r n after, i.op ≠ .busy r n after) :
    Calm ctx s (i :: w) := by
  have e : busyCells (i :: w) = busyCells w := by
    unfold busyCells
    rw [List.flatMap_cons]
    split
    · rename_i hh; exact absurd hh (hb _ _ _)
    · rfl
  refine ⟨h.queued, h.source, ?_, ?_⟩
  · rw [e]; exact h.turning
  · intro j hj
    rcases List.mem_cons.1 hj with rfl | hj
    · exact ⟨hi, shaped_of hb⟩
    · exact h.shaped j hj

theorem Calm.perm {ctx : Ctx ρ} {s : DSlice} {w w' : List Instr} (h : Calm ctx s w) (hp : w.Perm w') : Calm ctx s w' := by
  have hb := busyCells_perm hp
  refine ⟨h.queued, h.source, fun hm => ?_, fun j hj => h.shaped j (hp.mem_iff.2 hj)⟩
  obtain ⟨h1, h2⟩ := h.turning hm
  exact ⟨hb.nodup_iff.1 h1, fun c hc => h2 c (hb.mem_iff.2 hc)⟩

theorem Calm.waits {ctx : Ctx ρ} {s : DSlice} {w : List Instr} {i : Instr} (h : Calm ctx s (i :: w)) (k : Nat) : Calm ctx s ({ i with wait := k } :: w) := by
  refine ⟨h.queued, h.source, h.turning, ?_⟩
  intro j hj
  rcases List.mem_cons.1 hj with rfl | hj
  · exact h.shaped i (by simp)
  · exact h.shaped j (by simp [hj])

theorem busyCells_cons (i : Instr) (w : List Instr) : busyCells (i :: w) = busyCells [i] ++ busyCells w := busyCells_append [i] w

theorem busyCells_sub {ctx : Ctx ρ} {s : DSlice} {i : Instr} {w : List Instr} (h : Calm ctx s (i :: w)) (hm : ctx.layout.magicReserved = false) :
    (busyCells w).Nodup ∧ ∀ c ∈ busyCells w, Turning s c := by
  obtain ⟨h1, h2⟩ := h.turning hm
  rw [busyCells_cons, List.nodup_append] at h1
  exact ⟨h1.2.1, fun c hc => h2 c (by rw [busyCells_cons]; exact List.mem_append_right _ hc)⟩

theorem rotationRegion_cells {c n : Cell} {reg : RoutingRegion} (h : rotationRegion c n = some reg) :
    ∃ a b, reg.cells = [a, b] ∧ a.cell = c ∧ b.cell = n := by
  unfold rotationRegion at h
  split at h
  · rename_i a b ha hb
    cases h
    refine ⟨a, b, rfl, ?_, ?_⟩
    · unfold OccCell.setBoundaryWith at ha
      obtain ⟨d, -, e⟩ := Option.map_eq_some_iff.1 ha
      rw [← e]; rfl
    · unfold OccCell.setBoundaryWith at hb
      obtain ⟨d, -, e⟩ := Option.map_eq_some_iff.1 hb
      rw [← e]; rfl
  · cases h

/-- A marked rotation region: exactly the two patches. -/
theorem mark_rotation {L : Layout} {asserts : Bool} {s : DSlice} {c n : Cell} {reg : RoutingRegion} {x : DSlice × RoutingRegion}
    (hr : rotationRegion c n = some reg) (h : mark L asserts s reg .rotation = .ok x) :
    ∃ a b, reg.cells = [a, b] ∧ a.cell = c ∧ b.cell = n ∧ c ≠ n ∧ s.inRange c = true ∧ s.inRange n = true ∧ s.cells c = none ∧ s.cells n = none ∧
      x.2 = reg ∧ x.1 = (s.put c (some { type := .routing, activity := .rotation, opId := reg.regionId, bounds := a.bounds })).put n
        (some { type := .routing, activity := .rotation, opId := reg.regionId, bounds := b.bounds }) := by
  obtain ⟨a, b, e, ha, hb⟩ := rotationRegion_cells hr
  unfold mark at h
  obtain ⟨y, h1, h⟩ := Outcome.bind_eq_ok.1 h
  obtain ⟨p1, p2, p3, p4⟩ := markGo_plain (by decide) h1
  cases h
  rw [e] at p2 p3 p4 p1
  refine ⟨a, b, e, ha, hb, ?_, ?_, ?_, ?_, ?_, ?_, ?_⟩
  · simp only [List.map_cons, List.map_nil, List.nodup_cons, List.mem_singleton] at p3
    rw [← ha, ← hb]; exact p3.1
  · rw [← ha]; exact (p4 a (by simp)).1
  · rw [← hb]; exact (p4 b (by simp)).1
  · rw [← ha]; exact (p4 a (by simp)).2
  · rw [← hb]; exact (p4 b (by simp)).2
  · simp only [p1]; rcases reg with ⟨cs, id⟩; simp only at e; rw [e]
  · rw [p2, ← ha, ← hb]; rfl

theorem turning_core {s s' : DSlice} {c : Cell} (h : Turning s c) (hr : s'.rows = s.rows) (hk : s'.cols = s.cols) (hc : s'.cells c = s.cells c) : Turning s' c := by
  obtain ⟨h1, p, h2, h3⟩ := h
  refine ⟨?_, p, ?_, h3⟩
  · unfold inRange at h1 ⊢; rw [hr, hk]; exact h1
  · unfold core at h2 ⊢; rw [hc]; exact h2

theorem turning_cells {s : DSlice} {c : Cell} (h : Turning s c) : ∃ p, s.cells c = some p ∧ p.type = .routing ∧ p.activity = .rotation ∧ p.id = none := by
  obtain ⟨-, p, h2, h3⟩ := h
  unfold core at h2
  cases hc : s.cells c with
  | none => simp [hc] at h2
  | some q => simp only [hc, Option.map_some, Option.some.injEq] at h2; exact ⟨q, rfl, by rw [h2]; exact h3⟩

theorem calm_ordinary {ctx : Ctx ρ} {m : Mach ρ} {i : Instr} {w : List Instr} (ho : Ordinary i.op) {r : Wave.Res (Mach ρ)}
    (h : apply ctx m i = .ok r) (hc : Calm ctx m.slice (i :: w)) : Calm ctx r.slice.slice (leftover r ++ w) := by
  have st := steady_apply ho h
  refine ⟨st.queued hc.source hc.queued, ?_, ?_, ?_⟩
  · rw [st.magic]; exact hc.source
  · intro hm
    obtain ⟨n1, t1⟩ := busyCells_sub hc hm
    rcases ordinary_leftover ho h with hl | ⟨t, c, p, n, reg, x, hi, hcell, hp, hreg, hmark, rfl⟩
    · rw [busyCells_append, busyCells_ordinary hl, List.nil_append]
      exact ⟨n1, fun c hc => st.turning (t1 c hc)⟩
    · obtain ⟨a, b, e, ha, hb, hne, r1, r2, f1, f2, e2, e1⟩ := mark_rotation hreg hmark
      have eb : busyCells (leftover (⟨{ m with slice := x.1 }, i, false, [{ op := .busy x.2 2 [rotated p c] }]⟩ : Wave.Res (Mach ρ))) = [c, n] := by
        rw [leftover_followup]
        unfold busyCells
        simp [e2, e, ha, hb]
      rw [busyCells_append, eb]
      have hnfree : m.slice.cells n = none := by
        simp only [put_cells] at f2
        rw [upd_other _ _ (Ne.symm hne)] at f2; exact f2
      refine ⟨?_, ?_⟩
      · rw [List.nodup_append]
        refine ⟨by simp [hne], n1, ?_⟩
        rintro y hy z hz rfl
        obtain ⟨q, hq, -, -, hqid⟩ := turning_cells (t1 y hz)
        rcases List.mem_cons.1 hy with rfl | hy
        · have := cellById_some hcell
          simp [idAt, hq, hqid] at this
        · rw [List.mem_singleton] at hy
          subst hy
          rw [hnfree] at hq; cases hq
      · intro y hy
        rcases List.mem_append.1 hy with hy | hy
        · have hr1 : x.1.inRange y = true := by
            rw [e1]
            rcases List.mem_cons.1 hy with rfl | hy
            · exact r1
            · rw [List.mem_singleton] at hy; subst hy; exact r2
          refine ⟨hr1, ?_⟩
          rw [e1]
          simp only [core_put]
          by_cases g : y = n
          · rw [if_pos g]; exact ⟨_, rfl, rfl, rfl, rfl⟩
          · rw [if_neg g]
            have : y = c := by simpa [g] using hy
            rw [if_pos this]; exact ⟨_, rfl, rfl, rfl, rfl⟩
        · exact st.turning (t1 y hy)
  · intro j hj
    rcases List.mem_append.1 hj with hj | hj
    · rcases ordinary_leftover ho h with hl | ⟨t, c, p, n, reg, x, hi, hcell, hp, hreg, hmark, rfl⟩
      · exact ⟨noBell_ordinary (hl j hj), shaped_ordinary (hl j hj)⟩
      · rw [leftover_followup, List.mem_singleton] at hj
        subst hj
        refine ⟨trivial, ?_⟩
        obtain ⟨a, b, e, ha, hb, hne, -, -, -, -, e2, -⟩ := mark_rotation hreg hmark
        rintro r' k after e'
        simp only [Operation.busy.injEq] at e'
        obtain ⟨rfl, rfl, rfl⟩ := e'
        refine ⟨a, b, _, ⟨_, c⟩, by rw [e2]; exact e, rfl, rfl, ha.symm, by rw [ha, hb]; exact hne⟩
    · exact hc.shaped j (List.mem_cons_of_mem _ hj)

/-- What a request for a magic state does. -/
theorem applyMagic_ok {ctx : Ctx ρ} {m : Mach ρ} {i : Instr} {t near : Nat} {r : Wave.Res (Mach ρ)} (h : applyMagic ctx m i t near = .ok r) :
    (m.slice.magic = [] ∧ r = ⟨m, i, true, []⟩) ∨ ∃ nc c p, m.slice.cellById near = some nc ∧ nearest nc m.slice.magic none = some c ∧
      m.slice.inRange c = true ∧ m.slice.cells c = some p ∧
      r = ⟨{ m with slice := { m.slice.put c (some { p with id := some t, type := .qubit, activity := .none }) with magic := m.slice.magic.filter (· ≠ c) } }, i, false, []⟩ := by
  unfold applyMagic at h
  split at h
  · cases h
  · split at h
    · rename_i e; cases h; exact .inl ⟨e, rfl⟩
    · split at h
      · cases h
      · rename_i nc hn
        split at h
        · cases h
        · rename_i c hc
          obtain ⟨p, h1, h⟩ := Outcome.bind_eq_ok.1 h
          obtain ⟨hr, hp⟩ := patchAt_ok h1
          split at h
          · cases h
          · rename_i q
            refine .inr ⟨nc, c, q, hn, hc, hr, hp, ?_⟩
            unfold success modPatch at h
            rw [hp] at h
            cases h
            rfl

theorem calm_magic {ctx : Ctx ρ} {m : Mach ρ} {i : Instr} {w : List Instr} {t near : Nat} {r : Wave.Res (Mach ρ)}
    (h : applyMagic ctx m i t near = .ok r) (hc : Calm ctx m.slice (i :: w)) : Calm ctx r.slice.slice (leftover r ++ w) := by
  rcases applyMagic_ok h with ⟨-, rfl⟩ | ⟨nc, c, p, hn, hcell, hr, hp, rfl⟩
  · rw [leftover_fail]; exact hc
  · rw [leftover_success, List.nil_append]
    have hin : c ∈ m.slice.magic := by
      rcases nearest_mem hcell with h | h
      · exact h
      · cases h
    refine ⟨?_, ?_, ?_, fun j hj => hc.shaped j (List.mem_cons_of_mem _ hj)⟩
    · intro x hx
      simp only [List.mem_filter, decide_eq_true_eq] at hx
      obtain ⟨q, hq, h1⟩ := hc.queued x hx.1
      exact ⟨q, by simp only [put_cells]; rw [upd_other _ _ hx.2]; exact hq, h1⟩
    · intro x hx
      exact hc.source x (List.mem_filter.1 hx).1
    · intro hm
      obtain ⟨n1, t1⟩ := busyCells_sub hc hm
      refine ⟨n1, fun x hx => turning_core (t1 x hx) rfl rfl ?_⟩
      simp only [put_cells]
      refine upd_other _ _ ?_
      rintro rfl
      obtain ⟨q, hq, h1, -⟩ := turning_cells (t1 x hx)
      obtain ⟨q', hq', h1', -⟩ := hc.queued x hin
      rw [hq] at hq'; cases hq'; rw [h1] at h1'; cases h1'

/-- What a busy region does. -/
theorem applyBusy_ok {ctx : Ctx ρ} {m : Mach ρ} {i : Instr} {reg : RoutingRegion} {k : Nat} {after : List SparsePatch} {r : Wave.Res (Mach ρ)}
    (h : applyBusy ctx m i reg k after = .ok r) :
    (k ≠ 0 ∧ r = ⟨m, i, false, [{ op := .busy reg (k - 1) after }]⟩) ∨
    (k = 0 ∧ ∃ s x, clear ctx.asserts reg.cells m.slice = .ok s ∧ restore after s = .ok x ∧ r = ⟨{ m with slice := x.1 }, i, x.2, []⟩) := by
  unfold applyBusy at h
  split at h
  · rename_i e
    obtain ⟨s, h1, h⟩ := Outcome.bind_eq_ok.1 h
    obtain ⟨x, h2, h⟩ := Outcome.bind_eq_ok.1 h
    refine .inr ⟨e, s, x, h1, h2, ?_⟩
    split at h
    · rename_i e; cases h; rw [e]
    · rename_i e; cases h; simp only [Bool.not_eq_true] at e; rw [e]
  · rename_i e
    obtain ⟨-, -, h⟩ := Outcome.bind_eq_ok.1 h
    cases h
    exact .inl ⟨e, rfl⟩

/-- The end of a rotation. -/
theorem busy_end {ctx : Ctx ρ} {m : Mach ρ} {i : Instr} {reg : RoutingRegion} {after : List SparsePatch} {r : Wave.Res (Mach ρ)}
    (h : applyBusy ctx m i reg 0 after = .ok r) {a b : OccCell} {p : SparsePatch} {o : OccCell} (e : reg.cells = [a, b]) (ea : after = [p])
    (ep : p.cells = .single o) (eo : o.cell = a.cell) :
    r = ⟨{ m with slice := { m.slice with cells := upd (upd m.slice.cells b.cell none) a.cell (some { toPatch := p.toPatch, bounds := o.bounds }) } }, i, false, []⟩ ∧
      (ctx.asserts = true → ∀ o ∈ reg.cells, ∃ p, m.slice.cells o.cell = some p ∧ p.type = .routing) := by
  rcases applyBusy_ok h with ⟨h0, -⟩ | ⟨-, s, x, h1, h2, rfl⟩
  · exact absurd rfl h0
  · obtain ⟨e1, h3⟩ := clear_ok h1
    refine ⟨?_, h3⟩
    subst ea
    obtain ⟨-, ⟨-, hne⟩ | ⟨rfl, -⟩⟩ := restore_one ep h2
    · exfalso
      apply hne
      rw [e1, eo, e]
      simp
    · simp only [Wave.Res.mk.injEq, and_true, true_and]
      rw [e1, e, eo]
      simp only [put, Mach.mk.injEq, and_true, DSlice.mk.injEq, true_and]
      funext c
      by_cases g : c = a.cell
      · rw [g, upd_same, upd_same]
      · rw [upd_other _ _ g, upd_other _ _ g]
        simp only [List.map_cons, List.map_nil, List.mem_cons, List.not_mem_nil, or_false, g, false_or, upd]

theorem calm_busy {ctx : Ctx ρ} (hsafe : ctx.asserts = true ∨ ctx.layout.magicReserved = false) {m : Mach ρ} {i : Instr} {w : List Instr}
    {reg : RoutingRegion} {k : Nat} {after : List SparsePatch} (hi : i.op = .busy reg k after) {r : Wave.Res (Mach ρ)}
    (h : applyBusy ctx m i reg k after = .ok r) (hc : Calm ctx m.slice (i :: w)) : Calm ctx r.slice.slice (leftover r ++ w) := by
  obtain ⟨a, b, p, o, e1, e2, e3, e4, hne⟩ := (hc.shaped i (by simp)).2 _ _ _ hi
  rcases applyBusy_ok h with ⟨h0, rfl⟩ | ⟨rfl, -⟩
  · rw [leftover_followup]
    have eb : ∀ k', busyCells ({ op := .busy reg k' after } :: w) = busyCells (i :: w) := by
      intro k'
      unfold busyCells
      simp only [List.flatMap_cons, hi]
    refine ⟨hc.queued, hc.source, ?_, ?_⟩
    · simp only [List.singleton_append, eb]; exact hc.turning
    · intro j hj
      rcases List.mem_append.1 hj with hj | hj
      · rw [List.mem_singleton] at hj
        subst hj
        refine ⟨trivial, ?_⟩
        intro r' k' after' e'
        simp only [Operation.busy.injEq] at e'
        obtain ⟨rfl, rfl, rfl⟩ := e'
        exact ⟨a, b, p, o, e1, e2, e3, e4, hne⟩
      · exact hc.shaped j (List.mem_cons_of_mem _ hj)
  · obtain ⟨rfl, ha⟩ := busy_end h e1 e2 e3 e4
    rw [leftover_success, List.nil_append]
    have hq : ∀ x ∈ m.slice.magic, x ≠ a.cell ∧ x ≠ b.cell := by
      have key : ∀ o ∈ reg.cells, ∃ p, m.slice.cells o.cell = some p ∧ p.type = .routing := by
        rcases hsafe with hs | hs
        · exact ha hs
        · intro o ho
          obtain ⟨p, h1, h2, -⟩ := turning_cells ((hc.turning hs).2 o.cell (by
            unfold busyCells
            rw [List.flatMap_cons, hi]
            exact List.mem_append_left _ (List.mem_map_of_mem ho)))
          exact ⟨p, h1, h2⟩
      intro x hx
      obtain ⟨q, hq, ht, -⟩ := hc.queued x hx
      constructor
      · rintro rfl
        obtain ⟨p', h1, h2⟩ := key a (by simp [e1])
        rw [hq] at h1; cases h1; rw [ht] at h2; cases h2
      · rintro rfl
        obtain ⟨p', h1, h2⟩ := key b (by simp [e1])
        rw [hq] at h1; cases h1; rw [ht] at h2; cases h2
    refine ⟨?_, hc.source, ?_, fun j hj => hc.shaped j (List.mem_cons_of_mem _ hj)⟩
    · intro x hx
      obtain ⟨q, hq', h1⟩ := hc.queued x hx
      obtain ⟨g1, g2⟩ := hq x hx
      refine ⟨q, ?_, h1⟩
      simp only
      rw [upd_other _ _ g1, upd_other _ _ g2]; exact hq'
    · intro hm
      obtain ⟨n1, t1⟩ := busyCells_sub hc hm
      refine ⟨n1, fun x hx => turning_core (t1 x hx) rfl rfl ?_⟩
      have hn := (hc.turning hm).1
      rw [busyCells_cons, List.nodup_append] at hn
      have e5 : busyCells [i] = [a.cell, b.cell] := by unfold busyCells; simp [hi, e1]
      rw [e5] at hn
      simp only
      rw [upd_other, upd_other]
      · rintro rfl; exact hn.2.2 b.cell (by simp) _ hx rfl
      · rintro rfl; exact hn.2.2 a.cell (by simp) _ hx rfl

theorem calm_apply {ctx : Ctx ρ} (hsafe : ctx.asserts = true ∨ ctx.layout.magicReserved = false) {m : Mach ρ} {i : Instr} {w : List Instr}
    {r : Wave.Res (Mach ρ)} (h : apply ctx m i = .ok r) (hc : Calm ctx m.slice (i :: w)) : Calm ctx r.slice.slice (leftover r ++ w) := by
  have hb := (hc.shaped i (by simp)).1
  cases e : i.op
  case magic t near =>
    have h' := h
    unfold apply at h'
    rw [e] at h'
    exact calm_magic h' hc
  case busy reg k after =>
    have h' := h
    unfold apply at h'
    rw [e] at h'
    exact calm_busy hsafe e h' hc
  case bell => rw [e] at hb; exact hb.elim
  case bellCnot => rw [e] at hb; exact hb.elim
  all_goals exact calm_ordinary (by rw [e]; trivial) h hc

theorem mem_magic_spawn {s s' : DSlice} {c : Cell} (h : s.spawn c = .ok s') {x : Cell} (hx : x ∈ s'.magic) : x = c ∨ x ∈ s.magic := by
  rw [spawn_ok h] at hx
  exact mem_setInsert.1 hx

theorem mem_magic_respawn {L : Layout} : ∀ {cs : List Cell} {i : Nat} {s s' : DSlice}, respawn L cs i s = .ok s' → ∀ x ∈ s'.magic, x ∈ s.magic ∨ x ∈ cs
  | [], _, s, s', h => by cases h; exact fun x hx => .inl hx
  | c :: cs, i, s, s', h => by
    rw [respawn] at h
    obtain ⟨s1, h1, h⟩ := Outcome.bind_eq_ok.1 h
    obtain ⟨s2, h2, h⟩ := Outcome.bind_eq_ok.1 h
    intro x hx
    have e1 : s1.magic = s.magic := by
      unfold respawnCount at h1
      obtain ⟨p, -, h1⟩ := Outcome.bind_eq_ok.1 h1
      split at h1
      · split at h1 <;> cases h1; rfl
      · split at h1
        · split at h1 <;> cases h1; rfl
        · cases h1; rfl
    rcases mem_magic_respawn h x hx with h3 | h3
    · unfold respawnPlace at h2
      split at h2
      · split at h2
        · rcases mem_magic_spawn h2 h3 with rfl | h3
          · simp
          · rw [e1] at h3; exact .inl h3
        · cases h2; rw [e1] at h3; exact .inl h3
      · cases h2
    · exact .inr (List.mem_cons_of_mem _ h3)

theorem mem_magic_factories {L : Layout} : ∀ {n i : Nat} {s s' : DSlice}, factories L n i s = .ok s' → ∀ x ∈ s'.magic, x ∈ s.magic ∨ x ∈ L.distilled.flatten
  | 0, _, s, s', h => by cases h; exact fun x hx => .inl hx
  | n + 1, i, s, s', h => by
    rw [factories] at h
    intro x hx
    split at h
    · obtain ⟨s1, h1, h⟩ := Outcome.bind_eq_ok.1 h
      rcases mem_magic_factories h x hx with h3 | h3
      · unfold deliver at h1
        split at h1
        · rename_i locs t hl ht
          obtain ⟨o, h2, h1⟩ := Outcome.bind_eq_ok.1 h1
          split at h1
          · rename_i c
            obtain ⟨s2, h4, h1⟩ := Outcome.bind_eq_ok.1 h1
            cases h1
            obtain ⟨hm, -⟩ := firstFree_ok h2
            rcases mem_magic_spawn h4 h3 with rfl | h3
            · exact .inr (List.mem_flatten.2 ⟨locs, List.mem_of_getElem? hl, hm⟩)
            · exact .inl h3
          · cases h1; exact .inl h3
        · cases h1
      · exact .inr h3
    · exact mem_magic_factories h x hx

/-- The places where magic states appear. -/
theorem mem_magic_advance {L : Layout} {s s' : DSlice} (h : s.advance L = .ok s') :
    ∀ x ∈ s'.magic, x ∈ s.magic ∨ (L.magicReserved = true ∧ x ∈ L.reserved) ∨ (L.magicReserved = false ∧ x ∈ L.distilled.flatten) := by
  unfold advance at h
  simp only at h
  intro x hx
  split at h
  · rename_i e
    obtain ⟨s1, h1, h⟩ := Outcome.bind_eq_ok.1 h
    cases h
    rcases mem_magic_respawn h1 x hx with h | h
    · exact .inl h
    · exact .inr (.inl ⟨e, h⟩)
  · rename_i e
    obtain ⟨s1, h1, h⟩ := Outcome.bind_eq_ok.1 h
    cases h
    rcases mem_magic_factories h1 x hx with h | h
    · exact .inl h
    · exact .inr (.inr ⟨by simpa using e, h⟩)

theorem turning_advance {L : Layout} (hm : L.magicReserved = false) {s s' : DSlice} (h : s.advance L = .ok s') {c : Cell} (ht : Turning s c) : Turning s' c := by
  obtain ⟨-, h2, -⟩ := advance_ok h
  have hd := h2 hm
  obtain ⟨p, hp, h3, h4, h5⟩ := turning_cells ht
  obtain ⟨a1, a2⟩ := age_ok p
  have hq : ∃ q, age p = some q := by
    cases ha : age p with
    | none => rcases a1.1 ha with e | e <;> (rw [h4] at e; cases e)
    | some q => exact ⟨q, rfl⟩
  obtain ⟨q, hq⟩ := hq
  obtain ⟨b1, b2, -, -, -, b6, -⟩ := a2 q hq
  have hc : s.ageAll.cells c = some q := by simp [ageAll, hp, hq]
  refine ⟨?_, q.toPatch, ?_, by rw [b1, h3], by rw [b6, h4]; rfl, by rw [b2, h5]⟩
  · have := ht.1
    unfold inRange at this ⊢
    rw [hd.rows, hd.cols]; exact this
  · unfold core
    rcases hd.cell c with e | ⟨e, -⟩
    · rw [e, hc]; rfl
    · rw [hc] at e; cases e

theorem calm_advance {ctx : Ctx ρ} (hpre : ∀ c ∈ ctx.layout.predistilled, c ∉ ctx.layout.reserved ∧ c ∉ ctx.layout.distilled.flatten)
    {s s' : DSlice} {w : List Instr} (h : s.advance ctx.layout = .ok s') (hc : Calm ctx s w) : Calm ctx s' w := by
  obtain ⟨-, -, h3⟩ := advance_ok h
  refine ⟨h3 (queued_ageAll hc.queued), ?_, ?_, hc.shaped⟩
  · intro x hx hp
    rcases mem_magic_advance h x hx with g | ⟨-, g⟩ | ⟨-, g⟩
    · exact hc.source x g hp
    · exact (hpre x hp).1 g
    · exact (hpre x hp).2 g
  · intro hm
    obtain ⟨n1, t1⟩ := hc.turning hm
    exact ⟨n1, fun x hx => turning_advance hm h (t1 x hx)⟩

theorem calm_same {ctx : Ctx ρ} {s s' : DSlice} {w : List Instr} (h : SameCore s s') (hc : Calm ctx s w) : Calm ctx s' w := by
  have st : Steady [] s s' := h.steady
  refine ⟨st.queued (by simp) hc.queued, by rw [st.magic]; exact hc.source, fun hm => ?_, hc.shaped⟩
  obtain ⟨n1, t1⟩ := hc.turning hm
  exact ⟨n1, fun x hx => st.turning (t1 x hx)⟩

theorem init_magic {L : Layout} {ids : List Nat} {s : DSlice} (h : DSlice.init L ids = .ok s) : s.magic = [] := by
  have hcore : ∀ (ps : List SparsePatch) (is : List Nat) (a b : DSlice), placeCore ps is a = .ok b → b.magic = a.magic := by
    intro ps
    induction ps with
    | nil => intro is a b h; rw [placeCore] at h <;> first | (cases h; rfl) | simp
    | cons p ps ih =>
      intro is a b h
      cases is with
      | nil => rw [placeCore] at h <;> first | (cases h; rfl) | simp
      | cons i is =>
        rw [placeCore] at h
        obtain ⟨r, h1, h⟩ := Outcome.bind_eq_ok.1 h
        obtain ⟨o, ho⟩ := placeSingle_single h1
        obtain ⟨-, -, rfl⟩ := placeSingle_ok ho h1
        rw [ih _ _ _ h]; rfl
  have hy : ∀ (cs : List Cell) (a b : DSlice), placeY cs a = .ok b → b.magic = a.magic := by
    intro cs
    induction cs with
    | nil => intro a b h; cases h; rfl
    | cons c cs ih =>
      intro a b h
      rw [placeY] at h
      obtain ⟨r, h1, h⟩ := Outcome.bind_eq_ok.1 h
      obtain ⟨-, -, rfl⟩ := placeSingle_ok rfl h1
      rw [ih _ _ h]; rfl
  have ha : ∀ (cs : List (Cell × DensePatch)) (a b : DSlice), assignAll cs a = .ok b → b.magic = a.magic := by
    intro cs
    induction cs with
    | nil => intro a b h; cases h; rfl
    | cons c cs ih =>
      intro a b h
      rw [assignAll] at h
      obtain ⟨r, h1, h⟩ := Outcome.bind_eq_ok.1 h
      unfold assign at h1
      split at h1
      · cases h1; rw [ih _ _ h]; rfl
      · cases h1
  unfold DSlice.init at h
  split at h
  · cases h
  · obtain ⟨s1, h1, h⟩ := Outcome.bind_eq_ok.1 h
    obtain ⟨s2, h2, h⟩ := Outcome.bind_eq_ok.1 h
    obtain ⟨s3, h3, h⟩ := Outcome.bind_eq_ok.1 h
    obtain ⟨s4, h4, h⟩ := Outcome.bind_eq_ok.1 h
    rw [ha _ _ _ h]
    show s4.magic = []
    rw [ha _ _ _ h4, ha _ _ _ h3, hy _ _ _ h2, hcore _ _ _ _ h1]
    rfl

theorem calm_init {ctx : Ctx ρ} {ids : List Nat} {s : DSlice} (h : DSlice.init ctx.layout ids = .ok s) : Calm ctx s [] := by
  have e := init_magic h
  refine ⟨?_, ?_, ?_, by simp⟩
  · intro c hc; rw [e] at hc; cases hc
  · intro c hc; rw [e] at hc; cases hc
  · intro _; exact ⟨by simp [busyCells], by simp [busyCells]⟩

end Apply

end Verif
