import Verif.SlicePropsIds
import Verif.SliceCalm

/-! # Slices: advancing, magic states, rotations and routes (C29–C32, C44) -/

namespace Verif.Slices.Spec

open Verif Apply DSlice

/-! ## C29: advancing -/

/-- The types of the four sides. -/
def sides (b : CellBoundaries) : List BoundaryType := [b.top.ty, b.bottom.ty, b.left.ty, b.right.ty]

/-- The patch is being measured. -/
def Measured (p : DensePatch) : Prop := p.activity = .measurement ∨ p.activity = .multiPatchMeasurement

theorem sides_eq {b b' : CellBoundaries} (h : sideTypes b = sideTypes b') : sides b = sides b' := by
  unfold sideTypes at h
  unfold sides
  simp only [Prod.mk.injEq] at h
  rw [h.1, h.2.1, h.2.2.1, h.2.2.2]

theorem aged {s : DSlice} {c : Cell} {p : DensePatch} (hc : s.cells c = some p) (hm : ¬ Measured p) : ∃ q, s.ageAll.cells c = some q ∧ age p = some q := by
  cases ha : age p with
  | none => exact absurd ((age_ok p).1.1 ha) hm
  | some q => exact ⟨q, by simp [ageAll, hc, ha], rfl⟩

/-- C29: a qubit patch that is not being measured is still there after the advance, with the same id, label and sides.
A unitary is over, a reservation for a route stays, and nothing else becomes of its activity. -/
theorem c29_survive {L : Layout} {s s' : DSlice} (h : s.advance L = .ok s') {c : Cell} {p : DensePatch} (hc : s.cells c = some p)
    (hq : p.type = .qubit) (hm : ¬ Measured p) :
    ∃ q, s'.cells c = some q ∧ q.type = .qubit ∧ q.id = p.id ∧ q.label = p.label ∧ sides q.bounds = sides p.bounds ∧
      (p.activity = .none ∨ p.activity = .unitary → q.activity = .none ∧ q.isActive = false) := by
  obtain ⟨q, hq1, hq2⟩ := aged hc hm
  obtain ⟨b1, b2, b3, b4, b5, b6, b7⟩ := (age_ok p).2 q hq2
  have hs : s'.cells c = some q := by
    rcases (advance_ok h).1.cell c with e | ⟨-, e⟩
    · rw [e, hq1]
    · exact absurd (b1.trans hq) (e q hq1).1
  refine ⟨q, hs, b1.trans hq, b2, b3, sides_eq b5, ?_⟩
  intro ha
  have e1 : q.activity = .none := by rw [b6]; rcases ha with e | e <;> rw [e] <;> rfl
  refine ⟨e1, ?_⟩
  unfold DensePatch.isActive
  rw [if_neg (by simp [e1])]
  exact b7 (by rcases ha with e | e <;> simp [e]) (by rcases ha with e | e <;> simp [e]) (by rcases ha with e | e <;> simp [e])

/-- C29: every id on the next slice was on the slice before, at the same cell, on a patch not being measured. -/
theorem c29_stem {L : Layout} {s s' : DSlice} (h : s.advance L = .ok s') {c : Cell} {q : DensePatch} {n : Nat} (hc : s'.cells c = some q)
    (hn : q.id = some n) : ∃ p, s.cells c = some p ∧ p.id = some n ∧ p.type = q.type ∧ ¬ Measured p := by
  rcases (advance_ok h).1.cell c with e | ⟨⟨r, e, hr, -⟩, -⟩
  · rw [hc] at e
    simp only [ageAll] at e
    cases hp : s.cells c with
    | none => simp [hp] at e
    | some p =>
      rw [hp] at e
      have e : age p = some q := e.symm
      obtain ⟨b1, b2, -⟩ := (age_ok p).2 q e
      refine ⟨p, rfl, by rw [← b2, hn], b1.symm, ?_⟩
      intro hm
      rw [(age_ok p).1.2 hm] at e
      cases e
  · rw [hc] at e
    cases e
    rw [hr] at hn
    cases hn

/-- The layout's lists fit together, and the slice has a time for each factory. -/
structure Fits (L : Layout) (s : DSlice) : Prop where
  times : s.times.length = L.times.length
  reserved : L.magicReserved = true → L.reserved.length ≤ L.times.length ∧ ∀ c ∈ L.reserved, s.inRange c = true
  distilled : L.magicReserved = false → L.times.length ≤ L.distilled.length ∧ ∀ cs ∈ L.distilled, ∀ c ∈ cs, s.inRange c = true

theorem spawn_defined {s : DSlice} {c : Cell} (h : s.inRange c = true) : ∃ s', s.spawn c = .ok s' := by
  unfold spawn placeSingle
  simp [basicSquare, isFree, patchAt, h, DensePatch.fromSparse]

theorem respawn_defined {L : Layout} : ∀ {cs : List Cell} {i : Nat} {s : DSlice}, (∀ c ∈ cs, s.inRange c = true) → i + cs.length ≤ s.times.length →
    s.times.length = L.times.length → ∃ s', respawn L cs i s = .ok s'
  | [], _, s, _, _, _ => ⟨s, rfl⟩
  | c :: cs, i, s, h1, h2, h3 => by
    simp only [List.length_cons] at h2
    have hr := h1 c (by simp)
    have step1 : ∃ s1, respawnCount L s i c = .ok s1 ∧ s1.times.length = s.times.length ∧ s1.rows = s.rows ∧ s1.cols = s.cols ∧ s1.cells c ≠ none := by
      unfold respawnCount
      simp only [patchAt, hr, if_true, Outcome.bind_ok]
      have a1 : s.times[i]? = some s.times[i] := List.getElem?_eq_getElem (by omega)
      have a2 : L.times[i]? = some L.times[i] := List.getElem?_eq_getElem (by omega)
      cases hc : s.cells c with
      | none => simp only [a1, a2]; exact ⟨_, rfl, by simp, rfl, rfl, by simp⟩
      | some p =>
        simp only
        split
        · simp only [a1]; exact ⟨_, rfl, by simp, rfl, rfl, by simp [hc]⟩
        · exact ⟨_, rfl, rfl, rfl, rfl, by simp [hc]⟩
    obtain ⟨s1, e1, e2, e3, e4, e5⟩ := step1
    have hr1 : ∀ x, s1.inRange x = s.inRange x := fun x => by unfold inRange; rw [e3, e4]
    have step2 : ∃ s2, respawnPlace s1 i c = .ok s2 ∧ s2.times.length = s1.times.length ∧ s2.rows = s1.rows ∧ s2.cols = s1.cols := by
      unfold respawnPlace
      have a1 : s1.times[i]? = some s1.times[i] := List.getElem?_eq_getElem (by omega)
      cases hc : s1.cells c with
      | none => exact absurd hc e5
      | some p =>
        simp only [a1]
        split
        · obtain ⟨s2, hs⟩ := spawn_defined (s := s1) (c := c) (by rw [hr1]; exact hr)
          exact ⟨s2, hs, by rw [spawn_ok hs]; rfl, by rw [spawn_ok hs]; rfl, by rw [spawn_ok hs]; rfl⟩
        · exact ⟨_, rfl, rfl, rfl, rfl⟩
    obtain ⟨s2, f1, f2, f3, f4⟩ := step2
    have hr2 : ∀ x, s2.inRange x = s.inRange x := fun x => by unfold inRange; rw [f3, f4, e3, e4]
    obtain ⟨s', hs'⟩ := respawn_defined (L := L) (cs := cs) (i := i + 1) (s := s2) (fun x hx => by rw [hr2]; exact h1 x (by simp [hx]))
      (by rw [f2, e2]; omega) (by rw [f2, e2, h3])
    exact ⟨s', by rw [respawn, e1, Outcome.bind_ok, f1, Outcome.bind_ok, hs']⟩

theorem firstFree_defined {s : DSlice} : ∀ {cs : List Cell}, (∀ c ∈ cs, s.inRange c = true) → ∃ o, s.firstFree cs = .ok o
  | [], _ => ⟨none, rfl⟩
  | c :: cs, h => by
    rw [firstFree]
    simp only [isFree, patchAt, h c (by simp), if_true, Outcome.bind_ok]
    split
    · exact ⟨_, rfl⟩
    · exact firstFree_defined fun x hx => h x (by simp [hx])

theorem factories_defined {L : Layout} : ∀ {n i : Nat} {s : DSlice}, (∀ cs ∈ L.distilled, ∀ c ∈ cs, s.inRange c = true) →
    i + n ≤ L.times.length → L.times.length ≤ L.distilled.length → ∃ s', factories L n i s = .ok s'
  | 0, _, s, _, _, _ => ⟨s, rfl⟩
  | n + 1, i, s, h1, h2, h3 => by
    rw [factories]
    split
    · have a1 : L.distilled[i]? = some L.distilled[i] := List.getElem?_eq_getElem (by omega)
      have a2 : L.times[i]? = some L.times[i] := List.getElem?_eq_getElem (by omega)
      unfold deliver
      simp only [a1, a2]
      obtain ⟨o, ho⟩ := firstFree_defined (s := { s with times := s.times.set i (dec32 (s.times.getD i 0)) }) (cs := L.distilled[i])
        (fun c hc => h1 _ (List.getElem_mem _) c hc)
      rw [ho, Outcome.bind_ok]
      cases o with
      | none =>
        simp only [Outcome.bind_ok]
        exact factories_defined (fun cs hcs c hc => h1 cs hcs c hc) (by omega) h3
      | some c =>
        obtain ⟨hm, hr, -⟩ := firstFree_ok ho
        obtain ⟨s2, hs⟩ := spawn_defined hr
        simp only [hs, Outcome.bind_ok]
        refine factories_defined (fun cs hcs c hc => ?_) (by omega) h3
        have := h1 cs hcs c hc
        unfold inRange at this ⊢
        rw [spawn_ok hs]
        exact this
    · exact factories_defined (fun cs hcs c hc => h1 cs hcs c hc) (by omega) h3

/-- C29: the advance itself succeeds on every slice of a layout whose lists fit together. -/
theorem c29_defined {L : Layout} {s : DSlice} (h : Fits L s) : ∃ s', s.advance L = .ok s' := by
  unfold advance
  simp only
  split
  · rename_i e
    obtain ⟨h1, h2⟩ := h.reserved e
    obtain ⟨s', hs⟩ := respawn_defined (L := L) (cs := L.reserved) (i := 0) (s := s.ageAll) h2 (by simp only [ageAll]; rw [h.times]; omega) h.times
    exact ⟨_, by rw [hs, Outcome.bind_ok]⟩
  · rename_i e
    obtain ⟨h1, h2⟩ := h.distilled (by simpa using e)
    obtain ⟨s', hs⟩ := factories_defined (L := L) (n := s.times.length) (i := 0) (s := s.ageAll) h2 (by rw [h.times]; omega) h1
    exact ⟨_, by simp only [ageAll] at hs ⊢; rw [hs, Outcome.bind_ok]⟩

/-! ## C30: magic states -/

section
variable {ρ : Type}

/-- No Bell operations. -/
def Unrouted : Operation → Prop
  | .bell _ => False
  | .bellCnot _ => False
  | _ => True

theorem history_calm {ctx : Ctx ρ} {ids : List Nat} (hsafe : ctx.asserts = true ∨ ctx.layout.magicReserved = false)
    (hpre : ∀ c ∈ ctx.layout.predistilled, c ∉ ctx.layout.reserved ∧ c ∉ ctx.layout.distilled.flatten)
    {m : Mach ρ} {w : List Instr} (h : History Unrouted ctx ids m w) : Calm ctx m.slice w := by
  induction h with
  | start h rs k => exact calm_init h
  | @program m w h i ho hp hn hf r ha ih =>
    rw [remaining_eq]
    refine calm_apply hsafe ha (ih.add ?_ ?_)
    · cases e : i.op <;> rw [e] at ho <;> first | exact ho.elim | trivial
    · intro r n after e
      unfold Plain at hp
      rw [e] at hp
      exact hp
  | @release m w h i t near lo hi hb r ha ih =>
    rw [remaining_eq]
    refine calm_apply hsafe ha (ih.add ?_ ?_)
    · rw [hi]; trivial
    · intro r n after e; rw [hi] at e; cases e
  | @again m u v i h r ha ih =>
    rw [remaining_eq]
    exact calm_apply hsafe ha (ih.perm List.perm_middle)
  | @waits m u v i h k ih => exact ((ih.perm List.perm_middle).waits k).perm List.perm_middle.symm
  | @next m m' w h ha ih =>
    unfold Apply.step at ha
    obtain ⟨s, h1, ha⟩ := Outcome.bind_eq_ok.1 ha
    cases ha
    exact calm_advance hpre h1 ih
  | @reset m w h s ha ih => exact calm_same (resetMarked_same ha) ih

/-- C30: in every history without Bell operations, each queued location holds a prepared state that has no id and is
idle. Layouts must not use a cell for a predistilled `Y` state and for magic states, and either assertions are checked
or the factories have a queue of locations. Missing: Bell operations, which
act on cells of a route they computed earlier. For the other condition see `c30_reserved_wrong`. -/
theorem c30_queue_partial {ctx : Ctx ρ} {ids : List Nat} (hsafe : ctx.asserts = true ∨ ctx.layout.magicReserved = false)
    (hpre : ∀ c ∈ ctx.layout.predistilled, c ∉ ctx.layout.reserved ∧ c ∉ ctx.layout.distilled.flatten)
    {m : Mach ρ} {w : List Instr} (h : History Unrouted ctx ids m w) {c : Cell} (hc : c ∈ m.slice.magic) :
    ∃ p, m.slice.cells c = some p ∧ p.type = .preparedState ∧ p.id = none ∧ p.activity = .none :=
  (history_calm hsafe hpre h).queued c hc

/-- Distance along rows and columns. -/
def dist (a b : Cell) : Nat := (a.row - b.row).natAbs + (a.col - b.col).natAbs

theorem dist_eq (a b : Cell) : dist a b = l1 a b := by
  unfold dist l1
  omega

theorem nearest_least {near : Cell} : ∀ {cs : List Cell} {acc : Option Cell} {c : Cell}, nearest near cs acc = some c →
    (∀ d ∈ cs, l1 c near ≤ l1 d near) ∧ ∀ b, acc = some b → l1 c near ≤ l1 b near
  | [], acc, c, h => by rw [nearest] at h; subst h; exact ⟨by simp, fun b hb => by cases hb; exact Nat.le_refl _⟩
  | x :: cs, none, c, h => by
    rw [nearest] at h
    obtain ⟨h1, h2⟩ := nearest_least h
    refine ⟨fun d hd => ?_, by simp⟩
    rcases List.mem_cons.1 hd with rfl | hd
    · exact h2 _ rfl
    · exact h1 d hd
  | x :: cs, some b, c, h => by
    rw [nearest] at h
    obtain ⟨h1, h2⟩ := nearest_least h
    by_cases e : l1 x near < l1 b near
    · rw [if_pos e] at h2
      have := h2 x rfl
      refine ⟨fun d hd => ?_, fun b' hb => by cases hb; omega⟩
      rcases List.mem_cons.1 hd with rfl | hd
      · exact this
      · exact h1 d hd
    · rw [if_neg e] at h2
      have := h2 b rfl
      refine ⟨fun d hd => ?_, fun b' hb => by cases hb; exact this⟩
      rcases List.mem_cons.1 hd with rfl | hd
      · omega
      · exact h1 d hd

/-- C30: a request binds exactly one queued state, one closest to the patch it is meant for, and takes it off the
queue; with an empty queue it fails and changes nothing. -/
theorem c30_bind {ctx : Ctx ρ} {m : Mach ρ} {i : Instr} {t near : Nat} (hi : i.op = .magic t near) {r : Wave.Res (Mach ρ)}
    (h : Apply.apply ctx m i = .ok r) :
    (m.slice.magic = [] ∧ r.err = true ∧ r.followups = [] ∧ r.slice = m) ∨
    ∃ c ∈ m.slice.magic, ∃ nc p, m.slice.cellById near = some nc ∧ (∀ d ∈ m.slice.magic, dist c nc ≤ dist d nc) ∧ m.slice.cells c = some p ∧
      r.err = false ∧ r.followups = [] ∧
      r.slice.slice.cells c = some { p with id := some t, type := .qubit, activity := .none } ∧
      (∀ d, d ≠ c → r.slice.slice.cells d = m.slice.cells d) ∧ (∀ d, d ∈ r.slice.slice.magic ↔ d ∈ m.slice.magic ∧ d ≠ c) := by
  unfold Apply.apply at h
  rw [hi] at h
  rcases applyMagic_ok h with ⟨e, rfl⟩ | ⟨nc, c, p, hn, hcell, hr, hp, rfl⟩
  · exact .inl ⟨e, rfl, rfl, rfl⟩
  · right
    have hin : c ∈ m.slice.magic := by
      rcases nearest_mem hcell with h | h
      · exact h
      · cases h
    refine ⟨c, hin, nc, p, hn, fun d hd => ?_, hp, rfl, rfl, ?_, ?_, ?_⟩
    · rw [dist_eq, dist_eq]
      have := (nearest_least hcell).1 d hd
      omega
    · simp
    · intro d hd
      simp only [put_cells]
      exact upd_other _ _ hd
    · intro d
      simp

/-- C30: if there is a queued state and the patch it is meant for is there, the request is served. -/
theorem c30_served {ctx : Ctx ρ} {ids : List Nat} (hids : ids.Nodup) (hsafe : ctx.asserts = true ∨ ctx.layout.magicReserved = false)
    (hpre : ∀ c ∈ ctx.layout.predistilled, c ∉ ctx.layout.reserved ∧ c ∉ ctx.layout.distilled.flatten)
    {m : Mach ρ} {w : List Instr} (h : History Unrouted ctx ids m w) (hq : m.slice.magic ≠ []) (hf : ctx.layout.times ≠ [])
    {near : Nat} (hn : Present m.slice near) (t : Nat) (i : Instr) (hi : i.op = .magic t near) :
    ∃ r, Apply.apply ctx m i = .ok r ∧ r.err = false := by
  obtain ⟨nc, p, hnc, hp⟩ := hn
  have hcell := c28_found hids h hnc hp
  have hne : ∃ c, nearest nc m.slice.magic none = some c := by
    have : ∀ (cs : List Cell) (b : Cell), ∃ c, nearest nc cs (some b) = some c := by
      intro cs
      induction cs with
      | nil => intro b; exact ⟨b, rfl⟩
      | cons x cs ih =>
        intro b
        rw [nearest]
        split <;> exact ih _
    cases hm : m.slice.magic with
    | nil => exact absurd hm hq
    | cons x xs => rw [nearest]; exact this xs x
  obtain ⟨c, hc⟩ := hne
  have hin : c ∈ m.slice.magic := by
    rcases nearest_mem hc with h | h
    · exact h
    · cases h
  obtain ⟨q, hq1, -⟩ := c30_queue_partial hsafe hpre h hin
  have hr : m.slice.inRange c = true := by
    cases e : m.slice.inRange c with
    | true => rfl
    | false => rw [(history_inv hids h).1.inside c e] at hq1; cases hq1
  unfold Apply.apply
  rw [hi]
  simp only [applyMagic, List.length_eq_zero_iff, hf, hq, hcell, hc, patchAt, hr, hq1, if_false, if_true, Outcome.bind_ok]
  exact ⟨_, rfl, rfl⟩

end

/-! ## C31: rotations -/

/-- Next to each other. -/
def Adjacent (a b : Cell) : Prop := dist a b = 1

/-- A quarter turn clockwise. -/
def turned (b : CellBoundaries) : CellBoundaries := { top := b.left, right := b.top, bottom := b.right, left := b.bottom }

theorem turned_eq (b : CellBoundaries) : b.instantRotate = turned b := rfl

theorem mem_neighboursIn {c o f n : Cell} (h : n ∈ c.neighboursIn o f) : Adjacent c n := by
  unfold Cell.neighboursIn at h
  unfold Adjacent dist
  simp only [List.mem_append] at h
  rcases h with ((h | h) | h) | h <;> (split at h <;> simp at h) <;> subst h <;> simp <;> omega

theorem lastFree_ok {s : DSlice} : ∀ {cs : List Cell} {acc : Option Cell} {n : Cell}, lastFree s cs acc = .ok (some n) →
    (n ∈ cs ∧ s.cells n = none) ∨ acc = some n
  | [], acc, n, h => by simp only [lastFree, Outcome.ok.injEq] at h; exact .inr h
  | c :: cs, acc, n, h => by
    rw [lastFree] at h
    obtain ⟨f, h1, h⟩ := Outcome.bind_eq_ok.1 h
    obtain ⟨-, hf⟩ := isFree_ok h1
    rcases lastFree_ok h with ⟨g1, g2⟩ | g
    · exact .inl ⟨by simp [g1], g2⟩
    · split at g
      · rename_i e; cases g; exact .inl ⟨by simp, hf.1 e⟩
      · exact .inr g

section
variable {ρ : Type}

/-- The cell is kept busy by a rotation. -/
def Busy (s : DSlice) (c : Cell) : Prop := ∃ p, s.cells c = some p ∧ p.type = .routing ∧ p.activity = .rotation ∧ p.id = none

/-- What is put back after a rotation of `p` at `c`: type and id stay, the label is lost. -/
def putBack (p : DensePatch) : DensePatch :=
  { type := p.type, activity := if p.activity = .unitary then .none else p.activity, id := p.id, bounds := turned p.bounds }

theorem rotated_eq (p : DensePatch) (c : Cell) : ∃ o, (rotated p c).cells = .single o ∧ o.cell = c ∧
    ({ toPatch := (rotated p c).toPatch, bounds := o.bounds } : DensePatch) = putBack p := by
  refine ⟨_, rfl, rfl, ?_⟩
  unfold rotated putBack DensePatch.toSparse
  by_cases h : p.activity = .unitary <;> simp [h, turned_eq]

/-- C31, begin: a rotation that does not fail takes the patch at `c` off the slice, occupies `c` and a free neighbour,
changes no other cell, and leaves a follow-up for three more attempts that names the two cells and the patch to put
back. One that fails changes nothing. -/
theorem c31_begin {ctx : Ctx ρ} {m : Mach ρ} {i : Instr} {t : Nat} (hi : i.op = .rotate t) {r : Wave.Res (Mach ρ)} (h : Apply.apply ctx m i = .ok r) :
    (r.err = true ∧ r.followups = [] ∧ r.slice = m) ∨
    ∃ c n p a b q o, m.slice.cellById t = some c ∧ m.slice.cells c = some p ∧ Adjacent c n ∧ m.slice.cells n = none ∧
      r.err = false ∧ Busy r.slice.slice c ∧ Busy r.slice.slice n ∧ (∀ d, d ≠ c → d ≠ n → r.slice.slice.cells d = m.slice.cells d) ∧
      r.followups = [{ op := .busy ⟨[a, b], none⟩ 2 [q] }] ∧ a.cell = c ∧ b.cell = n ∧ q.cells = .single o ∧ o.cell = c ∧
      ({ toPatch := q.toPatch, bounds := o.bounds } : DensePatch) = putBack p := by
  unfold Apply.apply at h
  rw [hi] at h
  rcases applyRotate_ok h with rfl | ⟨c, p, n, reg, x, hc, hpc, hl, hreg, hmark, rfl⟩
  · exact .inl ⟨rfl, rfl, rfl⟩
  · right
    obtain ⟨a, b, e, ha, hb, hne, r1, r2, f1, f2, e2, e1⟩ := mark_rotation hreg hmark
    obtain ⟨o, ho1, ho2, ho3⟩ := rotated_eq p c
    have hfree : m.slice.cells n = none ∧ Adjacent c n := by
      rcases lastFree_ok hl with ⟨g1, g2⟩ | g
      · exact ⟨g2, mem_neighboursIn g1⟩
      · cases g
    have hrid : reg = ⟨[a, b], none⟩ := by
      unfold rotationRegion at hreg
      split at hreg
      · cases hreg; simp only [List.cons.injEq, and_true] at e; rw [e.1, e.2]
      · cases hreg
    refine ⟨c, n, p, a, b, rotated p c, o, hc, hpc, hfree.2, hfree.1, rfl, ?_, ?_, ?_, ?_, ha, hb, ho1, ho2, ho3⟩
    · simp only [e1]
      exact ⟨_, by simp only [put_cells]; rw [upd_other _ _ hne, upd_same], rfl, rfl, rfl⟩
    · simp only [e1]
      exact ⟨_, by simp only [put_cells]; rw [upd_same], rfl, rfl, rfl⟩
    · intro d h1 h2
      simp only [e1, put_cells]
      rw [upd_other _ _ h2, upd_other _ _ h1, upd_other _ _ h1]
    · rw [e2, hrid]

theorem regionPresent_ok {asserts : Bool} {s : DSlice} : ∀ {os : List OccCell}, (∀ o ∈ os, s.inRange o.cell = true ∧ s.cells o.cell ≠ none) →
    regionPresent asserts s os = .ok ()
  | [], _ => rfl
  | o :: os, h => by
    rw [regionPresent]
    simp only [patchAt, (h o (by simp)).1, if_true, Outcome.bind_ok]
    rw [if_neg (by simp [(h o (by simp)).2])]
    exact regionPresent_ok fun x hx => h x (by simp [hx])

theorem clear_defined {asserts : Bool} : ∀ {os : List OccCell} {s : DSlice}, (os.map (·.cell)).Nodup →
    (∀ o ∈ os, s.inRange o.cell = true ∧ ∃ p, s.cells o.cell = some p ∧ p.type = .routing) → ∃ s', clear asserts os s = .ok s'
  | [], s, _, _ => ⟨s, rfl⟩
  | o :: os, s, hn, h => by
    rw [clear]
    obtain ⟨h1, p, h2, h3⟩ := h o (by simp)
    simp only [patchAt, h1, if_true, Outcome.bind_ok, h2, Option.map_some, h3]
    rw [if_neg (by simp)]
    simp only [List.map_cons, List.nodup_cons] at hn
    refine clear_defined hn.2 fun x hx => ?_
    obtain ⟨g1, q, g2, g3⟩ := h x (by simp [hx])
    refine ⟨g1, q, ?_, g3⟩
    simp only [put_cells]
    rw [upd_other]
    · exact g2
    · intro e; exact hn.1 (e ▸ List.mem_map_of_mem hx)

/-- One more attempt of a busy region with time left, or the last one. -/
theorem busy_defined {ctx : Ctx ρ} {m : Mach ρ} {i : Instr} {a b : OccCell} {k : Nat} {q : SparsePatch} {o : OccCell} {id : Option Nat}
    (hi : i.op = .busy ⟨[a, b], id⟩ k [q]) (hq : q.cells = .single o) (ho : o.cell = a.cell) (hne : a.cell ≠ b.cell)
    (ha : Turning m.slice a.cell) (hb : Turning m.slice b.cell) : Apply.apply ctx m i = .ok (
      if k = 0 then ⟨{ m with slice := { m.slice with cells := upd (upd m.slice.cells b.cell none) a.cell (some { toPatch := q.toPatch, bounds := o.bounds }) } }, i, false, []⟩
      else ⟨m, i, false, [{ op := .busy ⟨[a, b], id⟩ (k - 1) [q] }]⟩) := by
  obtain ⟨pa, ha1, ha2, -⟩ := turning_cells ha
  obtain ⟨pb, hb1, hb2, -⟩ := turning_cells hb
  by_cases hk : k = 0
  · subst hk
    rw [if_pos rfl]
    obtain ⟨s1, h1⟩ := clear_defined (asserts := ctx.asserts) (os := [a, b]) (s := m.slice) (by simp [hne]) (by
      intro x hx
      rcases List.mem_cons.1 hx with rfl | hx
      · exact ⟨ha.1, pa, ha1, ha2⟩
      · rw [List.mem_singleton] at hx; subst hx; exact ⟨hb.1, pb, hb1, hb2⟩)
    obtain ⟨e1, -⟩ := clear_ok h1
    have hr : s1.inRange o.cell = true := by rw [e1, ho]; exact ha.1
    have hc : s1.cells o.cell = none := by rw [e1, ho]; simp
    have h2 : restore [q] s1 = .ok (s1.put o.cell (some { toPatch := q.toPatch, bounds := o.bounds }), false) := by
      simp [restore, SparsePatch.occ, hq, allFree, isFree, patchAt, hr, hc, place, placeSingle, DensePatch.fromSparse]
    have hap : Apply.apply ctx m i = applyBusy ctx m i ⟨[a, b], id⟩ 0 [q] := by unfold Apply.apply; rw [hi]
    have hbz : applyBusy ctx m i ⟨[a, b], id⟩ 0 [q] = .ok ⟨{ m with slice := s1.put o.cell (some { toPatch := q.toPatch, bounds := o.bounds }) }, i, false, []⟩ := by
      unfold applyBusy
      simp only [if_true, h1, h2, Outcome.bind_ok]
      rfl
    rw [hap, hbz, (busy_end hbz rfl rfl hq ho).1]
  · rw [if_neg hk]
    unfold Apply.apply
    rw [hi]
    simp only [applyBusy, if_neg hk]
    rw [regionPresent_ok]
    · rfl
    · intro x hx
      rcases List.mem_cons.1 hx with rfl | hx
      · exact ⟨ha.1, by simp [ha1]⟩
      · rw [List.mem_singleton] at hx; subst hx; exact ⟨hb.1, by simp [hb1]⟩

/-- C31, meanwhile: in every history without Bell operations on a layout whose factories have a queue of locations, each
unfinished rotation still occupies its two cells, and no two of them share a cell. -/
theorem c31_meanwhile {ctx : Ctx ρ} {ids : List Nat} (hres : ctx.layout.magicReserved = false)
    (hpre : ∀ c ∈ ctx.layout.predistilled, c ∉ ctx.layout.reserved ∧ c ∉ ctx.layout.distilled.flatten)
    {m : Mach ρ} {u v : List Instr} {i : Instr} (h : History Unrouted ctx ids m (u ++ i :: v)) {reg : RoutingRegion} {k : Nat} {after : List SparsePatch}
    (hi : i.op = .busy reg k after) : ∃ a b q o, reg.cells = [a, b] ∧ after = [q] ∧ q.cells = .single o ∧ o.cell = a.cell ∧ a.cell ≠ b.cell ∧
      Busy m.slice a.cell ∧ Busy m.slice b.cell ∧
      ∀ j ∈ u ++ v, ∀ reg' k' after', j.op = .busy reg' k' after' → ∀ x ∈ reg'.cells, x.cell ≠ a.cell ∧ x.cell ≠ b.cell := by
  have hc := (history_calm (.inr hres) hpre h).perm List.perm_middle
  obtain ⟨a, b, q, o, e1, e2, e3, e4, hne⟩ := (hc.shaped i (by simp)).2 _ _ _ hi
  obtain ⟨hn, ht⟩ := hc.turning hres
  have e5 : busyCells [i] = [a.cell, b.cell] := by unfold busyCells; simp [hi, e1]
  rw [busyCells_cons, e5] at hn ht
  refine ⟨a, b, q, o, e1, e2, e3, e4, hne, turning_cells (ht _ (by simp)), turning_cells (ht _ (by simp)), ?_⟩
  intro j hj reg' k' after' e x hx
  rw [List.nodup_append] at hn
  have hm : x.cell ∈ busyCells (u ++ v) := by
    unfold busyCells
    refine List.mem_flatMap.2 ⟨j, hj, ?_⟩
    rw [e]
    exact List.mem_map_of_mem hx
  exact ⟨fun e => hn.2.2 a.cell (by simp) _ hm e.symm, fun e => hn.2.2 b.cell (by simp) _ hm e.symm⟩

/-- C31, each further attempt: while time is left it only counts down; with no time left it always succeeds, puts the
patch back, frees the neighbour and changes no other cell. -/
theorem c31_attempt {ctx : Ctx ρ} {ids : List Nat} (hres : ctx.layout.magicReserved = false)
    (hpre : ∀ c ∈ ctx.layout.predistilled, c ∉ ctx.layout.reserved ∧ c ∉ ctx.layout.distilled.flatten)
    {m : Mach ρ} {u v : List Instr} {i : Instr} (h : History Unrouted ctx ids m (u ++ i :: v)) {a b : OccCell} {id : Option Nat} {k : Nat} {q : SparsePatch}
    (hi : i.op = .busy ⟨[a, b], id⟩ k [q]) : ∃ r, Apply.apply ctx m i = .ok r ∧ r.err = false ∧
      (k ≠ 0 → r.slice = m ∧ r.followups = [{ op := .busy ⟨[a, b], id⟩ (k - 1) [q] }]) ∧
      (k = 0 → r.followups = [] ∧ ∃ o, q.cells = .single o ∧ r.slice.slice.cells a.cell = some { toPatch := q.toPatch, bounds := o.bounds } ∧
        r.slice.slice.cells b.cell = none ∧ ∀ d, d ≠ a.cell → d ≠ b.cell → r.slice.slice.cells d = m.slice.cells d) := by
  have hc := (history_calm (.inr hres) hpre h).perm List.perm_middle
  obtain ⟨a', b', q', o, e1, e2, e3, e4, hne⟩ := (hc.shaped i (by simp)).2 _ _ _ hi
  simp only [List.cons.injEq, and_true] at e1 e2
  obtain ⟨rfl, rfl⟩ := e1
  subst e2
  obtain ⟨-, ht⟩ := hc.turning hres
  have e5 : busyCells [i] = [a.cell, b.cell] := by unfold busyCells; simp [hi]
  rw [busyCells_cons, e5] at ht
  have key := busy_defined (ctx := ctx) hi e3 e4 hne (ht _ (by simp)) (ht _ (by simp))
  refine ⟨_, key, ?_, ?_, ?_⟩
  · split <;> rfl
  · intro hk; rw [if_neg hk]; exact ⟨rfl, rfl⟩
  · intro hk
    rw [if_pos hk]
    refine ⟨rfl, o, e3, by simp, ?_, ?_⟩
    · simp only
      rw [upd_other _ _ (Ne.symm hne), upd_same]
    · intro d h1 h2
      simp only
      rw [upd_other _ _ h1, upd_other _ _ h2]

/-- C31, the whole rotation on any slice: three advances after a rotation has begun, the follow-ups having been attempted
once after each, the patch is back where it was, turned, and the neighbour is free. -/
theorem c31_run {ctx : Ctx ρ} (hres : ctx.layout.magicReserved = false) {m : Mach ρ} {i : Instr} {t : Nat} (hi : i.op = .rotate t)
    {r : Wave.Res (Mach ρ)} (h : Apply.apply ctx m i = .ok r) (hok : r.err = false) {s1 s2 s3 : DSlice}
    (h1 : r.slice.slice.advance ctx.layout = .ok s1) (h2 : s1.advance ctx.layout = .ok s2) (h3 : s2.advance ctx.layout = .ok s3)
    (rs : ρ) (k : Nat) :
    ∃ c n p i1 i2 i3 r3, m.slice.cellById t = some c ∧ m.slice.cells c = some p ∧ Adjacent c n ∧ m.slice.cells n = none ∧
      r.followups = [i1] ∧ Apply.apply ctx ⟨s1, rs, k⟩ i1 = .ok ⟨⟨s1, rs, k⟩, i1, false, [i2]⟩ ∧
      Apply.apply ctx ⟨s2, rs, k⟩ i2 = .ok ⟨⟨s2, rs, k⟩, i2, false, [i3]⟩ ∧ Apply.apply ctx ⟨s3, rs, k⟩ i3 = .ok r3 ∧
      r3.err = false ∧ r3.followups = [] ∧ (∀ s ∈ [r.slice.slice, s1, s2, s3], Busy s c ∧ Busy s n) ∧
      r3.slice.slice.cells c = some (putBack p) ∧ r3.slice.slice.cells n = none ∧ ∀ d, d ≠ c → d ≠ n → r3.slice.slice.cells d = s3.cells d := by
  unfold Apply.apply at h
  rw [hi] at h
  rcases applyRotate_ok h with rfl | ⟨c, p, n, reg, x, hc, hpc, hl, hreg, hmark, rfl⟩
  · cases hok
  obtain ⟨a, b, e, ha, hb, hne, r1, r2, f1, f2, e2, e1⟩ := mark_rotation hreg hmark
  obtain ⟨o, ho1, ho2, ho3⟩ := rotated_eq p c
  have hfree : m.slice.cells n = none ∧ Adjacent c n := by
    rcases lastFree_ok hl with ⟨g1, g2⟩ | g
    · exact ⟨g2, mem_neighboursIn g1⟩
    · cases g
  rcases reg with ⟨cs, rid⟩
  simp only at e
  subst e
  have t0 : Turning x.1 c ∧ Turning x.1 n := by
    rw [e1]
    refine ⟨⟨r1, ?_⟩, ⟨r2, ?_⟩⟩
    · simp only [core_put]; rw [if_neg hne, if_pos trivial]; exact ⟨_, rfl, rfl, rfl, rfl⟩
    · simp only [core_put]; rw [if_pos trivial]; exact ⟨_, rfl, rfl, rfl, rfl⟩
  simp only at h1
  have t1 : Turning s1 c ∧ Turning s1 n := ⟨turning_advance hres h1 t0.1, turning_advance hres h1 t0.2⟩
  have t2 : Turning s2 c ∧ Turning s2 n := ⟨turning_advance hres h2 t1.1, turning_advance hres h2 t1.2⟩
  have t3 : Turning s3 c ∧ Turning s3 n := ⟨turning_advance hres h3 t2.1, turning_advance hres h3 t2.2⟩
  have ho : o.cell = a.cell := ho2.trans ha.symm
  have hne' : a.cell ≠ b.cell := by rw [ha, hb]; exact hne
  have mk : ∀ (s : DSlice), Turning s c ∧ Turning s n → Turning s a.cell ∧ Turning s b.cell := by intro s hs; rw [ha, hb]; exact hs
  refine ⟨c, n, p, { op := .busy ⟨[a, b], rid⟩ 2 [rotated p c] }, { op := .busy ⟨[a, b], rid⟩ 1 [rotated p c] }, { op := .busy ⟨[a, b], rid⟩ 0 [rotated p c] }, _,
    hc, hpc, hfree.2, hfree.1, by rw [e2], ?_, ?_, busy_defined rfl ho1 ho hne' (mk _ t3).1 (mk _ t3).2, ?_, ?_, ?_, ?_, ?_, ?_⟩
  · exact busy_defined (ctx := ctx) (m := ⟨s1, rs, k⟩) (i := { op := .busy ⟨[a, b], rid⟩ 2 [rotated p c] }) rfl ho1 ho hne' (mk _ t1).1 (mk _ t1).2
  · exact busy_defined (ctx := ctx) (m := ⟨s2, rs, k⟩) (i := { op := .busy ⟨[a, b], rid⟩ 1 [rotated p c] }) rfl ho1 ho hne' (mk _ t2).1 (mk _ t2).2
  · rfl
  · rfl
  · intro s hs
    simp only [List.mem_cons, List.not_mem_nil, or_false] at hs
    rcases hs with rfl | rfl | rfl | rfl
    · exact ⟨turning_cells t0.1, turning_cells t0.2⟩
    · exact ⟨turning_cells t1.1, turning_cells t1.2⟩
    · exact ⟨turning_cells t2.1, turning_cells t2.2⟩
    · exact ⟨turning_cells t3.1, turning_cells t3.2⟩
  · simp only [if_true, ha, upd_same, ho3]
  · simp only [if_true, ha, hb]
    rw [upd_other _ _ (Ne.symm hne), upd_same]
  · intro d g1 g2
    simp only [if_true, ha, hb]
    rw [upd_other _ _ g1, upd_other _ _ g2]

end

/-! ### Reserved cells -/

/-- No routing. -/
def noRouter : RouterI Unit := ⟨fun _ _ _ _ _ _ => .ok (none, ()), false⟩

/-- A core patch, and a cell reserved for magic states with free neighbours. -/
def resLayout : Layout := { core := [basicSquare ⟨0, 0⟩ none none], furthest := ⟨1, 2⟩, reserved := [⟨0, 2⟩], times := [1], magicReserved := true }

def resCtx (a : Bool) : Ctx Unit := { localInstrs := false, twists := false, genIds := true, asserts := a, layout := resLayout, router := noRouter }

/-- A magic state is bound and rotated; the factory puts a new one into the middle of the rotation. -/
theorem reserved_run (a : Bool) : ∃ m i, History Unrouted (resCtx a) [7] m [i] ∧ (∃ reg q, i.op = .busy reg 0 [q] ∧ ⟨0, 2⟩ ∈ reg.cells.map (·.cell)) ∧
    m.slice.magic = [⟨0, 2⟩] ∧ (∃ p, m.slice.cells ⟨0, 2⟩ = some p ∧ p.type = .preparedState) ∧
    (if a then Apply.apply (resCtx a) m i = .throws
      else ∃ r p, Apply.apply (resCtx a) m i = .ok r ∧ r.slice.slice.magic = [⟨0, 2⟩] ∧ r.slice.slice.cells ⟨0, 2⟩ = some p ∧ p.type = .qubit ∧ p.id = some 9) := by
  have h1 := History.start (A := Unrouted) (ctx := resCtx a) (ids := [7]) (s := _) rfl () 1
  have h2 := h1.next rfl
  have h3 := h2.program (i := { op := .magic 9 7 }) trivial trivial (by decide) (by
    intro n hn
    refine ⟨?_, by simp⟩
    have e : n = 9 := by simpa [newIds] using hn
    subst e
    exact absent (by decide) h2 rfl) rfl
  have h4 := h3.program (i := { op := .rotate 9 }) trivial trivial (by decide) (by simp [newIds]) rfl
  have h5 := h4.next rfl
  have h6 := History.again (u := []) (v := []) h5 (by cases a <;> rfl)
  have h7 := h6.next rfl
  have h8 := History.again (u := []) (v := []) h7 (by cases a <;> rfl)
  have h9 := h8.next rfl
  refine ⟨_, _, h9, ⟨_, _, rfl, by decide⟩, by cases a <;> rfl, ⟨_, rfl, rfl⟩, ?_⟩
  cases a
  · exact ⟨_, _, rfl, rfl, rfl, rfl, rfl⟩
  · rfl

/-- C30 is false with cells reserved for magic states and assertions off: a queued location can hold a qubit with an id. -/
theorem c30_reserved_wrong : ∃ (ctx : Ctx Unit) (ids : List Nat) (m : Mach Unit) (w : List Instr) (c : Cell) (p : DensePatch),
    ctx.asserts = false ∧ ctx.layout.predistilled = [] ∧ History Unrouted ctx ids m w ∧ c ∈ m.slice.magic ∧ m.slice.cells c = some p ∧
      p.type = .qubit ∧ p.id = some 9 := by
  obtain ⟨m, i, h, -, -, -, r, p, h1, h2, h3, h4, h5⟩ := reserved_run false
  exact ⟨resCtx false, [7], r.slice, _, ⟨0, 2⟩, p, rfl, rfl, History.again (u := []) (v := []) h h1, by rw [h2]; simp, h3, h4, h5⟩

/-- C31 is false with cells reserved for magic states: with assertions on, the last step of a rotation can abort, one of
its two cells holding a magic state by then. -/
theorem c31_reserved_wrong : ∃ (ctx : Ctx Unit) (ids : List Nat) (m : Mach Unit) (i : Instr) (reg : RoutingRegion) (q : SparsePatch) (c : Cell) (p : DensePatch),
    History Unrouted ctx ids m [i] ∧ i.op = .busy reg 0 [q] ∧ c ∈ reg.cells.map (·.cell) ∧ m.slice.cells c = some p ∧ p.type = .preparedState ∧
      Apply.apply ctx m i = .throws := by
  obtain ⟨m, i, h, ⟨reg, q, hi, hm⟩, -, ⟨p, hp, ht⟩, hl⟩ := reserved_run true
  exact ⟨resCtx true, [7], m, i, reg, q, ⟨0, 2⟩, p, h, hi, hm, hp, ht, hl⟩

/-! ## C32: routes -/

section
variable {ρ : Type}

/-- The patch of a route at one of its cells. -/
def routePatch (act : PatchActivity) (id : Option Nat) (o : OccCell) : DensePatch := { type := .routing, activity := act, opId := id, bounds := o.bounds }

theorem fold_put_other (f : OccCell → DensePatch) : ∀ (os : List OccCell) (s : DSlice) (c : Cell), c ∉ os.map (·.cell) →
    (os.foldl (fun s o => s.put o.cell (some (f o))) s).cells c = s.cells c
  | [], _, _, _ => rfl
  | o :: os, s, c, h => by
    simp only [List.map_cons, List.mem_cons, not_or] at h
    rw [List.foldl_cons, fold_put_other f os _ c h.2]
    simp only [put_cells]
    exact upd_other _ _ h.1

theorem fold_put_mem (f : OccCell → DensePatch) : ∀ (os : List OccCell) (s : DSlice), (os.map (·.cell)).Nodup → ∀ o ∈ os,
    (os.foldl (fun s o => s.put o.cell (some (f o))) s).cells o.cell = some (f o)
  | [], _, _, _, h => by cases h
  | x :: os, s, hn, o, h => by
    simp only [List.map_cons, List.nodup_cons] at hn
    rw [List.foldl_cons]
    rcases List.mem_cons.1 h with rfl | h
    · rw [fold_put_other f os _ _ hn.1]; simp
    · exact fold_put_mem f os _ hn.2 o h

theorem fold_put_fields (f : OccCell → DensePatch) : ∀ (os : List OccCell) (s : DSlice),
    os.foldl (fun s o => s.put o.cell (some (f o))) s = { s with cells := (os.foldl (fun s o => s.put o.cell (some (f o))) s).cells }
  | [], _ => rfl
  | o :: os, s => by
    rw [List.foldl_cons, fold_put_fields f os]
    rfl

/-- C32: marking a route that is not an EDPC one puts its patches on the cells of the route, which were free, and changes
nothing else. -/
theorem c32_mark {L : Layout} {asserts : Bool} {s : DSlice} {r : RoutingRegion} {act : PatchActivity} (hact : act ≠ .edpc) {x : DSlice × RoutingRegion}
    (h : mark L asserts s r act = .ok x) : x.2 = r ∧ (∀ o ∈ r.cells, s.cells o.cell = none ∧ x.1.cells o.cell = some (routePatch act r.regionId o)) ∧
      x.1 = { s with cells := x.1.cells } ∧ ∀ c, c ∉ r.cells.map (·.cell) → x.1.cells c = s.cells c := by
  unfold mark at h
  obtain ⟨y, h1, h⟩ := Outcome.bind_eq_ok.1 h
  obtain ⟨p1, p2, p3, p4⟩ := markGo_plain hact h1
  cases h
  refine ⟨by simp only [p1], fun o ho => ⟨(p4 o ho).2, ?_⟩, ?_, fun c hc => ?_⟩
  · simp only
    rw [p2]
    exact fold_put_mem (routePatch act r.regionId) _ _ p3 o ho
  · simp only
    rw [p2]
    exact fold_put_fields (routePatch act r.regionId) _ _
  · simp only
    rw [p2]
    exact fold_put_other (routePatch act r.regionId) _ _ c hc

/-- C32: marking succeeds exactly for routes over distinct free cells of the slice. -/
theorem c32_possible {L : Layout} {asserts : Bool} {s : DSlice} {r : RoutingRegion} {act : PatchActivity} (hact : act ≠ .edpc) :
    (∃ x, mark L asserts s r act = .ok x) ↔ (r.cells.map (·.cell)).Nodup ∧ ∀ o ∈ r.cells, s.inRange o.cell = true ∧ s.cells o.cell = none := by
  constructor
  · rintro ⟨x, h⟩
    unfold mark at h
    obtain ⟨y, h1, h⟩ := Outcome.bind_eq_ok.1 h
    obtain ⟨p1, p2, p3, p4⟩ := markGo_plain hact h1
    exact ⟨p3, p4⟩
  · rintro ⟨hn, hf⟩
    have key : ∀ (cells : List Cell) (os : List OccCell) (k : Nat) (s : DSlice) (label : BoundaryType), (os.map (·.cell)).Nodup →
        (∀ o ∈ os, s.inRange o.cell = true ∧ s.cells o.cell = none) → ∃ y, markGo L asserts act r.regionId cells os k s label = .ok y := by
      intro cells os
      induction os with
      | nil => intro k s label _ _; exact ⟨_, rfl⟩
      | cons o os ih =>
        intro k s label hn hf
        simp only [List.map_cons, List.nodup_cons] at hn
        obtain ⟨hr, hc⟩ := hf o (by simp)
        rw [markGo]
        have h1 : markOne L asserts act r.regionId cells k o s label = .ok (s.put o.cell (some (routePatch act r.regionId o)), label, o) := by
          simp [markOne, patchAt, hr, hc, hact, place, placeSingle, isFree, DensePatch.fromSparse, routePatch]
        rw [h1, Outcome.bind_ok]
        obtain ⟨y, hy⟩ := ih (k + 1) (s.put o.cell (some (routePatch act r.regionId o))) label hn.2 (by
          intro o' ho'
          obtain ⟨g1, g2⟩ := hf o' (by simp [ho'])
          refine ⟨g1, ?_⟩
          simp only [put_cells]
          rw [upd_other _ _ ?_]
          · exact g2
          · intro e; exact hn.1 (e ▸ List.mem_map_of_mem ho'))
        rw [hy, Outcome.bind_ok]
        exact ⟨_, rfl⟩
    obtain ⟨y, hy⟩ := key (r.cells.map (·.cell)) r.cells 0 s .reserved1 hn hf
    exact ⟨_, by unfold mark; rw [hy, Outcome.bind_ok]⟩

theorem advance_ageAll {L : Layout} {s s' : DSlice} (h : s'.ageAll = s.ageAll) : s'.advance L = s.advance L := by
  unfold advance
  simp only
  rw [h]

/-- C32: the next slice is the same as if the route of a measurement had not been marked: the marked cells, and only
they, are freed. -/
theorem c32_freed {L : Layout} {asserts : Bool} {s : DSlice} {r : RoutingRegion} {x : DSlice × RoutingRegion}
    (h : mark L asserts s r .multiPatchMeasurement = .ok x) : x.1.advance L = s.advance L := by
  obtain ⟨-, h2, h3, h4⟩ := c32_mark (by decide) h
  apply advance_ageAll
  rw [h3]
  unfold ageAll
  simp only [DSlice.mk.injEq, true_and, and_true]
  refine funext fun c => ?_
  by_cases hc : c ∈ r.cells.map (·.cell)
  · obtain ⟨o, ho, rfl⟩ := List.mem_map.1 hc
    obtain ⟨e1, e2⟩ := h2 o ho
    rw [e1, e2]
    rfl
  · rw [h4 c hc]

theorem age_flags {p : DensePatch} (h : p.activity = .none) (d : CellDirection) :
    age { p with bounds := p.bounds.set { p.bounds.get d with active := true } d } = age p := by
  rcases p with ⟨⟨type, act, id, label, op⟩, b⟩
  simp only at h
  subst h
  cases d <;> rfl

theorem activate_aged {s s' : DSlice} {a b : Cell} (h : s.activate a b = .ok s') (hp : ∀ p, s.cells a = some p → p.activity = .none) :
    s'.ageAll = s.ageAll ∧ s'.core = s.core := by
  refine ⟨?_, by funext c; exact (activate_same h).core c⟩
  unfold activate at h
  obtain ⟨o, h1, h⟩ := Outcome.bind_eq_ok.1 h
  split at h
  · cases h
  · rename_i d
    cases h
    unfold setSide
    cases hc : s.cells a with
    | none => rfl
    | some p =>
      simp only
      unfold ageAll put
      simp only [DSlice.mk.injEq, true_and, and_true]
      funext c
      by_cases e : c = a
      · subst e
        rw [upd_same, hc]
        exact age_flags (hp p hc) d
      · rw [upd_other _ _ e]

theorem idle_of_core {s s' : DSlice} {a : Cell} (h : s'.core = s.core) (hp : ∀ p, s.cells a = some p → p.activity = .none) :
    ∀ p, s'.cells a = some p → p.activity = .none := by
  intro p hc
  have e := congrFun h a
  unfold core at e
  rw [hc] at e
  cases hs : s.cells a with
  | none => rw [hs] at e; cases e
  | some q =>
    rw [hs] at e
    simp only [Option.map_some, Option.some.injEq] at e
    rw [e]
    exact hp q hs

/-- C32: the same for a whole merge of two patches with the route between them, the `S` gate included. -/
theorem c32_merge {ctx : Ctx ρ} {m : Mach ρ} {a b : Nat} {opA opB : Pauli} {x : Mach ρ × Bool} (h : merge ctx m a opA b opB = .ok x) :
    x.1.slice.advance ctx.layout = m.slice.advance ctx.layout := by
  unfold merge at h
  split at h
  · rename_i pa pb hpa hpb
    split at h
    · cases h; rfl
    · rename_i hact
      obtain ⟨⟨r, rs⟩, h1, h⟩ := Outcome.bind_eq_ok.1 h
      simp only at h
      split at h
      · cases h; rfl
      · split at h
        · rename_i ca cb hca hcb
          obtain ⟨s, h2, h⟩ := Outcome.bind_eq_ok.1 h
          obtain ⟨y, h3, h⟩ := Outcome.bind_eq_ok.1 h
          cases h
          simp only
          rw [c32_freed h3]
          apply advance_ageAll
          simp only [Bool.or_eq_true, not_or, Bool.not_eq_true] at hact
          have idle : ∀ (p : DensePatch), p.isActive = false → p.activity = .none := by
            intro p hp
            unfold DensePatch.isActive at hp
            split at hp
            · cases hp
            · rename_i e; simpa using e
          have ia : ∀ p, m.slice.cells ca = some p → p.activity = .none := by
            intro p hp
            unfold patchById at hpa
            rw [hca] at hpa
            have hpa : m.slice.cells ca = some pa := hpa
            rw [hp] at hpa
            cases hpa
            exact idle _ hact.1
          have ib : ∀ p, m.slice.cells cb = some p → p.activity = .none := by
            intro p hp
            unfold patchById at hpb
            rw [hcb] at hpb
            have hpb : m.slice.cells cb = some pb := hpb
            rw [hp] at hpb
            cases hpb
            exact idle _ hact.2
          unfold stitch at h2
          split at h2
          · obtain ⟨s1, g1, h2⟩ := Outcome.bind_eq_ok.1 h2
            obtain ⟨e1, e2⟩ := activate_aged g1 ia
            rw [(activate_aged h2 (idle_of_core e2 ib)).1, e1]
          · obtain ⟨s1, g1, h2⟩ := Outcome.bind_eq_ok.1 h2
            obtain ⟨e1, e2⟩ := activate_aged g1 ia
            rw [(activate_aged h2 (idle_of_core e2 ib)).1, e1]
        · cases h
  · cases h

/-- C32, EDPC: outside the route only labels of sides can change; on it free cells get routing patches and the others
keep their patches. -/
theorem c32_edpc {L : Layout} {asserts : Bool} {s : DSlice} {r : RoutingRegion} {x : DSlice × RoutingRegion}
    (h : mark L asserts s r .edpc = .ok x) : ∀ c, (x.1.cells c).map (·.toPatch) = (s.cells c).map (·.toPatch) ∨
      (s.cells c = none ∧ c ∈ r.cells.map (·.cell) ∧ ∃ p, x.1.cells c = some p ∧ p.type = .routing ∧ p.activity = .edpc ∧ p.id = none) := by
  intro c
  rcases (mark_filled h).1.cell c with e | ⟨-, h1, h2, h3⟩
  · exact .inl e
  · exact .inr ⟨h1, h2, h3⟩

/-- C32, EDPC: the advance does not free a marked cell, it keeps it reserved. So for EDPC routes the second half of the
property does not hold. -/
theorem c32_edpc_stays {L : Layout} {s s' : DSlice} (hres : L.magicReserved = false) (h : s.advance L = .ok s') {c : Cell} {p : DensePatch}
    (hc : s.cells c = some p) (hp : p.activity = .edpc) : ∃ q, s'.cells c = some q ∧ q.type = p.type ∧ q.activity = .reserved ∧ q.bounds = p.bounds := by
  obtain ⟨q, hq1, hq2⟩ := aged hc (by rintro (e | e) <;> (rw [hp] at e; cases e))
  have hs : s'.cells c = some q := by
    rcases ((advance_ok h).2.1 hres).cell c with e | ⟨e, -⟩
    · rw [e, hq1]
    · rw [hq1] at e; cases e
  refine ⟨q, hs, ?_⟩
  rcases p with ⟨⟨type, act, id, label, op⟩, b⟩
  simp only at hp
  subst hp
  simp only [age] at hq2
  simp at hq2
  rw [← hq2]
  exact ⟨rfl, rfl, rfl⟩

end

/-! ## C44: boundaries -/

/-- Rough left and right, smooth top and bottom, or the other way round. -/
def standard (b : CellBoundaries) (x y : BoundaryType) : Prop := b.top.ty = x ∧ b.bottom.ty = x ∧ b.left.ty = y ∧ b.right.ty = y

/-- C44: one rotation exchanges the sides of a standard patch. -/
theorem c44_exchange {b : CellBoundaries} {x y : BoundaryType} (h : standard b x y) : standard b.instantRotate y x :=
  ⟨h.2.2.1, h.2.2.2, h.2.1, h.1⟩

/-- C44: two rotations restore the type pattern of a standard patch. -/
theorem c44_two {b : CellBoundaries} {x y : BoundaryType} (h : standard b x y) : sides b.instantRotate.instantRotate = sides b := by
  obtain ⟨h1, h2, h3, h4⟩ := h
  simp [sides, CellBoundaries.instantRotate, h1, h2, h3, h4]

/-- C44: four rotations change nothing. -/
theorem c44_four (b : CellBoundaries) : b.instantRotate.instantRotate.instantRotate.instantRotate = b := rfl

/-- C44: fewer do not suffice. -/
theorem c44_least : ∃ b : CellBoundaries, b.instantRotate ≠ b ∧ b.instantRotate.instantRotate ≠ b ∧ b.instantRotate.instantRotate.instantRotate ≠ b :=
  ⟨⟨⟨.rough, true⟩, ⟨.rough, false⟩, ⟨.smooth, false⟩, ⟨.smooth, false⟩⟩, by decide, by decide, by decide⟩

/-- C44: the complement of a boundary type is another type, whose complement it is. -/
theorem c44_type (t : BoundaryType) : t.flip ≠ t ∧ t.flip.flip = t := by cases t <;> decide

/-- C44: the same for directions. -/
theorem c44_direction (d : CellDirection) : d.flip ≠ d ∧ d.flip.flip = d := by cases d <;> decide

/-- C44: a side is found exactly for cells next to each other, and the neighbour finds the opposite one. -/
theorem c44_sides (a b : Cell) : (a.sideTowards b = none ↔ ¬ Adjacent a b) ∧ b.sideTowards a = (a.sideTowards b).map CellDirection.flip := by
  rcases a with ⟨r, k⟩
  rcases b with ⟨r', k'⟩
  unfold Cell.sideTowards Adjacent dist
  simp only [Cell.mk.injEq]
  constructor
  · repeat' split
    all_goals first
      | (simp; omega)
      | (simp only [reduceCtorEq, false_iff, not_not]; omega)
      | (simp only [true_iff]; omega)
  · repeat' split
    all_goals first
      | rfl
      | (exfalso; omega)

/-- The unit steps. -/
def stepTo (a : Cell) : CellDirection → Cell
  | .top => ⟨a.row - 1, a.col⟩
  | .bottom => ⟨a.row + 1, a.col⟩
  | .left => ⟨a.row, a.col - 1⟩
  | .right => ⟨a.row, a.col + 1⟩

theorem side_step (a : Cell) (d : CellDirection) : a.sideTowards (stepTo a d) = some d := by
  rcases a with ⟨r, k⟩
  cases d
  · simp [stepTo, Cell.sideTowards]
  · simp only [stepTo, Cell.sideTowards, Cell.mk.injEq]
    rw [if_neg (by omega), if_pos (by simp)]
  · simp only [stepTo, Cell.sideTowards, Cell.mk.injEq]
    rw [if_neg (by omega), if_neg (by omega), if_pos (by simp)]
  · simp only [stepTo, Cell.sideTowards, Cell.mk.injEq]
    rw [if_neg (by omega), if_neg (by omega), if_neg (by omega), if_pos (by simp)]

/-- C44: looking up the boundary with the neighbour in a direction gives the side in that direction; there is none
otherwise. -/
theorem c44_lookup (o : OccCell) (d : CellDirection) :
    o.boundaryWith (stepTo o.cell d) = some (match d with | .top => o.bounds.top | .bottom => o.bounds.bottom | .left => o.bounds.left | .right => o.bounds.right) ∧
    ∀ n, (o.boundaryWith n).isSome ↔ ∃ d, n = stepTo o.cell d := by
  unfold OccCell.boundaryWith
  constructor
  · rw [side_step]; cases d <;> rfl
  · intro n
    rw [Option.isSome_map]
    constructor
    · intro h
      unfold Cell.sideTowards at h
      split at h
      · rename_i e; exact ⟨.top, e⟩
      · split at h
        · rename_i e; exact ⟨.bottom, e⟩
        · split at h
          · rename_i e; exact ⟨.left, e⟩
          · split at h
            · rename_i e; exact ⟨.right, e⟩
            · cases h
    · rintro ⟨d, rfl⟩
      rw [side_step]; rfl

/-- C44: rotating a cell's boundaries and looking the sides up commute: the side facing `d` is the one that faced the
direction before it. -/
theorem c44_turn (b : CellBoundaries) (d : CellDirection) :
    b.instantRotate.get d = b.get (match d with | .top => .left | .right => .top | .bottom => .right | .left => .bottom) := by cases d <;> rfl

/-! ## Examples -/

/-- Two core patches, one factory that delivers to two cells. -/
def exLayout : Layout :=
  { core := [basicSquare ⟨0, 0⟩ none none, basicSquare ⟨0, 3⟩ none none], furthest := ⟨2, 3⟩, ancilla := [⟨2, 0⟩],
    distilled := [[⟨2, 2⟩, ⟨2, 3⟩]], times := [1] }

/-- A router that always proposes the cells between the two core patches. -/
def exRouter : RouterI Unit :=
  ⟨fun _ _ _ _ _ _ => .ok (some ⟨[⟨⟨⟨.none, false⟩, ⟨.none, false⟩, ⟨.connected, true⟩, ⟨.connected, true⟩⟩, ⟨0, 2⟩⟩,
    ⟨⟨⟨.none, false⟩, ⟨.none, false⟩, ⟨.connected, true⟩, ⟨.connected, true⟩⟩, ⟨0, 1⟩⟩], none⟩, ()), false⟩

def exCtx : Ctx Unit := { localInstrs := false, twists := false, genIds := true, asserts := true, layout := exLayout, router := exRouter }

/-- The first slice. -/
def exStart : Outcome DSlice := DSlice.init exLayout [7, 8]

/-- c29: both core patches survive an advance in which a magic state appears. -/
example : ∃ s s', exStart = .ok s ∧ s.advance exLayout = .ok s' ∧ Fits exLayout s ∧ (∃ p, s.cells ⟨0, 3⟩ = some p ∧ p.type = .qubit ∧ ¬ Measured p ∧ p.id = some 8) ∧
    s'.magic = [⟨2, 2⟩] := by
  refine ⟨_, _, rfl, rfl, ⟨rfl, by decide, fun _ => ⟨by decide, ?_⟩⟩, ⟨_, rfl, rfl, (by rintro (h | h) <;> cases h), rfl⟩, rfl⟩
  intro cs hcs c hc
  simp only [exLayout, List.mem_singleton] at hcs
  subst hcs
  simp only [List.mem_cons, List.not_mem_nil, or_false] at hc
  rcases hc with rfl | rfl <;> rfl

/-- A measured patch does not survive. -/
example : ∃ s r s', exStart = .ok s ∧ Apply.apply exCtx ⟨s, (), 1⟩ { op := .measure 8 .Z false } = .ok r ∧ r.slice.slice.advance exLayout = .ok s' ∧
    s'.cells ⟨0, 3⟩ = none ∧ (∃ p, s'.cells ⟨0, 0⟩ = some p ∧ p.id = some 7) := ⟨_, _, _, rfl, rfl, rfl, rfl, _, rfl, rfl⟩

/-- c30: after two advances two states are queued, and a request takes the one nearer to the first patch. -/
example : ∃ m w r, History Unrouted exCtx [7, 8] m w ∧ m.slice.magic = [⟨2, 2⟩, ⟨2, 3⟩] ∧ Present m.slice 7 ∧ exCtx.layout.times ≠ [] ∧
    Apply.apply exCtx m { op := .magic 9 7 } = .ok r ∧ r.slice.slice.magic = [⟨2, 3⟩] ∧ r.slice.slice.cellById 9 = some ⟨2, 2⟩ := by
  have h1 := History.start (A := Unrouted) (ctx := exCtx) (ids := [7, 8]) (s := _) rfl () 1
  exact ⟨_, _, _, (h1.next rfl).next rfl, rfl, ⟨⟨0, 0⟩, _, rfl, rfl⟩, by decide, rfl, rfl, rfl⟩

/-- c31: the first core patch is rotated while states are delivered. -/
example : ∃ s r s1 s2 s3, exStart = .ok s ∧ Apply.apply exCtx ⟨s, (), 1⟩ { op := .rotate 7 } = .ok r ∧ r.err = false ∧
    r.slice.slice.advance exLayout = .ok s1 ∧ s1.advance exLayout = .ok s2 ∧ s2.advance exLayout = .ok s3 ∧ exCtx.layout.magicReserved = false :=
  ⟨_, _, _, _, _, rfl, rfl, rfl, rfl, rfl, rfl, rfl⟩

/-- c31: a history with an unfinished rotation and a state that has been delivered meanwhile. -/
example : ∃ m i, History Unrouted exCtx [7, 8] m ([] ++ i :: []) ∧ (∃ a b q, i.op = .busy ⟨[a, b], none⟩ 1 [q] ∧ a.cell = ⟨0, 0⟩ ∧ b.cell = ⟨0, 1⟩ ∧ q.id = some 7) ∧
    m.slice.magic = [⟨2, 2⟩] ∧ m.slice.cellById 7 = none := by
  have h1 := History.start (A := Unrouted) (ctx := exCtx) (ids := [7, 8]) (s := _) rfl () 1
  have h2 := h1.program (i := { op := .rotate 7 }) trivial trivial (by decide) (by simp [newIds]) rfl
  have h3 := h2.next rfl
  have h4 := History.again (u := []) (v := []) h3 rfl
  exact ⟨_, _, h4, ⟨_, _, _, rfl, rfl, rfl, rfl⟩, rfl, rfl⟩

/-- c32: the two core patches are merged. -/
example : ∃ s x, exStart = .ok s ∧ merge exCtx ⟨s, (), 1⟩ 7 .X 8 .X = .ok (x, true) ∧ (∃ p, x.slice.cells ⟨0, 1⟩ = some p ∧ p.type = .routing) ∧
    (∃ p, x.slice.cells ⟨0, 0⟩ = some p ∧ p.bounds.right.active = true) := ⟨_, _, rfl, rfl, ⟨_, rfl, rfl⟩, ⟨_, rfl, rfl⟩⟩

/-- c32: an EDPC route with its two end patches is marked and stays. -/
example : ∃ s x s', exStart = .ok s ∧ mark exLayout true s ⟨[bareCell ⟨0, 3⟩, ⟨.all ⟨.connected, true⟩, ⟨0, 2⟩⟩, ⟨.all ⟨.connected, true⟩, ⟨0, 1⟩⟩, bareCell ⟨0, 0⟩], none⟩ .edpc = .ok x ∧
    (∃ p, x.1.cells ⟨0, 1⟩ = some p ∧ p.activity = .edpc) ∧ x.1.advance exLayout = .ok s' ∧ (∃ p, s'.cells ⟨0, 1⟩ = some p ∧ p.activity = .reserved) :=
  ⟨_, _, _, rfl, rfl, ⟨_, rfl, rfl⟩, rfl, _, rfl, rfl⟩

/-- c32_possible: over a free cell, but not over a patch. -/
example : ∃ s x, exStart = .ok s ∧ mark exLayout true s ⟨[bareCell ⟨1, 1⟩], none⟩ .rotation = .ok x ∧ mark exLayout true s ⟨[bareCell ⟨0, 0⟩], none⟩ .rotation = .throws :=
  ⟨_, _, rfl, rfl, rfl⟩

/-- c44: the patches of the code are standard ones. -/
example (c : Cell) : ∃ o, (basicSquare c none none).cells = .single o ∧ standard o.bounds .smooth .rough ∧ standard o.bounds.instantRotate .rough .smooth :=
  ⟨_, rfl, ⟨rfl, rfl, rfl, rfl⟩, ⟨rfl, rfl, rfl, rfl⟩⟩

end Verif.Slices.Spec
