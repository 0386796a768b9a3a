import Verif.JsonLemmas

/-!
# JSON output of slices (properties)

C60: what can be read off the JSON of a slice. C61: the text written for the slices shown is one JSON array.
-/

namespace Verif.Json.Spec

open Lli

/-- The slice has the size of the layout, and every factory has a first cell on it, not the first cell of another factory, and
a time. -/
structure Drawable (L : Layout) (s : DSlice) : Prop where
  rows : L.furthest.row + 1 = s.rows
  cols : L.furthest.col + 1 = s.cols
  times : L.regions.length ≤ s.times.length
  first : ∀ r ∈ L.regions, ∃ o l, r = o :: l ∧ s.inRange o.cell = true
  apart : ∀ {k k' : Nat} {o o' : OccCell} {l l' : List OccCell}, L.regions[k]? = some (o :: l) → L.regions[k']? = some (o' :: l') → o.cell = o'.cell → k = k'

/-- `c` is the first cell of the factory `k`. -/
def Factory (L : Layout) (c : Cell) (k : Nat) : Prop := ∃ o l, L.regions[k]? = some (o :: l) ∧ o.cell = c

/-- The entry of a cell in an array of rows. -/
def Entry (j : Json) (c : Cell) (v : Json) : Prop :=
  0 ≤ c.row ∧ 0 ≤ c.col ∧ ∃ rows row, j = .arr rows ∧ rows[c.row.toNat]? = some (.arr row) ∧ row[c.col.toNat]? = some v

/-- The object has exactly one member of that name, with that value. -/
def Has (v : Json) (k : Str) (x : Json) : Prop := ∃ l, v = .obj l ∧ ∀ y, (k, y) ∈ l ↔ y = x

/-- Sides drawn as nothing. -/
def Undrawn (b : Boundary) : Prop := b.ty = .none ∨ b.active = false ∧ (b.ty = .connected ∨ b.ty = .reserved1 ∨ b.ty = .reserved2)

/-- Sides that look the same: equal ones, undrawn ones, and active sides of which one is marked with a label. -/
def SameSide (a b : Boundary) : Prop :=
  a = b ∨ (Undrawn a ∧ Undrawn b) ∨
    (a.active = true ∧ b.active = true ∧ ((a.ty = .smooth ∧ b.ty = .reserved1) ∨ (a.ty = .reserved1 ∧ b.ty = .smooth) ∨ (a.ty = .rough ∧ b.ty = .reserved2) ∨ (a.ty = .reserved2 ∧ b.ty = .rough)))

def SameType (a b : PatchType) : Prop :=
  a = b ∨ ((a = .distillation ∨ a = .preparedState) ∧ (b = .distillation ∨ b = .preparedState)) ∨ ((a = .routing ∨ a = .dead) ∧ (b = .routing ∨ b = .dead))

def SameActivity (a b : PatchActivity) : Prop := a = b ∨ ((a ≠ .measurement ∧ a ≠ .unitary) ∧ (b ≠ .measurement ∧ b ≠ .unitary))

/-- A patch that is there to be bound to an id. -/
def Unbound (p : DensePatch) : Prop := (p.type = .distillation ∧ p.activity = .none) ∨ p.type = .qubit

/-- Patches that look the same apart from the text. -/
structure Similar (p q : DensePatch) : Prop where
  op : p.opId = q.opId
  side : ∀ d, SameSide (p.bounds.get d) (q.bounds.get d)
  type : SameType p.type q.type
  activity : SameActivity p.activity q.activity

/-- Patches that look the same. -/
structure Alike (p q : DensePatch) : Prop extends Similar p q where
  id : p.id = q.id
  text : p.id = none → (Unbound p ↔ Unbound q)

/-- Two contents of a cell related by `r`, or both nothing. -/
def Both (r : DensePatch → DensePatch → Prop) : Option DensePatch → Option DensePatch → Prop
  | none, none => True
  | some p, some q => r p q
  | _, _ => False

/-! ## Proofs -/

theorem inside_iff {s : DSlice} {c : Cell} : s.inRange c = true ↔ Inside s.rows s.cols c := by
  simp [DSlice.inRange, Inside]

theorem nodup_of_apart : ∀ {rs : List (List OccCell)}, (∀ {k k' : Nat} {o o' : OccCell} {l l' : List OccCell}, rs[k]? = some (o :: l) → rs[k']? = some (o' :: l') → o.cell = o'.cell → k = k') →
    (fronts rs).Nodup
  | [], _ => List.nodup_nil
  | r :: rs, h => by
    have ih : (fronts rs).Nodup := nodup_of_apart (by
      intro k k' o o' l l' h1 h2 e
      have := h (k := k + 1) (k' := k' + 1) (by simpa using h1) (by simpa using h2) e
      omega)
    cases r with
    | nil => exact ih
    | cons o l =>
      have e : fronts ((o :: l) :: rs) = o.cell :: fronts rs := rfl
      rw [e, List.nodup_cons]
      refine ⟨?_, ih⟩
      intro hm
      obtain ⟨k, o', l', hk, e⟩ := mem_fronts.1 hm
      have := h (k := 0) (k' := k + 1) (by simp; rfl) (by simpa using hk) e.symm
      omega

theorem slice_eq {L : Layout} {s : DSlice} (h : Drawable L s) :
    ∃ g, sliceJson L s = .ok (ofFun s.rows s.cols g) ∧ (∀ c, (∀ k, ¬ Factory L c k) → g c = cellVal s c) ∧
      (∀ c k, Factory L c k → ∃ t, s.times[k]? = some t ∧ g c = withText t (cellVal s c)) := by
  obtain ⟨g, h1, h2, h3⟩ := annotate_eq (s := s) (R := s.rows) (K := s.cols) L.regions 0 (cellVal s)
    (fun r hr => by obtain ⟨o, l, e, hi⟩ := h.first r hr; exact ⟨o, l, e, inside_iff.1 hi⟩) (by have := h.times; omega) (nodup_of_apart h.apart) (open_cellVal s)
  refine ⟨g, ?_, ?_, ?_⟩
  · unfold sliceJson
    rw [draw_eq h.rows h.cols]
    exact h1
  · intro c hc
    apply h2
    intro hm
    obtain ⟨k, o, l, e1, e2⟩ := mem_fronts.1 hm
    exact hc k ⟨o, l, e1, e2⟩
  · rintro c k ⟨o, l, e1, rfl⟩
    have := h3 k o l e1
    rwa [Nat.zero_add] at this

theorem entry_ofFun {R K : Nat} {g : Cell → Json} {c : Cell} {v : Json} : Entry (ofFun R K g) c v ↔ Inside R K c ∧ g c = v := by
  constructor
  · rintro ⟨h1, h2, rows, row, e1, e2, e3⟩
    have hi : Inside R K c := by
      unfold ofFun at e1
      cases e1
      have hr := (List.getElem?_eq_some_iff.1 e2).1
      simp only [List.length_map, List.length_range] at hr
      rw [List.getElem?_map, List.getElem?_range hr] at e2
      simp only [Option.map_some, Option.some.injEq, Json.arr.injEq] at e2
      subst e2
      have hk := (List.getElem?_eq_some_iff.1 e3).1
      simp only [List.length_map, List.length_range] at hk
      unfold Inside; omega
    refine ⟨hi, ?_⟩
    obtain ⟨rows', row', f1, -, f2, -, f3⟩ := ofFun_at (g := g) hi
    rw [f1] at e1; cases e1
    rw [f2] at e2; cases e2
    rw [f3] at e3; exact Option.some.inj e3
  · rintro ⟨hi, rfl⟩
    obtain ⟨rows', row', f1, -, f2, -, f3⟩ := ofFun_at (g := g) hi
    exact ⟨hi.1, hi.2.2.1, rows', row', f1, f2, f3⟩

theorem edge_same : ∀ a b : Boundary, edge a = edge b ↔ SameSide a b := by
  rintro ⟨t, x⟩ ⟨t', x'⟩
  unfold SameSide Undrawn
  cases t <;> cases x <;> cases t' <;> cases x' <;> decide

theorem type_same : ∀ a b, typeStr a = typeStr b ↔ SameType a b := by
  intro a b
  unfold SameType
  cases a <;> cases b <;> decide

theorem activity_same : ∀ a b, activityJson a = activityJson b ↔ SameActivity a b := by
  intro a b
  unfold SameActivity
  cases a <;> cases b <;> simp [activityJson]

theorem showNat_inj {a b : Nat} (h : showNat a = showNat b) : a = b := by
  rw [← readDigits_showNat a, h, readDigits_showNat]

theorem text_id {p : DensePatch} {n : Nat} : patchText p = "Id: ".toList ++ showNat n ↔ p.id = some n := by
  unfold patchText
  cases e : p.id with
  | some m =>
    dsimp only
    rw [List.append_cancel_left_eq]
    exact ⟨fun h => by rw [showNat_inj h], fun h => by cases h; rfl⟩
  | none =>
    dsimp only
    split <;> simp

theorem text_same {p q : DensePatch} : patchText p = patchText q ↔ p.id = q.id ∧ (p.id = none → (Unbound p ↔ Unbound q)) := by
  cases e : q.id with
  | some n =>
    have h1 : patchText q = "Id: ".toList ++ showNat n := text_id.2 e
    rw [h1, text_id]
    constructor
    · intro h; exact ⟨h, by rw [h]; simp⟩
    · exact fun h => h.1
  | none =>
    cases e' : p.id with
    | some m =>
      have h1 : patchText p = "Id: ".toList ++ showNat m := text_id.2 e'
      rw [h1]
      constructor
      · intro h; have := text_id.1 h.symm; rw [e] at this; cases this
      · intro h; cases h.1
    | none =>
      unfold patchText
      rw [e, e']
      dsimp only
      have hp : ((p.type = .distillation ∧ p.activity = .none) ∨ p.type = .qubit) ↔ Unbound p := Iff.rfl
      have hq : ((q.type = .distillation ∧ q.activity = .none) ∨ q.type = .qubit) ↔ Unbound q := Iff.rfl
      by_cases h1 : Unbound p <;> by_cases h2 : Unbound q
      · rw [if_pos (hp.2 h1), if_pos (hq.2 h2)]; simp [h1, h2]
      · rw [if_pos (hp.2 h1), if_neg (fun h => h2 (hq.1 h))]; simp [h1, h2]
      · rw [if_neg (fun h => h1 (hp.1 h)), if_pos (hq.2 h2)]; simp [h1, h2]
      · rw [if_neg (fun h => h1 (hp.1 h)), if_neg (fun h => h2 (hq.1 h))]; simp [h1, h2]

/-- The parts of an entry. -/
theorem bare_same {p q : DensePatch} {t t' : Json} : bare p t = bare q t' ↔ Similar p q ∧ t = t' := by
  have key : Similar p q ↔ p.opId = q.opId ∧ (edge p.bounds.bottom = edge q.bounds.bottom ∧ edge p.bounds.left = edge q.bounds.left ∧
      edge p.bounds.right = edge q.bounds.right ∧ edge p.bounds.top = edge q.bounds.top) ∧ typeStr p.type = typeStr q.type ∧ activityJson p.activity = activityJson q.activity := by
    rw [edge_same, edge_same, edge_same, edge_same, type_same, activity_same]
    constructor
    · rintro ⟨h1, h2, h3, h4⟩
      exact ⟨h1, ⟨h2 .bottom, h2 .left, h2 .right, h2 .top⟩, h3, h4⟩
    · rintro ⟨h1, ⟨h2, h3, h4, h5⟩, h6, h7⟩
      exact ⟨h1, fun d => by cases d <;> assumption, h6, h7⟩
  rw [key]
  unfold bare
  cases e : p.opId <;> cases e' : q.opId
  · simp [and_assoc, and_left_comm]
  · simp
  · simp
  · rename_i a b
    have : showNat a = showNat b ↔ a = b := ⟨showNat_inj, fun h => by rw [h]⟩
    simp [this]
    grind

theorem patchVal_same {p q : DensePatch} : patchVal p = patchVal q ↔ Alike p q := by
  unfold patchVal
  rw [bare_same, Json.str.injEq, text_same]
  exact ⟨fun ⟨h1, h2, h3⟩ => ⟨h1, h2, h3⟩, fun h => ⟨h.toSimilar, h.id, h.text⟩⟩

theorem withText_patch (t : Nat) (p : DensePatch) : withText t (patchVal p) = bare p (.str (timeText t)) := by
  unfold patchVal bare
  cases p.opId <;> rfl

theorem has_bare {p : DensePatch} {t x : Json} : Has (bare p t) "text".toList x ↔ t = x := by
  unfold Has bare
  constructor
  · rintro ⟨l, e, h⟩
    cases e
    exact (h t).1 (by simp)
  · rintro rfl
    refine ⟨_, rfl, fun y => ?_⟩
    cases p.opId <;> simp

theorem has_only {x : Json} {k : Str} : Has (.obj [(k, x)]) k x := ⟨_, rfl, fun y => by simp⟩

theorem timeText_inj {a b : Nat} : timeText a = timeText b ↔ a = b := by
  unfold timeText
  rw [List.append_cancel_left_eq]
  exact ⟨showNat_inj, fun h => by rw [h]⟩

theorem cellVal_same {s s' : DSlice} {c : Cell} : cellVal s c = cellVal s' c ↔ Both Alike (s.cells c) (s'.cells c) := by
  unfold cellVal Both
  cases s.cells c <;> cases s'.cells c
  · simp
  · simp [patchVal, bare]
  · simp [patchVal, bare]
  · exact patchVal_same

theorem withText_same {s s' : DSlice} {c : Cell} {t t' : Nat} : withText t (cellVal s c) = withText t' (cellVal s' c) ↔ Both Similar (s.cells c) (s'.cells c) ∧ t = t' := by
  unfold cellVal Both
  cases s.cells c <;> cases s'.cells c
  · simp [withText, timeText_inj]
  · dsimp only; rw [withText_patch]; simp [withText, bare]
  · dsimp only; rw [withText_patch]; simp [withText, bare]
  · dsimp only
    rw [withText_patch, withText_patch, bare_same, Json.str.injEq, timeText_inj]

/-! ## Examples -/

/-- A layout with a factory of two cells. -/
def exLayout : Layout :=
  { furthest := ⟨1, 2⟩, regions := [[⟨.all ⟨.smooth, false⟩, ⟨0, 0⟩⟩, ⟨.all ⟨.smooth, false⟩, ⟨1, 0⟩⟩]], times := [9] }

/-- A slice with a factory, the qubit 7 and free cells. -/
def exSlice (id : Option Nat) : DSlice where
  rows := 2
  cols := 3
  times := [4]
  cells := fun c =>
    if c = ⟨0, 0⟩ then some { type := .distillation, bounds := .all ⟨.smooth, false⟩, activity := .distillation, id := id }
    else if c = ⟨1, 2⟩ then some { type := .qubit, bounds := ⟨⟨.rough, true⟩, ⟨.rough, false⟩, ⟨.smooth, false⟩, ⟨.smooth, false⟩⟩, activity := .unitary, id := some 7, opId := some 3 }
    else none

theorem ex_drawable (id : Option Nat) : Drawable exLayout (exSlice id) where
  rows := rfl
  cols := rfl
  times := Nat.le_refl 1
  first := by
    intro r hr
    simp only [exLayout, List.mem_cons, List.not_mem_nil, or_false] at hr
    subst hr
    exact ⟨_, _, rfl, rfl⟩
  apart := by
    intro k k' o o' l l' h1 h2 _
    have e1 := (List.getElem?_eq_some_iff.1 h1).1
    have e2 := (List.getElem?_eq_some_iff.1 h2).1
    simp only [exLayout, List.length_cons, List.length_nil] at e1 e2
    omega

theorem ex_entry {c : Cell} (id : Option Nat) (hc : Inside 2 3 c) : ∃ j v, sliceJson exLayout (exSlice id) = .ok j ∧ Entry j c v := by
  obtain ⟨g, h, -⟩ := slice_eq (ex_drawable id)
  exact ⟨_, _, h, entry_ofFun.2 ⟨hc, rfl⟩⟩

/-! ## C60 -/

/-- C60: every slice of the size of the layout can be drawn, as an array with one row for each row of the grid, of one entry for
each cell. -/
theorem c60_drawn {L : Layout} {s : DSlice} (h : Drawable L s) : ∃ rows, sliceJson L s = .ok (.arr rows) ∧ rows.length = s.rows ∧
    ∀ r ∈ rows, ∃ row, r = .arr row ∧ row.length = s.cols := by
  obtain ⟨g, h1, -⟩ := slice_eq h
  refine ⟨_, h1, by simp, ?_⟩
  intro r hr
  obtain ⟨k, -, rfl⟩ := List.mem_map.1 hr
  exact ⟨_, rfl, by simp⟩

/-- The hypothesis of `c60_drawn` is met by a slice with a factory and a qubit. -/
example : Drawable exLayout (exSlice none) := ex_drawable none

/-- C60: outside the first cells of factories, null is shown exactly for the free cells, and an id exactly for the cell holding
the patch with that id. -/
theorem c60_shows {L : Layout} {s : DSlice} {j v : Json} {c : Cell} (h : Drawable L s) (hj : sliceJson L s = .ok j) (hv : Entry j c v) (hc : ∀ k, ¬ Factory L c k) :
    (v = .null ↔ s.cells c = none) ∧ ∀ n, Has v "text".toList (.str ("Id: ".toList ++ showNat n)) ↔ ∃ p, s.cells c = some p ∧ p.id = some n := by
  obtain ⟨g, h1, h2, -⟩ := slice_eq h
  rw [hj] at h1; cases h1
  obtain ⟨-, rfl⟩ := entry_ofFun.1 hv
  rw [h2 c hc]
  unfold cellVal
  cases e : s.cells c with
  | none =>
    refine ⟨by simp, fun n => ?_⟩
    constructor
    · rintro ⟨l, e, -⟩; cases e
    · rintro ⟨p, e, -⟩; cases e
  | some p =>
    refine ⟨by simp [patchVal, bare], fun n => ?_⟩
    unfold patchVal
    rw [has_bare, Json.str.injEq, text_id]
    exact ⟨fun h => ⟨p, rfl, h⟩, by rintro ⟨q, e, h⟩; cases e; exact h⟩

/-- The hypotheses of `c60_shows` are met by the cell of the qubit. -/
example : Drawable exLayout (exSlice none) ∧ (∃ j v, sliceJson exLayout (exSlice none) = .ok j ∧ Entry j ⟨1, 2⟩ v) ∧ (∀ k, ¬ Factory exLayout ⟨1, 2⟩ k) ∧
    ∃ p, (exSlice none).cells ⟨1, 2⟩ = some p ∧ p.id = some 7 := by
  refine ⟨ex_drawable none, ex_entry none (by unfold Inside; decide), ?_, _, rfl, rfl⟩
  rintro k ⟨o, l, h1, h2⟩
  have e1 := (List.getElem?_eq_some_iff.1 h1).1
  simp only [exLayout, List.length_cons, List.length_nil] at e1
  have : k = 0 := by omega
  subst this
  cases h1
  cases h2

/-- C60: the first cell of a factory shows the time to its next magic state. -/
theorem c60_factory {L : Layout} {s : DSlice} {j v : Json} {c : Cell} {k : Nat} (h : Drawable L s) (hj : sliceJson L s = .ok j) (hv : Entry j c v) (hc : Factory L c k) :
    ∃ t, s.times[k]? = some t ∧ Has v "text".toList (.str ("Time to next magic state:".toList ++ showNat t)) := by
  obtain ⟨g, h1, -, h3⟩ := slice_eq h
  rw [hj] at h1; cases h1
  obtain ⟨-, rfl⟩ := entry_ofFun.1 hv
  obtain ⟨t, ht, e⟩ := h3 c k hc
  refine ⟨t, ht, ?_⟩
  rw [e]
  unfold cellVal
  cases s.cells c with
  | none => exact has_only
  | some p =>
    dsimp only
    rw [withText_patch, has_bare]
    rfl

/-- The hypotheses of `c60_factory` are met by the first cell of the factory. -/
example : Drawable exLayout (exSlice none) ∧ (∃ j v, sliceJson exLayout (exSlice none) = .ok j ∧ Entry j ⟨0, 0⟩ v) ∧ Factory exLayout ⟨0, 0⟩ 0 ∧ (exSlice none).times[0]? = some 4 :=
  ⟨ex_drawable none, ex_entry none (by unfold Inside; decide), ⟨_, _, rfl, rfl⟩, rfl⟩

/-- C60: two slices are drawn alike exactly when their cells look the same, the patches on first cells of factories up to
the text, and the factories have the same times. -/
theorem c60_exact {L : Layout} {s s' : DSlice} (h : Drawable L s) (h' : Drawable L s') :
    sliceJson L s = sliceJson L s' ↔ (∀ c, s.inRange c = true → (∀ k, ¬ Factory L c k) → Both Alike (s.cells c) (s'.cells c)) ∧
      ∀ c k, Factory L c k → Both Similar (s.cells c) (s'.cells c) ∧ s.times[k]? = s'.times[k]? := by
  obtain ⟨g, h1, h2, h3⟩ := slice_eq h
  obtain ⟨g', h1', h2', h3'⟩ := slice_eq h'
  have er : s'.rows = s.rows := by have := h.rows; have := h'.rows; omega
  have ec : s'.cols = s.cols := by have := h.cols; have := h'.cols; omega
  rw [er, ec] at h1'
  rw [h1, h1', Outcome.ok.injEq, ofFun_inj]
  constructor
  · intro hg
    constructor
    · intro c hc hf
      have := hg c (inside_iff.1 hc)
      rw [h2 c hf, h2' c hf] at this
      exact cellVal_same.1 this
    · intro c k hf
      obtain ⟨t, ht, e⟩ := h3 c k hf
      obtain ⟨t', ht', e'⟩ := h3' c k hf
      have hi : Inside s.rows s.cols c := by
        obtain ⟨o, l, hk, rfl⟩ := hf
        obtain ⟨o', l', e, hi⟩ := h.first _ (List.mem_of_getElem? hk)
        cases e
        exact inside_iff.1 hi
      have := hg c hi
      rw [e, e'] at this
      obtain ⟨h4, h5⟩ := withText_same.1 this
      exact ⟨h4, by rw [ht, ht', h5]⟩
  · rintro ⟨ha, hb⟩ c hc
    by_cases hf : ∃ k, Factory L c k
    · obtain ⟨k, hf⟩ := hf
      obtain ⟨t, ht, e⟩ := h3 c k hf
      obtain ⟨t', ht', e'⟩ := h3' c k hf
      obtain ⟨h4, h5⟩ := hb c k hf
      rw [ht, ht', Option.some.injEq] at h5
      rw [e, e']
      exact withText_same.2 ⟨h4, h5⟩
    · have hf : ∀ k, ¬ Factory L c k := fun k hk => hf ⟨k, hk⟩
      rw [h2 c hf, h2' c hf]
      exact cellVal_same.2 (ha c (inside_iff.2 hc) hf)

/-- The hypotheses of `c60_exact` are met by slices that are drawn alike although a patch has an id in one only: the time
hides it. -/
example : Drawable exLayout (exSlice none) ∧ Drawable exLayout (exSlice (some 5)) ∧ sliceJson exLayout (exSlice none) = sliceJson exLayout (exSlice (some 5)) :=
  ⟨ex_drawable none, ex_drawable (some 5), rfl⟩

end Verif.Json.Spec
