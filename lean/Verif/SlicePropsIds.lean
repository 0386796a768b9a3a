import Verif.SliceInv

/-! # Slices: ids and cells (C28) -/

namespace Verif.Slices.Spec

open Verif Apply

/-- The ids for new patches an instruction still carries. -/
def newIds (i : Instr) : List Nat :=
  match i.op with
  | .init t _ _ => [t]
  | .magic t _ => [t]
  | .ystate t _ _ => [t]
  | .bell b => [b.side1, b.side2]
  | .bellCnot c => [c.side1, c.side2]
  | .busy _ _ after => after.flatMap fun p => p.id.toList
  | _ => []

/-- As it comes from a program: not a busy region, nothing routed or compiled yet. -/
def Plain (i : Instr) : Prop :=
  match i.op with
  | .bell b => b.counter = none ∧ b.localInstrs = none
  | .bellCnot c => c.route = none ∧ c.counterPairs = none ∧ c.localSets = none ∧ c.phase = none
  | .busy _ _ _ => False
  | _ => True

/-- What a pipeline keeps of an attempt for later: its follow-ups, or the instruction itself if it failed. -/
def remaining {σ : Type} (r : Wave.Res σ) : List Instr :=
  match r.followups with
  | [] => if r.err then [r.instr] else []
  | fs => fs

/-- Some patch on the slice has the id. -/
def Present (s : DSlice) (n : Nat) : Prop := ∃ c p, s.cells c = some p ∧ p.id = some n

section
variable {ρ : Type}

/-- What can happen to a slice that starts as the first slice of a layout, with the instructions waiting to be
attempted again. The program consists of operations with `A`. The pipelines differ only in the order of these steps. -/
inductive History (A : Operation → Prop) (ctx : Ctx ρ) (ids : List Nat) : Mach ρ → List Instr → Prop
  /-- The first slice. -/
  | start {s : DSlice} (h : DSlice.init ctx.layout ids = .ok s) (rs : ρ) (k : Nat) : History A ctx ids ⟨s, rs, k⟩ []
  /-- An instruction of the program is attempted for the first time; its new ids are neither on the slice nor about to be. -/
  | program {m : Mach ρ} {w : List Instr} (h : History A ctx ids m w) {i : Instr} (ho : A i.op) (hp : Plain i)
      (hn : (newIds i).Nodup) (hf : ∀ n ∈ newIds i, ¬ Present m.slice n ∧ ∀ j ∈ w, n ∉ newIds j)
      {r : Wave.Res (Mach ρ)} (ha : Apply.apply ctx m i = .ok r) : History A ctx ids r.slice (remaining r ++ w)
  /-- A request names a `Y` state that exists: it is given back. -/
  | release {m : Mach ρ} {w : List Instr} (h : History A ctx ids m w) {i : Instr} {t near : Nat} {lo : Option LocalInstr}
      (hi : i.op = .ystate t near lo) (hb : (m.slice.cellById t).isSome) {r : Wave.Res (Mach ρ)} (ha : Apply.apply ctx m i = .ok r) :
      History A ctx ids r.slice (remaining r ++ w)
  /-- An instruction is attempted again. -/
  | again {m : Mach ρ} {u v : List Instr} {i : Instr} (h : History A ctx ids m (u ++ i :: v)) {r : Wave.Res (Mach ρ)}
      (ha : Apply.apply ctx m i = .ok r) : History A ctx ids r.slice (remaining r ++ (u ++ v))
  /-- The waiting budget of an instruction changes. -/
  | waits {m : Mach ρ} {u v : List Instr} {i : Instr} (h : History A ctx ids m (u ++ i :: v)) (k : Nat) :
      History A ctx ids m (u ++ { i with wait := k } :: v)
  /-- The next slice. -/
  | next {m m' : Mach ρ} {w : List Instr} (h : History A ctx ids m w) (ha : Apply.step ctx m = .ok m') : History A ctx ids m' w
  /-- The wave scheduler resets the marked sides. -/
  | reset {m : Mach ρ} {w : List Instr} (h : History A ctx ids m w) {s : DSlice} (ha : resetMarked m.slice = .ok s) :
      History A ctx ids { m with slice := s } w

theorem remaining_eq {σ : Type} (r : Wave.Res σ) : remaining r = leftover r := by
  unfold remaining leftover
  cases r.followups <;> rfl

theorem newIds_eq (i : Instr) : newIds i = mentions i := rfl

theorem plain_creates {i : Instr} (h : Plain i) : creates i = newIds i := by
  unfold Plain at h
  unfold creates newIds
  cases e : i.op <;> simp_all

theorem plain_tidy {i : Instr} (h : Plain i) : Tidy i := by
  refine tidy_of_op fun r n after e => ?_
  unfold Plain at h
  rw [e] at h
  exact h

theorem present_iff (s : DSlice) (n : Nat) : Present s n ↔ s.Owns n := by
  unfold Present DSlice.Owns DSlice.idAt
  constructor
  · rintro ⟨c, p, h1, h2⟩; exact ⟨c, by simp [h1, h2]⟩
  · rintro ⟨c, h⟩
    cases hc : s.cells c with
    | none => simp [hc] at h
    | some p => exact ⟨c, p, hc, by simpa [hc] using h⟩

theorem history_inv {A : Operation → Prop} {ctx : Ctx ρ} {ids : List Nat} (hids : ids.Nodup) {m : Mach ρ} {w : List Instr} (h : History A ctx ids m w) :
    DSlice.Inv m.slice (w.flatMap creates) ∧ ∀ j ∈ w, Tidy j ∧ ∀ n ∈ creates j, n ∈ mentions j := by
  induction h with
  | start h rs k => exact ⟨init_inv hids h, by simp⟩
  | @program m w h i ho hp hn hf r ha ih =>
    obtain ⟨ih1, ih2⟩ := ih
    have fine := apply_fine (plain_tidy hp) ha
    rw [remaining_eq, List.flatMap_append]
    refine ⟨fine.inv _ ⟨ih1.uniq, ?_, ?_, ih1.inside⟩, ?_⟩
    · intro n hm
      rcases List.mem_append.1 hm with h1 | h1
      · rw [plain_creates hp] at h1
        rw [← present_iff]
        exact (hf n h1).1
      · exact ih1.fresh n h1
    · rw [List.nodup_append]
      refine ⟨by rw [plain_creates hp]; exact hn, ih1.nodup, ?_⟩
      rintro a ha' b hb rfl
      rw [plain_creates hp] at ha'
      obtain ⟨j, hj, hb⟩ := List.mem_flatMap.1 hb
      exact (hf a ha').2 j hj ((ih2 j hj).2 a hb)
    · intro j hj
      rcases List.mem_append.1 hj with h1 | h1
      · exact ⟨fine.tidy (plain_tidy hp) j h1, fine.named (by rw [plain_creates hp]; exact fun _ h => h) j h1⟩
      · exact ih2 j h1
  | @release m w h i t near lo hi hb r ha ih =>
    obtain ⟨ih1, ih2⟩ := ih
    obtain ⟨c, hc⟩ := Option.isSome_iff_exists.1 hb
    obtain ⟨h1, h2⟩ := unbind_inv hi hc ha ih1
    rw [remaining_eq, h2]
    exact ⟨by simpa using h1, by simpa using ih2⟩
  | @again m u v i h r ha ih =>
    obtain ⟨ih1, ih2⟩ := ih
    have hi := ih2 i (by simp)
    have fine := apply_fine hi.1 ha
    rw [remaining_eq, List.flatMap_append]
    have hperm : ((u ++ i :: v).flatMap creates).Perm (creates i ++ (u ++ v).flatMap creates) := by
      rw [← List.flatMap_cons]
      exact List.Perm.flatMap_right _ (List.perm_middle)
    refine ⟨fine.inv _ (ih1.perm hperm), ?_⟩
    intro j hj
    rcases List.mem_append.1 hj with h1 | h1
    · exact ⟨fine.tidy hi.1 j h1, fine.named hi.2 j h1⟩
    · refine ih2 j ?_
      rcases List.mem_append.1 h1 with h1 | h1 <;> simp [h1]
  | @waits m u v i h k ih =>
    obtain ⟨ih1, ih2⟩ := ih
    refine ⟨?_, ?_⟩
    · have e : creates { i with wait := k } = creates i := rfl
      simpa only [List.flatMap_append, List.flatMap_cons, e] using ih1
    · intro j hj
      rcases List.mem_append.1 hj with h1 | h1
      · exact ih2 j (by simp [h1])
      · rcases List.mem_cons.1 h1 with rfl | h1
        · exact ih2 i (by simp)
        · exact ih2 j (by simp [h1])
  | @next m m' w h ha ih =>
    obtain ⟨ih1, ih2⟩ := ih
    refine ⟨?_, ih2⟩
    unfold Apply.step at ha
    obtain ⟨s, h1, ha⟩ := Outcome.bind_eq_ok.1 ha
    cases ha
    simpa using ih1.grow (l := []) (l' := []) (rest := w.flatMap creates) (grow_advance h1) (by simp)
  | @reset m w h s ha ih =>
    obtain ⟨ih1, ih2⟩ := ih
    exact ⟨by simpa using ih1.grow (l := []) (l' := []) (rest := w.flatMap creates) (DSlice.resetMarked_same ha).grow (by simp), ih2⟩

/-- C28: no id ever names two cells, for every layout, routing function, set of options and history whose new ids are
new. -/
theorem c28_unique {A : Operation → Prop} {ctx : Ctx ρ} {ids : List Nat} (hids : ids.Nodup) {m : Mach ρ} {w : List Instr} (h : History A ctx ids m w)
    {c c' : Cell} {p p' : DensePatch} {n : Nat} (hc : m.slice.cells c = some p) (hc' : m.slice.cells c' = some p')
    (hp : p.id = some n) (hp' : p'.id = some n) : c = c' :=
  (history_inv hids h).1.uniq c c' n (by simp [DSlice.idAt, hc, hp]) (by simp [DSlice.idAt, hc', hp'])

/-- C28: an id that an unfinished instruction is going to put on the slice is not there yet; in particular the id of a
patch that is being rotated names no cell. -/
theorem c28_away {A : Operation → Prop} {ctx : Ctx ρ} {ids : List Nat} (hids : ids.Nodup) {m : Mach ρ} {w : List Instr} (h : History A ctx ids m w)
    {i : Instr} {region : RoutingRegion} {steps : Nat} {after : List SparsePatch} (hi : i ∈ w) (hb : i.op = .busy region steps after)
    {p : SparsePatch} (hp : p ∈ after) {n : Nat} (hn : p.id = some n) : ¬ Present m.slice n := by
  rw [present_iff]
  refine (history_inv hids h).1.fresh n (List.mem_flatMap.2 ⟨i, hi, ?_⟩)
  simp only [creates, hb]
  exact List.mem_flatMap.2 ⟨p, hp, by simp [hn]⟩

/-- C28: nothing is ever placed outside the vectors. -/
theorem c28_inside {A : Operation → Prop} {ctx : Ctx ρ} {ids : List Nat} (hids : ids.Nodup) {m : Mach ρ} {w : List Instr} (h : History A ctx ids m w)
    {c : Cell} {p : DensePatch} (hc : m.slice.cells c = some p) : 0 ≤ c.row ∧ c.row < m.slice.rows ∧ 0 ≤ c.col ∧ c.col < m.slice.cols := by
  have := (history_inv hids h).1.inside c
  cases hr : m.slice.inRange c with
  | false => rw [this hr] at hc; cases hc
  | true => simpa [DSlice.inRange] using hr

/-- The cell found for an id is on the slice and holds the id. -/
theorem c28_lookup {s : DSlice} {t : Nat} {c : Cell} (h : s.cellById t = some c) :
    0 ≤ c.row ∧ c.row < s.rows ∧ 0 ≤ c.col ∧ c.col < s.cols ∧ ∃ p, s.cells c = some p ∧ p.id = some t := by
  obtain ⟨h1, h2⟩ := cellById_holds h
  unfold DSlice.allCells at h2
  obtain ⟨r, hr, h2⟩ := List.mem_flatMap.1 h2
  obtain ⟨k, hk, rfl⟩ := List.mem_map.1 h2
  rw [List.mem_range] at hr hk
  refine ⟨by simp, by simpa using hr, by simp, by simpa using hk, ?_⟩
  unfold DSlice.idAt at h1
  cases hc : s.cells ⟨r, k⟩ with
  | none => simp [hc] at h1
  | some p => exact ⟨p, rfl, by simpa [hc] using h1⟩

/-- The lookup by id finds the one cell with the id, in every history. -/
theorem c28_found {A : Operation → Prop} {ctx : Ctx ρ} {ids : List Nat} (hids : ids.Nodup) {m : Mach ρ} {w : List Instr} (h : History A ctx ids m w)
    {c : Cell} {p : DensePatch} {n : Nat} (hc : m.slice.cells c = some p) (hp : p.id = some n) :
    m.slice.cellById n = some c := by
  have hmem : c ∈ m.slice.allCells := by
    have hr := c28_inside hids h hc
    unfold DSlice.allCells
    refine List.mem_flatMap.2 ⟨c.row.toNat, by simp; omega, List.mem_map.2 ⟨c.col.toNat, by simp; omega, ?_⟩⟩
    rcases c with ⟨r, k⟩
    simp only [Cell.mk.injEq] at hr ⊢
    omega
  have hf : c ∈ m.slice.allCells.filter (m.slice.holdsId n) := by
    refine List.mem_filter.2 ⟨hmem, ?_⟩
    unfold DSlice.holdsId
    simp [hc, hp]
  cases hl : m.slice.cellById n with
  | none =>
    unfold DSlice.cellById at hl
    rw [List.getLast?_eq_none_iff] at hl
    rw [hl] at hf
    cases hf
  | some d =>
    obtain ⟨-, -, -, -, q, hq, hqid⟩ := c28_lookup hl
    rw [c28_unique hids h hc hq hp hqid]

end

/-- An id that is not found is not there. -/
theorem absent {ρ : Type} {A : Operation → Prop} {ctx : Ctx ρ} {ids : List Nat} (hids : ids.Nodup) {m : Mach ρ} {w : List Instr} (h : History A ctx ids m w) {n : Nat}
    (hn : m.slice.cellById n = none) : ¬ Present m.slice n := by
  rintro ⟨c, p, hc, hp⟩
  rw [c28_found hids h hc hp] at hn
  cases hn

/-- C28: placing a patch on an occupied cell of the slice is refused. -/
theorem c28_occupied {s : DSlice} {p : SparsePatch} {o : OccCell} {q : DensePatch} (hr : s.inRange o.cell = true) (hq : s.cells o.cell = some q)
    (ho : o ∈ p.occ) : ∀ s', s.place p false ≠ .ok s' := by
  have key : ∀ (os : List OccCell) (s : DSlice), s.cells o.cell ≠ none → o ∈ os → ∀ s', DSlice.placeSubs false os s ≠ .ok s' := by
    intro os
    induction os with
    | nil => intro s _ h; cases h
    | cons x xs ih =>
      intro s hs hx s' h
      rw [DSlice.placeSubs] at h
      obtain ⟨r, h1, h⟩ := Outcome.bind_eq_ok.1 h
      obtain ⟨-, hfree, rfl⟩ := DSlice.placeSingle_ok rfl h1
      rcases List.mem_cons.1 hx with rfl | hx
      · exact hs hfree
      · refine ih _ ?_ hx s' h
        simp only [DSlice.put_cells]
        by_cases e : o.cell = x.cell
        · rw [e, upd_same]; simp
        · rw [upd_other _ _ e]; exact hs
  intro s' h
  unfold DSlice.place at h
  unfold SparsePatch.occ at ho
  split at h
  · rename_i c hc
    rw [hc] at ho
    simp only [List.mem_singleton] at ho
    subst ho
    obtain ⟨r, h1, -⟩ := Outcome.bind_eq_ok.1 h
    obtain ⟨-, hfree, -⟩ := DSlice.placeSingle_ok hc h1
    rw [hq] at hfree
    cases hfree
  · rename_i cs hc
    rw [hc] at ho
    exact key cs s (by simp [hq]) ho s' h

/-- C28: placing puts the patch on a cell that was free and changes no other cell. -/
theorem c28_placed {s s' : DSlice} {p : SparsePatch} {o : OccCell} (hp : p.cells = .single o) (h : s.place p false = .ok s') :
    s.cells o.cell = none ∧ s'.cells o.cell = some { toPatch := p.toPatch, bounds := o.bounds } ∧ ∀ c, c ≠ o.cell → s'.cells c = s.cells c := by
  unfold DSlice.place at h
  rw [hp] at h
  obtain ⟨r, h1, h⟩ := Outcome.bind_eq_ok.1 h
  cases h
  obtain ⟨-, hfree, rfl⟩ := DSlice.placeSingle_ok hp h1
  refine ⟨hfree, by simp, fun c hc => ?_⟩
  simp only [DSlice.put_cells]
  exact upd_other _ _ hc

/-! ### Examples -/

/-- Two core patches in a row of four, an ancilla location between them. -/
def demo : Layout := { core := [basicSquare ⟨0, 0⟩ none none, basicSquare ⟨0, 3⟩ none none], furthest := ⟨1, 3⟩, ancilla := [⟨0, 1⟩, ⟨0, 2⟩] }

/-- No routing. -/
def demoCtx : Ctx Unit := { localInstrs := false, twists := false, genIds := true, asserts := true, layout := demo, router := ⟨fun _ _ _ _ _ _ => .ok (none, ()), false⟩ }

/-- A patch is initialised, one of the core patches is rotated, and a slice passes. -/
def demoRun : Outcome (DSlice × List Instr) := do
  let s ← DSlice.init demo [7, 8]
  let r ← Apply.apply demoCtx ⟨s, (), 1⟩ { op := .init 9 .zero none }
  let r ← Apply.apply demoCtx r.slice { op := .rotate 7 }
  let m ← Apply.step demoCtx r.slice
  .ok (m.slice, remaining r)

example : ∃ m w, History (fun _ => True) demoCtx [7, 8] m w ∧ demoRun = .ok (m.slice, w) ∧ w ≠ [] ∧ m.slice.cellById 9 = some ⟨0, 1⟩ ∧ m.slice.cellById 7 = none := by
  have h1 := History.start (A := fun _ => True) (ctx := demoCtx) (ids := [7, 8]) (s := _) rfl () 1
  have h2 := h1.program (i := { op := .init 9 .zero none }) trivial trivial (by decide) (by
    intro n hn
    refine ⟨?_, by simp⟩
    have e : n = 9 := by simpa [newIds] using hn
    subst e
    exact absent (by decide) h1 rfl) rfl
  have h3 := h2.program (i := { op := .rotate 7 }) trivial trivial (by decide) (by simp [newIds]) rfl
  have h4 := h3.next rfl
  exact ⟨_, _, h4, rfl, by decide, rfl, rfl⟩

/-- The new ids must be new: an initialisation with the id of a core patch makes it name two cells. -/
example : ∃ s r p q, DSlice.init demo [7, 8] = .ok s ∧ Apply.apply demoCtx ⟨s, (), 1⟩ { op := .init 7 .zero none } = .ok r ∧
    r.slice.slice.cells ⟨0, 0⟩ = some p ∧ r.slice.slice.cells ⟨0, 1⟩ = some q ∧ p.id = some 7 ∧ q.id = some 7 :=
  ⟨_, _, _, _, rfl, rfl, rfl, rfl, rfl, rfl⟩

/-- Placing on the first core patch is refused, next to it it works. -/
example : ∃ s s', DSlice.init demo [7, 8] = .ok s ∧ s.inRange ⟨0, 0⟩ = true ∧ s.place (basicSquare ⟨0, 0⟩ (some 9) none) false = .throws ∧
    s.place (basicSquare ⟨1, 0⟩ (some 9) none) false = .ok s' := ⟨_, _, rfl, rfl, rfl, rfl⟩

end Verif.Slices.Spec
