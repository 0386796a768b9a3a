import Verif.Home
import Verif.StayProps

/-! # A qubit is on its cell or being rotated on it, and nowhere else (C62) -/

namespace Verif.Real.Spec

open Verif Apply DSlice Verif.Wave Verif.Wave.Spec Verif.Pipe Verif.Pipe.Spec Verif.Slices.Spec Verif.Router

/-- The instruction takes the qubit away for good: it is measured, or handed back as a `Y` state. -/
def Removes (q : Nat) (i : Instr) : Prop := (∃ b n, i.op = .measure q b n) ∨ ∃ n l, i.op = .ystate q n l

/-- The instruction makes a patch with that name. -/
def Makes (q : Nat) (i : Instr) : Prop :=
  (∃ st n, i.op = .init q st n) ∨ (∃ n, i.op = .magic q n) ∨ (∃ b, i.op = .bell b ∧ (b.side1 = q ∨ b.side2 = q)) ∨ ∃ b, i.op = .bellCnot b ∧ (b.side1 = q ∨ b.side2 = q)

/-- The cell is kept busy by a rotation. -/
def Rotates (s : DSlice) (c : Cell) : Prop := ∃ p, s.cells c = some p ∧ p.id = none ∧ p.type = .routing ∧ p.activity = .rotation

theorem removes_iff {q : Nat} {i : Instr} : Real.Removes q i ↔ Removes q i := by
  rcases i with ⟨op, w, cl⟩
  unfold Real.Removes Removes
  cases op <;> simp

theorem makes_iff {q : Nat} {i : Instr} : Real.Makes q i ↔ Makes q i := by
  rcases i with ⟨op, w, cl⟩
  unfold Real.Makes Makes
  cases op <;> simp

section
variable {ρ : Type} {ctx : Ctx ρ} {realloc : Nat → Bool} {P : List Instr} {ids : List Nat} {s : DSlice} {c : Cell} {q : Nat}

theorem home_of {I : ρ → Prop} {k : Loop}
    (hR : Avoids ctx.localInstrs ctx.router I true c q s.rows s.cols) (hids : ids.Nodup) (hP : ∀ i ∈ P, Plain i ∧ ¬ Makes q i) (hL : ∀ p ∈ ctx.layout.core, p.activity ≠ .edpc)
    (hs : DSlice.init ctx.layout ids = .ok s) (hc : ∃ p, s.cells c = some p ∧ p.id = some q ∧ p.type = .qubit ∧ p.activity = .none)
    {rs : ρ} (hI : I rs) {n : Nat} {A B : List (Obs (Mach ρ))} {m : Mach ρ} (h : Account (env ctx realloc) P ⟨s, rs, n⟩ k (A ++ .slice m :: B)) (hA : ∀ i ∈ instrs A, ¬ Removes q i) :
    (There m.slice c q ∨ Rotates m.slice c) ∧ ∀ x p, m.slice.cells x = some p → p.id = some q → x = c := by
  obtain ⟨p, c1, c2, c3, c4⟩ := hc
  obtain ⟨L', g1, g2, g3⟩ := account_ghost h
  have h0 : Dwelling I c q s.rows s.cols ((⟨s, rs, n⟩ : Mach ρ), []) := ⟨marks_init hL hs, fun _ => ⟨⟨safe_init hs c1 c2 c3 c4, hI⟩, sole_start hids hs c1 c2⟩⟩
  have hres : c ∉ ctx.layout.reserved := init_reserved (q := q) hs (by unfold DSlice.idAt; rw [c1]; exact c2)
  have hw := account_lift g3 (fun x hx => account_keeps (dwelling_keeps hR hres) (ghost_one (one_followup ctx realloc)) (ghost_alone (fails_alone ctx realloc))
    h0 (fun i hi => leaving_plain (hP i hi).1 (fun hm => (hP i hi).2 (makes_iff.1 hm))) g1 hx) g2
  obtain ⟨w1, w2⟩ := hw.2 (fun i hi ht => hA i hi (removes_iff.1 ht))
  constructor
  · obtain ⟨p', h1, h2 | ⟨-, h2⟩⟩ := w1.slice.get
    · exact .inl ⟨p', h1, h2⟩
    · exact .inr ⟨p', h1, h2⟩
  · intro x p' hx hid
    exact w2 x (by unfold DSlice.idAt; rw [hx]; exact hid)

end

section
variable {realloc : Nat → Bool} {P : List Instr} {ids : List Nat} {s : DSlice} {c : Cell} {q n : Nat} {pick : Search.Pick} {stop : Bool} {k : Loop}

/-- C62: with the default router, in every pipeline, a qubit of the first slice never moves. On every slice shown before an instruction
measures it or hands it back, it is on its cell, or that cell is kept busy by a rotation; and it is on no other cell. -/
theorem c62_home {ctx : Ctx Unit} (hr : ctx.router = dpRouter ctx.layout pick stop false) (hids : ids.Nodup) (hP : ∀ i ∈ P, Plain i ∧ ¬ Makes q i)
    (hL : ∀ p ∈ ctx.layout.core, p.activity ≠ .edpc) (hs : DSlice.init ctx.layout ids = .ok s)
    (hc : ∃ p, s.cells c = some p ∧ p.id = some q ∧ p.type = .qubit ∧ p.activity = .none) {A B : List (Obs (Mach Unit))} {m : Mach Unit}
    (h : Account (env ctx realloc) P ⟨s, (), n⟩ k (A ++ .slice m :: B)) (hA : ∀ i ∈ instrs A, ¬ Removes q i) :
    (There m.slice c q ∨ Rotates m.slice c) ∧ ∀ x p, m.slice.cells x = some p → p.id = some q → x = c := by
  obtain ⟨p, hp, hc'⟩ := hc
  exact home_of (I := fun _ => True) (by rw [hr]; exact dp_avoids (init_fits hids hs hp) false _) hids hP hL hs ⟨p, hp, hc'⟩ trivial h hA

/-- C62 with the router that stores routes, which starts with none stored. -/
theorem c62_cached {ctx : Ctx Cache} (hr : ctx.router = cachedRouter ctx.layout pick stop) (hids : ids.Nodup) (hP : ∀ i ∈ P, Plain i ∧ ¬ Makes q i)
    (hL : ∀ p ∈ ctx.layout.core, p.activity ≠ .edpc) (hs : DSlice.init ctx.layout ids = .ok s)
    (hc : ∃ p, s.cells c = some p ∧ p.id = some q ∧ p.type = .qubit ∧ p.activity = .none) {A B : List (Obs (Mach Cache))} {m : Mach Cache}
    (h : Account (env ctx realloc) P ⟨s, fun _ => none, n⟩ k (A ++ .slice m :: B)) (hA : ∀ i ∈ instrs A, ¬ Removes q i) :
    (There m.slice c q ∨ Rotates m.slice c) ∧ ∀ x p, m.slice.cells x = some p → p.id = some q → x = c := by
  obtain ⟨p, hp, hc'⟩ := hc
  exact home_of (by rw [hr]; exact cached_avoids (init_fits hids hs hp) _) hids hP hL hs ⟨p, hp, hc'⟩ (by intro k reg e; cases e) h hA

/-- C62 with edge-disjoint routing, in every pipeline. -/
theorem c62_edpc {ctx : Ctx Unit} (hr : ctx.router = dpRouter ctx.layout pick stop true) (hids : ids.Nodup) (hP : ∀ i ∈ P, Plain i ∧ ¬ Makes q i)
    (hL : ∀ p ∈ ctx.layout.core, p.activity ≠ .edpc) (hs : DSlice.init ctx.layout ids = .ok s)
    (hc : ∃ p, s.cells c = some p ∧ p.id = some q ∧ p.type = .qubit ∧ p.activity = .none) {A B : List (Obs (Mach Unit))} {m : Mach Unit}
    (h : Account (env ctx realloc) P ⟨s, (), n⟩ k (A ++ .slice m :: B)) (hA : ∀ i ∈ instrs A, ¬ Removes q i) :
    (There m.slice c q ∨ Rotates m.slice c) ∧ ∀ x p, m.slice.cells x = some p → p.id = some q → x = c := by
  obtain ⟨p, hp, hc'⟩ := hc
  exact home_of (I := fun _ => True) (by rw [hr]; exact dp_avoids (init_fits hids hs hp) true _) hids hP hL hs ⟨p, hp, hc'⟩ trivial h hA

/-- C62 with the router that uses Boost. -/
theorem c62_boost {ctx : Ctx Unit} {pick : Boost.Pick} (hr : ctx.router = Boost.boostRouter ctx.layout pick) (hids : ids.Nodup) (hP : ∀ i ∈ P, Plain i ∧ ¬ Makes q i)
    (hL : ∀ p ∈ ctx.layout.core, p.activity ≠ .edpc) (hs : DSlice.init ctx.layout ids = .ok s)
    (hc : ∃ p, s.cells c = some p ∧ p.id = some q ∧ p.type = .qubit ∧ p.activity = .none) {A B : List (Obs (Mach Unit))} {m : Mach Unit}
    (h : Account (env ctx realloc) P ⟨s, (), n⟩ k (A ++ .slice m :: B)) (hA : ∀ i ∈ instrs A, ¬ Removes q i) :
    (There m.slice c q ∨ Rotates m.slice c) ∧ ∀ x p, m.slice.cells x = some p → p.id = some q → x = c := by
  obtain ⟨p, hp, hc'⟩ := hc
  exact home_of (I := fun _ => True) (by rw [hr]; exact boost_avoids (init_fits hids hs hp) pick _) hids hP hL hs ⟨p, hp, hc'⟩ trivial h hA

/-- C62 with the router that stores the routes Boost has found, which starts with none stored. -/
theorem c62_stored {ctx : Ctx Cache} {pick : Boost.Pick} (hr : ctx.router = Boost.storedRouter ctx.layout pick) (hids : ids.Nodup) (hP : ∀ i ∈ P, Plain i ∧ ¬ Makes q i)
    (hL : ∀ p ∈ ctx.layout.core, p.activity ≠ .edpc) (hs : DSlice.init ctx.layout ids = .ok s)
    (hc : ∃ p, s.cells c = some p ∧ p.id = some q ∧ p.type = .qubit ∧ p.activity = .none) {A B : List (Obs (Mach Cache))} {m : Mach Cache}
    (h : Account (env ctx realloc) P ⟨s, fun _ => none, n⟩ k (A ++ .slice m :: B)) (hA : ∀ i ∈ instrs A, ¬ Removes q i) :
    (There m.slice c q ∨ Rotates m.slice c) ∧ ∀ x p, m.slice.cells x = some p → p.id = some q → x = c := by
  obtain ⟨p, hp, hc'⟩ := hc
  exact home_of (by rw [hr]; exact stored_avoids (init_fits hids hs hp) pick _) hids hP hL hs ⟨p, hp, hc'⟩ (by intro k reg e; cases e) h hA

/-- C62 with any router at all, if there are no local instructions. Nothing is assumed of the routes it finds. -/
theorem c62_any {ρ : Type} {ctx : Ctx ρ} {rs : ρ} (hl : ctx.localInstrs = false) (hids : ids.Nodup) (hP : ∀ i ∈ P, Plain i ∧ ¬ Makes q i)
    (hL : ∀ p ∈ ctx.layout.core, p.activity ≠ .edpc) (hs : DSlice.init ctx.layout ids = .ok s)
    (hc : ∃ p, s.cells c = some p ∧ p.id = some q ∧ p.type = .qubit ∧ p.activity = .none) {A B : List (Obs (Mach ρ))} {m : Mach ρ}
    (h : Account (env ctx realloc) P ⟨s, rs, n⟩ k (A ++ .slice m :: B)) (hA : ∀ i ∈ instrs A, ¬ Removes q i) :
    (There m.slice c q ∨ Rotates m.slice c) ∧ ∀ x p, m.slice.cells x = some p → p.id = some q → x = c :=
  home_of (I := fun _ => True) (by rw [hl]; exact any_avoids _) hids hP hL hs hc trivial h hA

end

/-! ### Examples -/

/-- What is looked at: whether nothing shown before the entry `k` removes the qubit, and what the slice shown there has on the cell. -/
def homeGlance (q : Nat) (c : Cell) (k : Nat) (L : List (Obs (Mach Unit))) : Bool × Option (Option (Option Nat × PatchActivity)) :=
  ((instrs (L.take k)).all fun i => !decide (Real.Removes q i),
    L[k]?.bind fun o => match o with | .slice m => some ((m.slice.cells c).map fun p => (p.id, p.activity)) | .instr _ => none)

theorem home_cut {L : List (Obs (Mach Unit))} {q k : Nat} {c : Cell} {x : Option Nat × PatchActivity} (h : homeGlance q c k L = (true, some (some x))) :
    ∃ A m B, L = A ++ .slice m :: B ∧ (∀ i ∈ instrs A, ¬ Removes q i) ∧ (m.slice.cells c).map (fun p => (p.id, p.activity)) = some x := by
  unfold homeGlance at h
  simp only [Prod.mk.injEq] at h
  obtain ⟨h1, h2⟩ := h
  cases e : L[k]? with
  | none => rw [e] at h2; cases h2
  | some y =>
    rw [e] at h2
    cases y with
    | instr i => cases h2
    | slice m =>
      obtain ⟨hk, e⟩ := List.getElem?_eq_some_iff.1 e
      refine ⟨L.take k, m, L.drop (k + 1), ?_, ?_, Option.some.inj h2⟩
      · rw [← e, List.cons_getElem_drop_succ, List.take_append_drop]
      · intro i hi ht
        have := List.all_eq_true.1 h1 i hi
        simp only [Bool.not_eq_true', decide_eq_false_iff_not] at this
        exact this (removes_iff.2 ht)

theorem stay_makes : ∀ i ∈ stayProg, Plain i ∧ ¬ Makes 7 i := by
  intro i hi
  refine ⟨stay_plain i hi, ?_⟩
  rw [← makes_iff]
  simp only [stayProg, List.mem_cons, List.not_mem_nil, or_false] at hi
  rcases hi with rfl | rfl | rfl | rfl | rfl <;> simp [Real.Makes, laneCnot]

/-- The hypotheses of `c62_home` are met in the DAG pipeline by a slice that shows the qubit being rotated, and by a later one that shows it
back on its cell. -/
example : stayCtx.router = dpRouter stayCtx.layout pickMin false false ∧ [7, 8].Nodup ∧ (∀ i ∈ stayProg, Plain i ∧ ¬ Makes 7 i) ∧ (∀ p ∈ stayCtx.layout.core, p.activity ≠ .edpc) ∧
    (∃ s, DSlice.init stayCtx.layout [7, 8] = .ok s ∧ (∃ p, s.cells ⟨0, 0⟩ = some p ∧ p.id = some 7 ∧ p.type = .qubit ∧ p.activity = .none) ∧
      (∃ k A m B, Account (env stayCtx fun _ => false) stayProg ⟨s, (), 1⟩ k (A ++ .slice m :: B) ∧ (∀ i ∈ instrs A, ¬ Removes 7 i) ∧
        (m.slice.cells ⟨0, 0⟩).map (fun p => (p.id, p.activity)) = some (none, .rotation)) ∧
      ∃ k A m B, Account (env stayCtx fun _ => false) stayProg ⟨s, (), 1⟩ k (A ++ .slice m :: B) ∧ (∀ i ∈ instrs A, ¬ Removes 7 i) ∧
        (m.slice.cells ⟨0, 0⟩).map (fun p => (p.id, p.activity)) = some (some 7, .none)) := by
  refine ⟨rfl, by decide, stay_makes, by decide, ?_⟩
  obtain ⟨s', hs', hp⟩ := stay_start
  refine ⟨s', hs', hp, ?_, ?_⟩
  · have h : view stayDag (homeGlance 7 ⟨0, 0⟩ 8) = some (true, some (some (none, .rotation))) := by decide +kernel
    obtain ⟨L, h1, h2⟩ := view_some h
    obtain ⟨A, m, B, rfl, h3, h4⟩ := home_cut h2
    obtain ⟨s, hs, k, ha⟩ := stay_account (.inr (.inl h1))
    rw [hs] at hs'; cases hs'
    exact ⟨k, A, m, B, ha, h3, h4⟩
  · have h : view stayDag (homeGlance 7 ⟨0, 0⟩ 14) = some (true, some (some (some 7, .none))) := by decide +kernel
    obtain ⟨L, h1, h2⟩ := view_some h
    obtain ⟨A, m, B, rfl, h3, h4⟩ := home_cut h2
    obtain ⟨s, hs, k, ha⟩ := stay_account (.inr (.inl h1))
    rw [hs] at hs'; cases hs'
    exact ⟨k, A, m, B, ha, h3, h4⟩

/-- The hypotheses of `c62_edpc` are met in the wave pipeline by a slice that shows the qubit being rotated. -/
example : laneStayCtx.router = dpRouter laneStayCtx.layout pickMin false true ∧ [7, 8].Nodup ∧ (∀ i ∈ stayProg, Plain i ∧ ¬ Makes 7 i) ∧ (∀ p ∈ laneStayCtx.layout.core, p.activity ≠ .edpc) ∧
    (∃ s, DSlice.init laneStayCtx.layout [7, 8] = .ok s ∧ (∃ p, s.cells ⟨0, 0⟩ = some p ∧ p.id = some 7 ∧ p.type = .qubit ∧ p.activity = .none) ∧
      ∃ A m B, Account (env laneStayCtx fun _ => false) stayProg ⟨s, (), 1⟩ .wave (A ++ .slice m :: B) ∧ (∀ i ∈ instrs A, ¬ Removes 7 i) ∧
        (m.slice.cells ⟨0, 0⟩).map (fun p => (p.id, p.activity)) = some (none, .rotation)) := by
  refine ⟨rfl, by decide, stay_makes, by decide, ?_⟩
  obtain ⟨s', hs', hp⟩ := stay_start
  refine ⟨s', hs', hp, ?_⟩
  have h : view laneStayWave (homeGlance 7 ⟨0, 0⟩ 7) = some (true, some (some (none, .rotation))) := by decide +kernel
  obtain ⟨L, h1, h2⟩ := view_some h
  obtain ⟨A, m, B, rfl, h3, h4⟩ := home_cut h2
  obtain ⟨s, hs, ha⟩ := lane_stay_wave h1
  rw [hs] at hs'; cases hs'
  exact ⟨A, m, B, ha, h3, h4⟩

/-- The hypotheses of `c62_cached` are met in the streamed pipeline: among the slices there are some on which the qubit is on its cell and
some on which it is rotated. -/
example : storeCtx.router = cachedRouter storeCtx.layout pickMin false ∧ [7, 8].Nodup ∧ (∀ i ∈ stayProg, Plain i ∧ ¬ Makes 7 i) ∧ (∀ p ∈ storeCtx.layout.core, p.activity ≠ .edpc) ∧
    view (do let s ← DSlice.init stayLayout [7, 8]; srun (env storeCtx fun _ => false) 60 (sstart ⟨s, fun _ => none, 1⟩ stayProg))
      (fun x => ((x.2.events.filterMap Ev.obs).filterMap fun y => match y with | .slice m => some ((m.slice.cells ⟨0, 0⟩).map fun p => (p.id, p.activity)) | _ => none).take 4) =
      some [some (some 7, .none), some (some 7, .none), some (none, .rotation), some (none, .rotation)] :=
  ⟨rfl, by decide, stay_makes, by decide, by decide +kernel⟩

def twiceCtx : Ctx Unit := { stayCtx with layout := { stayLayout with ancilla := [⟨2, 0⟩] } }

def twiceRun : Outcome (List (Obs (Mach Unit))) := do
  let s ← DSlice.init stayLayout [7, 8]
  let x ← srun (env twiceCtx fun _ => false) 20 (sstart ⟨s, (), 1⟩ [{ op := .init 7 .zero none }])
  .ok (x.2.events.filterMap Ev.obs)

/-- A qubit that the program makes a second patch for can be on two cells: the condition on the program cannot be left out of `c62_home`. -/
example : view twiceRun (fun L => L.filterMap fun y => match y with
      | .slice m => some ((m.slice.cells ⟨0, 0⟩).map (·.id), (m.slice.cells ⟨2, 0⟩).map (·.id))
      | _ => none) = some [(some (some 7), some (some 7))] := by
  decide +kernel

/-! ### The router that uses Boost -/

/-- The qubit 9 is next to the qubit 7, and the qubit 8 is below the two. -/
def crossLayout : Layout :=
  { core := [basicSquare ⟨0, 0⟩ none none, basicSquare ⟨0, 1⟩ none none, basicSquare ⟨2, 1⟩ none none], furthest := ⟨2, 1⟩, ancilla := [], distilled := [], times := [] }

def crossCtx (loc : Bool) : Ctx Unit :=
  { localInstrs := loc, twists := false, genIds := true, asserts := true, layout := crossLayout, router := Boost.boostRouter crossLayout Boost.Spec.oldest }

/-- A long-range CNOT between the qubits 7 and 8 and a gate on 9. -/
def crossProg : List Instr := [laneCnot, { op := .sq 9 .H false }]

def crossDag : Outcome (List (Obs (Mach Unit))) := do
  let s ← DSlice.init crossLayout [7, 9, 8]
  let d ← dstart ⟨s, (), 1⟩ crossProg
  let x ← drun (env (crossCtx true) fun _ => false) 12 d
  .ok x.2.obs

/-- Two qubits are merged, and there is a gate on one of them. -/
def crossMerge : List Instr := [{ op := .multi [(7, .X), (9, .X)] false none }, { op := .sq 9 .H false }]

def crossOther : Outcome (List (Obs (Mach Unit))) := do
  let s ← DSlice.init crossLayout [7, 9, 8]
  let d ← dstart ⟨s, (), 1⟩ crossMerge
  let x ← drun (env (crossCtx false) fun _ => false) 12 d
  .ok x.2.obs

theorem cross_plain : ∀ i ∈ crossProg, Plain i ∧ ¬ Makes 9 i := by
  intro i hi
  simp only [crossProg, List.mem_cons, List.not_mem_nil, or_false] at hi
  rcases hi with rfl | rfl
  · exact ⟨⟨rfl, rfl, rfl, rfl⟩, by rw [← makes_iff]; simp [Real.Makes, laneCnot]⟩
  · exact ⟨trivial, by rw [← makes_iff]; simp [Real.Makes]⟩

theorem cross_start : ∃ s, DSlice.init crossLayout [7, 9, 8] = .ok s ∧ ∃ p, s.cells ⟨0, 1⟩ = some p ∧ p.id = some 9 ∧ p.type = .qubit ∧ p.activity = .none :=
  ⟨_, rfl, _, rfl, rfl, rfl, rfl⟩

theorem removes_takes {q : Nat} {i : Instr} (h : Removes q i) : Takes q i := by
  rcases h with ⟨b, n, h⟩ | ⟨n, l, h⟩
  · exact .inl ⟨b, n, h⟩
  · exact .inr (.inr ⟨n, l, h⟩)

/-- The hypotheses of `c59_boost` and `c62_boost` are met by a run with local instructions in which the route of the CNOT found by Boost leads across the
qubit 9: the slice shown third has the gate on it. -/
example : (crossCtx true).router = Boost.boostRouter (crossCtx true).layout Boost.Spec.oldest ∧ [7, 9, 8].Nodup ∧ (∀ i ∈ crossProg, Plain i ∧ ¬ Makes 9 i) ∧
    (∀ p ∈ (crossCtx true).layout.core, p.activity ≠ .edpc) ∧
    (∃ s, DSlice.init (crossCtx true).layout [7, 9, 8] = .ok s ∧ (∃ p, s.cells ⟨0, 1⟩ = some p ∧ p.id = some 9 ∧ p.type = .qubit ∧ p.activity = .none) ∧
      Router.Spec.cellsOf (Boost.find crossLayout Boost.Spec.oldest s 8 .Z 7 .X) = some (some [⟨0, 1⟩, ⟨1, 1⟩]) ∧
      ∃ k A m B, Account (env (crossCtx true) fun _ => false) crossProg ⟨s, (), 1⟩ k (A ++ .slice m :: B) ∧ (∀ i ∈ instrs A, ¬ Takes 9 i) ∧ (∀ i ∈ instrs A, ¬ Removes 9 i) ∧
        (m.slice.cells ⟨0, 1⟩).map (fun p => (p.id, p.activity)) = some (some 9, .unitary)) := by
  refine ⟨rfl, by decide, cross_plain, by decide, ?_⟩
  obtain ⟨s', hs', hp⟩ := cross_start
  refine ⟨s', hs', hp, ?_, ?_⟩
  · have h : (match DSlice.init crossLayout [7, 9, 8] with
        | .ok s => Router.Spec.cellsOf (Boost.find crossLayout Boost.Spec.oldest s 8 .Z 7 .X)
        | _ => none) = some (some [⟨0, 1⟩, ⟨1, 1⟩]) := by decide +kernel
    rw [hs'] at h
    exact h
  · have h : view crossDag (glances 9 ⟨0, 1⟩ 2) = some ([false, false], some (some (some 9, .unitary))) := by decide +kernel
    obtain ⟨L, h1, h2⟩ := view_some h
    obtain ⟨A, m, B, rfl, h3, h4⟩ := glances_cut h2
    obtain ⟨s, hs, h5⟩ := Outcome.bind_eq_ok.1 h1
    obtain ⟨d, hd, h6⟩ := Outcome.bind_eq_ok.1 h5
    obtain ⟨x, hx, h7⟩ := Outcome.bind_eq_ok.1 h6
    rw [hs] at hs'; cases hs'
    have ht := h4 (by decide)
    refine ⟨.dag, A, m, B, ?_, ht, fun i hi hr => ht i hi (removes_takes hr), h3⟩
    rw [← Outcome.ok.inj h7]
    exact .dag 12 hd hx

def crossStoredCtx : Ctx Cache :=
  { localInstrs := true, twists := false, genIds := true, asserts := true, layout := crossLayout, router := Boost.storedRouter crossLayout Boost.Spec.oldest }

def crossStored : Outcome (List (Obs (Mach Cache))) := do
  let s ← DSlice.init crossLayout [7, 9, 8]
  let d ← dstart ⟨s, fun _ => none, 1⟩ crossProg
  let x ← drun (env crossStoredCtx fun _ => false) 12 d
  .ok x.2.obs

/-- The same for `c59_stored` and `c62_stored`. -/
example : crossStoredCtx.router = Boost.storedRouter crossStoredCtx.layout Boost.Spec.oldest ∧
    (∃ s, DSlice.init crossStoredCtx.layout [7, 9, 8] = .ok s ∧ (∃ p, s.cells ⟨0, 1⟩ = some p ∧ p.id = some 9 ∧ p.type = .qubit ∧ p.activity = .none) ∧
      ∃ k A m B, Account (env crossStoredCtx fun _ => false) crossProg ⟨s, fun _ => none, 1⟩ k (A ++ .slice m :: B) ∧ (∀ i ∈ instrs A, ¬ Takes 9 i) ∧ (∀ i ∈ instrs A, ¬ Removes 9 i) ∧
        (m.slice.cells ⟨0, 1⟩).map (fun p => (p.id, p.activity)) = some (some 9, .unitary)) := by
  obtain ⟨s', hs', hp⟩ := cross_start
  refine ⟨rfl, s', hs', hp, ?_⟩
  have h : view crossStored (glances 9 ⟨0, 1⟩ 2) = some ([false, false], some (some (some 9, .unitary))) := by decide +kernel
  obtain ⟨L, h1, h2⟩ := view_some h
  obtain ⟨A, m, B, rfl, h3, h4⟩ := glances_cut h2
  obtain ⟨s, hs, h5⟩ := Outcome.bind_eq_ok.1 h1
  obtain ⟨d, hd, h6⟩ := Outcome.bind_eq_ok.1 h5
  obtain ⟨x, hx, h7⟩ := Outcome.bind_eq_ok.1 h6
  rw [hs] at hs'; cases hs'
  have ht := h4 (by decide)
  refine ⟨.dag, A, m, B, ?_, ht, fun i hi hr => ht i hi (removes_takes hr), h3⟩
  rw [← Outcome.ok.inj h7]
  exact .dag 12 hd hx

/-- The hypotheses of `c59_any` and `c62_any` are met by a run in which two qubits are merged. -/
example : (crossCtx false).localInstrs = false ∧ (∃ s, DSlice.init (crossCtx false).layout [7, 9, 8] = .ok s ∧
      (∃ p, s.cells ⟨0, 1⟩ = some p ∧ p.id = some 9 ∧ p.type = .qubit ∧ p.activity = .none) ∧
      (∀ i ∈ crossMerge, Plain i ∧ ¬ Makes 9 i) ∧
      ∃ k A m B, Account (env (crossCtx false) fun _ => false) crossMerge ⟨s, (), 1⟩ k (A ++ .slice m :: B) ∧ (∀ i ∈ instrs A, ¬ Takes 9 i) ∧ (∀ i ∈ instrs A, ¬ Removes 9 i) ∧
        (m.slice.cells ⟨0, 1⟩).map (fun p => (p.id, p.activity)) = some (some 9, .unitary)) := by
  obtain ⟨s', hs', hp⟩ := cross_start
  refine ⟨rfl, s', hs', hp, ?_, ?_⟩
  · intro i hi
    simp only [crossMerge, List.mem_cons, List.not_mem_nil, or_false] at hi
    rcases hi with rfl | rfl <;> exact ⟨trivial, by rw [← makes_iff]; simp [Real.Makes]⟩
  · have h : view crossOther (glances 9 ⟨0, 1⟩ 3) = some ([false, false, false], some (some (some 9, .unitary))) := by decide +kernel
    obtain ⟨L, h1, h2⟩ := view_some h
    obtain ⟨A, m, B, rfl, h3, h4⟩ := glances_cut h2
    obtain ⟨s, hs, h5⟩ := Outcome.bind_eq_ok.1 h1
    obtain ⟨d, hd, h6⟩ := Outcome.bind_eq_ok.1 h5
    obtain ⟨x, hx, h7⟩ := Outcome.bind_eq_ok.1 h6
    rw [hs] at hs'; cases hs'
    have ht := h4 (by decide)
    refine ⟨.dag, A, m, B, ?_, ht, fun i hi hr => ht i hi (removes_takes hr), h3⟩
    rw [← Outcome.ok.inj h7]
    exact .dag 12 hd hx

/-- What is left of the CNOT of `crossProg` after the first attempt. -/
def crossRest : Instr :=
  { op := .bellCnot { control := 8, target := 7, side1 := 11, side2 := 12, counterPairs := some [(0, 0)], localSets := some [[.bellPrepare (some 12) (some 11) ⟨0, 1⟩ ⟨1, 1⟩, .mergeContract ⟨2, 1⟩ ⟨1, 1⟩, .mergeContract ⟨0, 0⟩ ⟨0, 1⟩]] } }

/-- The price of Boost's routes across patches: the CNOT starts, which counts as a success, and from then on each attempt succeeds without doing anything, as
long as the qubit 9 is on its cell. As these are successes, the limit on attempts does not apply and the CNOT never gives up. -/
theorem c62_boost_waits :
    (∃ s r, DSlice.init crossLayout [7, 9, 8] = .ok s ∧ Apply.apply (crossCtx true) ⟨s, (), 1⟩ laneCnot = .ok r ∧ r.slice.slice = s ∧ r.err = false ∧ r.followups = [crossRest]) ∧
    ∀ (m : Mach Unit) (pc pt : DensePatch), m.slice.isFree ⟨0, 1⟩ = .ok false → m.slice.patchById 8 = some pc → m.slice.patchById 7 = some pt → pc.isActive = false → pt.isActive = false →
      Apply.apply (crossCtx true) m crossRest = .ok ⟨m, crossRest, false, [crossRest]⟩ := by
  refine ⟨⟨_, _, rfl, rfl, rfl, rfl, rfl⟩, ?_⟩
  intro m pc pt h1 h2 h3 h4 h5
  have h : bellPrepare false m.slice (some 12) (some 11) ⟨0, 1⟩ ⟨1, 1⟩ = .ok (m.slice, true) := by
    unfold bellPrepare available
    rw [if_neg (by simp), h1]
    rfl
  simp only [Apply.apply, crossRest, applyCnot, h2, h3, h4, h5]
  simp [applyCnotPlain, cnotRun, crossCtx, Boost.boostRouter, runLocals, applyLocal, h, followup]

/-- The hypotheses on the slice in `c62_boost_waits` are met by the first slice. -/
example : ∃ s pc pt, DSlice.init crossLayout [7, 9, 8] = .ok s ∧ s.isFree ⟨0, 1⟩ = .ok false ∧ s.patchById 8 = some pc ∧ s.patchById 7 = some pt ∧ pc.isActive = false ∧ pt.isActive = false :=
  ⟨_, _, _, rfl, rfl, rfl, rfl, rfl, rfl⟩

end Verif.Real.Spec
