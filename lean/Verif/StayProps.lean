import Verif.StayRun
import Verif.ReachProps

/-! # A qubit stays where it is until an instruction takes it (C59) -/

namespace Verif.Real.Spec

open Verif Apply DSlice Verif.Wave Verif.Wave.Spec Verif.Pipe Verif.Pipe.Spec Verif.Slices.Spec Verif.Router

/-- The three pipelines. -/
inductive Loop where
  | streamed | dag | wave
  deriving DecidableEq

/-- What the visitors of a pipeline are shown, in order, at some point of a run on the program `P`. -/
inductive Account {σ : Type} (e : Env σ) (P : List Instr) (s : σ) : Loop → List (Obs σ) → Prop
  | streamed (n : Nat) {c : Ctl} {st : SSt σ} (h : srun e n (sstart s P) = .ok (c, st)) : Account e P s .streamed (st.events.filterMap Ev.obs)
  | dag (n : Nat) {b : Bool} {st0 st : DSt σ} (h0 : dstart s P = .ok st0) (h : drun e n st0 = .ok (b, st)) : Account e P s .dag st.obs
  | wave (depth n : Nat) (hf : Wave.Spec.Fits P) {b : Bool} {w : WSt σ} (h : wrun e depth n ⟨start s P, 1, [], []⟩ = .ok (b, w)) : Account e P s .wave w.obs

section
variable {σ : Type} {e : Env σ} {P : List Instr} {s : σ} {k : Loop} {L : List (Obs σ)}

/-- The account of the run with what has been shown in the state. -/
theorem account_ghost (h : Account e P s k L) : ∃ L', Account (ghost e) P (s, []) k L' ∧ L'.map (mapObs Prod.fst) = L ∧ Carries L' := by
  have ho := ghost_over e
  cases h with
  | @streamed n c st h =>
    rw [show sstart s P = mapS Prod.fst (sstart (s, ([] : List Instr)) P) from rfl, srun_over ho] at h
    obtain ⟨⟨c', st'⟩, h1, h2⟩ := omap_eq_ok h
    cases h2
    refine ⟨_, .streamed n h1, ?_, ?_⟩
    · unfold mapS
      dsimp only
      rw [List.filterMap_map, List.map_filterMap]
      congr 1
      funext x
      cases x <;> rfl
    · obtain ⟨p1, p2⟩ := c57_streamed _ _ _ _ _ h1
      by_cases hc : c' = .go
      · exact (play_carries (p1 hc)).1
      · obtain ⟨L, e1, hp⟩ := p2 hc
        rw [e1]
        obtain ⟨g1, g2⟩ := play_carries hp
        exact carries_append g1 (by intro x e; cases e; exact g2)
  | @dag n b st0 st h0 h =>
    rw [dstart_over (f := Prod.fst) (s, ([] : List Instr)) P] at h0
    obtain ⟨st0', h1, rfl⟩ := omap_eq_ok h0
    rw [drun_over ho] at h
    obtain ⟨⟨b', st'⟩, h2, h3⟩ := omap_eq_ok h
    cases h3
    exact ⟨_, .dag n h1 h2, rfl, (play_carries (c57_dag _ _ _ _ _ _ h1 h2).1).1⟩
  | @wave depth n hf b w h =>
    have e1 : (⟨start s P, 1, [], []⟩ : WSt σ) = mapWSt Prod.fst ⟨start (s, ([] : List Instr)) P, 1, [], []⟩ := by
      unfold mapWSt
      rw [start_over (f := Prod.fst) (s, ([] : List Instr)) P]
      rfl
    rw [e1, wrun_over ho] at h
    obtain ⟨⟨b', w'⟩, h2, h3⟩ := omap_eq_ok h
    cases h3
    exact ⟨_, .wave depth n hf h2, rfl, (play_carries (c57_wave _ _ _ _ _ _ h2).1).1⟩

/-- What every step keeps holds of every slice of the account. -/
theorem account_keeps {J : σ → Prop} {Q : σ → Instr → Prop} (hK : Keeps e J Q) (h1 : OneFollowup e) (h2 : FailsAlone e) (hs : J s) (hP : ∀ i ∈ P, Q s i) (h : Account e P s k L)
    {x : σ} (hx : Obs.slice x ∈ L) : J x := by
  have h0 : J s ∧ ∀ x ∈ indexed P, Q s x.2 := ⟨hs, fun x hx => hP _ (List.mem_of_getElem? (mem_indexed.1 hx))⟩
  cases h with
  | @streamed n c st h =>
    obtain ⟨w, hw⟩ := srun_amb (hK.ambient P) h1 h2 n h (sstart_amb h0) (by simp [sstart]) (by simp [sstart]) x (by
      obtain ⟨ev, hev, e1⟩ := List.mem_filterMap.1 hx
      cases ev with
      | attempt => cases e1
      | instr => cases e1
      | slice y => cases e1; exact hev)
    exact hw.1
  | @dag n b st0 st h0' h =>
    have := mem_slices hx
    rw [(c57_dag _ _ _ _ _ _ h0' h).2.2] at this
    obtain ⟨w, hw⟩ := (drun_amb (hK.ambient P) h1 n (dstart_amb h0 (hK.ambient P).perm h0') h).seen x this
    exact hw.1
  | @wave depth n hf b w h =>
    have := mem_slices hx
    rw [(c57_wave _ _ _ _ _ _ h).2.2] at this
    exact kst_wrun hK n (w := ⟨start s P, 1, [], []⟩) (kst_start hs hP) (by simp) h x this

end

/-- The cell holds the idle qubit patch `q`, or a gate is being applied to it. -/
def There (s : DSlice) (c : Cell) (q : Nat) : Prop := ∃ p, s.cells c = some p ∧ p.id = some q ∧ p.type = .qubit ∧ (p.activity = .none ∨ p.activity = .unitary)

/-- The instruction takes the qubit away from its cell: it is measured or rotated, or handed back as a `Y` state. -/
def Takes (q : Nat) (i : Instr) : Prop := (∃ b n, i.op = .measure q b n) ∨ i.op = .rotate q ∨ ∃ n l, i.op = .ystate q n l

theorem takes_iff {q : Nat} {i : Instr} : Real.Takes q i ↔ Takes q i := by
  rcases i with ⟨op, w, cl⟩
  unfold Real.Takes Takes
  cases op <;> simp

section
variable {ρ : Type} {ctx : Ctx ρ} {realloc : Nat → Bool} {P : List Instr} {ids : List Nat} {s : DSlice} {c : Cell} {q : Nat}

theorem stays_of {I : ρ → Prop} {k : Loop}
    (hR : Avoids ctx.localInstrs ctx.router I false c q s.rows s.cols) (hP : ∀ i ∈ P, Plain i) (hL : ∀ p ∈ ctx.layout.core, p.activity ≠ .edpc) (hs : DSlice.init ctx.layout ids = .ok s)
    (hc : ∃ p, s.cells c = some p ∧ p.id = some q ∧ p.type = .qubit ∧ p.activity = .none)
    {rs : ρ} (hI : I rs) {n : Nat} {A B : List (Obs (Mach ρ))} {m : Mach ρ} (h : Account (env ctx realloc) P ⟨s, rs, n⟩ k (A ++ .slice m :: B)) (hA : ∀ i ∈ instrs A, ¬ Takes q i) :
    There m.slice c q := by
  obtain ⟨p, c1, c2, c3, c4⟩ := hc
  obtain ⟨L', g1, g2, g3⟩ := account_ghost h
  have h0 : Staying I c q s.rows s.cols ((⟨s, rs, n⟩ : Mach ρ), []) := ⟨marks_init hL hs, fun _ => ⟨safe_init hs c1 c2 c3 c4, hI⟩⟩
  have hw := account_lift g3 (fun x hx => account_keeps (staying_keeps hR) (ghost_one (one_followup ctx realloc)) (ghost_alone (fails_alone ctx realloc))
    h0 (fun i hi => sparing_plain (hP i hi)) g1 hx) g2
  obtain ⟨p', h1, h2 | ⟨h2, -⟩⟩ := (hw.2 (fun i hi ht => hA i hi (takes_iff.1 ht))).slice.get
  · exact ⟨p', h1, h2⟩
  · cases h2

end

section
variable {realloc : Nat → Bool} {P : List Instr} {ids : List Nat} {s : DSlice} {c : Cell} {q n : Nat} {pick : Search.Pick} {stop : Bool} {k : Loop}

/-- C59: with the default router, in every pipeline, a qubit of the first slice is on its cell on every slice shown, as long as no
instruction shown before that slice has measured it, rotated it or handed it back. Whatever else happens, in particular
merges with its neighbours, gates on it, long-range CNOTs, magic states appearing, and failing attempts, it is not
overwritten, moved or renamed. -/
theorem c59_stays {ctx : Ctx Unit} (hr : ctx.router = dpRouter ctx.layout pick stop false) (hids : ids.Nodup) (hP : ∀ i ∈ P, Plain i)
    (hL : ∀ p ∈ ctx.layout.core, p.activity ≠ .edpc) (hs : DSlice.init ctx.layout ids = .ok s)
    (hc : ∃ p, s.cells c = some p ∧ p.id = some q ∧ p.type = .qubit ∧ p.activity = .none) {A B : List (Obs (Mach Unit))} {m : Mach Unit}
    (h : Account (env ctx realloc) P ⟨s, (), n⟩ k (A ++ .slice m :: B)) (hA : ∀ i ∈ instrs A, ¬ Takes q i) : There m.slice c q := by
  obtain ⟨p, hp, hc'⟩ := hc
  exact stays_of (I := fun _ => True) (by rw [hr]; exact dp_avoids (init_fits hids hs hp) false _) hP hL hs ⟨p, hp, hc'⟩ trivial h hA

/-- C59 with the router that stores routes, which starts with none stored. -/
theorem c59_cached {ctx : Ctx Cache} (hr : ctx.router = cachedRouter ctx.layout pick stop) (hids : ids.Nodup) (hP : ∀ i ∈ P, Plain i)
    (hL : ∀ p ∈ ctx.layout.core, p.activity ≠ .edpc) (hs : DSlice.init ctx.layout ids = .ok s)
    (hc : ∃ p, s.cells c = some p ∧ p.id = some q ∧ p.type = .qubit ∧ p.activity = .none) {A B : List (Obs (Mach Cache))} {m : Mach Cache}
    (h : Account (env ctx realloc) P ⟨s, fun _ => none, n⟩ k (A ++ .slice m :: B)) (hA : ∀ i ∈ instrs A, ¬ Takes q i) : There m.slice c q := by
  obtain ⟨p, hp, hc'⟩ := hc
  exact stays_of (by rw [hr]; exact cached_avoids (init_fits hids hs hp) _) hP hL hs ⟨p, hp, hc'⟩ (by intro k reg e; cases e) h hA

/-- C59 with edge-disjoint routing, in every pipeline. -/
theorem c59_edpc {ctx : Ctx Unit} (hr : ctx.router = dpRouter ctx.layout pick stop true) (hids : ids.Nodup) (hP : ∀ i ∈ P, Plain i)
    (hL : ∀ p ∈ ctx.layout.core, p.activity ≠ .edpc) (hs : DSlice.init ctx.layout ids = .ok s)
    (hc : ∃ p, s.cells c = some p ∧ p.id = some q ∧ p.type = .qubit ∧ p.activity = .none) {A B : List (Obs (Mach Unit))} {m : Mach Unit}
    (h : Account (env ctx realloc) P ⟨s, (), n⟩ k (A ++ .slice m :: B)) (hA : ∀ i ∈ instrs A, ¬ Takes q i) : There m.slice c q := by
  obtain ⟨p, hp, hc'⟩ := hc
  exact stays_of (I := fun _ => True) (by rw [hr]; exact dp_avoids (init_fits hids hs hp) true _) hP hL hs ⟨p, hp, hc'⟩ trivial h hA

/-- C59 with the router that uses Boost. It may lead routes across patches, but these are so short that they wait for the patch to go away. -/
theorem c59_boost {ctx : Ctx Unit} {pick : Boost.Pick} (hr : ctx.router = Boost.boostRouter ctx.layout pick) (hids : ids.Nodup) (hP : ∀ i ∈ P, Plain i)
    (hL : ∀ p ∈ ctx.layout.core, p.activity ≠ .edpc) (hs : DSlice.init ctx.layout ids = .ok s)
    (hc : ∃ p, s.cells c = some p ∧ p.id = some q ∧ p.type = .qubit ∧ p.activity = .none) {A B : List (Obs (Mach Unit))} {m : Mach Unit}
    (h : Account (env ctx realloc) P ⟨s, (), n⟩ k (A ++ .slice m :: B)) (hA : ∀ i ∈ instrs A, ¬ Takes q i) : There m.slice c q := by
  obtain ⟨p, hp, hc'⟩ := hc
  exact stays_of (I := fun _ => True) (by rw [hr]; exact boost_avoids (init_fits hids hs hp) pick _) hP hL hs ⟨p, hp, hc'⟩ trivial h hA

/-- C59 with the router that stores the routes Boost has found, which starts with none stored. -/
theorem c59_stored {ctx : Ctx Cache} {pick : Boost.Pick} (hr : ctx.router = Boost.storedRouter ctx.layout pick) (hids : ids.Nodup) (hP : ∀ i ∈ P, Plain i)
    (hL : ∀ p ∈ ctx.layout.core, p.activity ≠ .edpc) (hs : DSlice.init ctx.layout ids = .ok s)
    (hc : ∃ p, s.cells c = some p ∧ p.id = some q ∧ p.type = .qubit ∧ p.activity = .none) {A B : List (Obs (Mach Cache))} {m : Mach Cache}
    (h : Account (env ctx realloc) P ⟨s, fun _ => none, n⟩ k (A ++ .slice m :: B)) (hA : ∀ i ∈ instrs A, ¬ Takes q i) : There m.slice c q := by
  obtain ⟨p, hp, hc'⟩ := hc
  exact stays_of (by rw [hr]; exact stored_avoids (init_fits hids hs hp) pick _) hP hL hs ⟨p, hp, hc'⟩ (by intro k reg e; cases e) h hA

/-- C59 with any router at all, if there are no local instructions. Nothing is assumed of the routes it finds. -/
theorem c59_any {ρ : Type} {ctx : Ctx ρ} {rs : ρ} (hl : ctx.localInstrs = false) (hP : ∀ i ∈ P, Plain i)
    (hL : ∀ p ∈ ctx.layout.core, p.activity ≠ .edpc) (hs : DSlice.init ctx.layout ids = .ok s)
    (hc : ∃ p, s.cells c = some p ∧ p.id = some q ∧ p.type = .qubit ∧ p.activity = .none) {A B : List (Obs (Mach ρ))} {m : Mach ρ}
    (h : Account (env ctx realloc) P ⟨s, rs, n⟩ k (A ++ .slice m :: B)) (hA : ∀ i ∈ instrs A, ¬ Takes q i) : There m.slice c q :=
  stays_of (I := fun _ => True) (by rw [hl]; exact any_avoids _) hP hL hs hc trivial h hA

end

/-! ### Examples -/

def stayLayout : Layout := { laneLayout with furthest := ⟨2, 3⟩ }

def stayCtx : Ctx Unit := { laneCtx false with layout := stayLayout, router := dpRouter stayLayout pickMin false false }

/-- A long-range CNOT between the qubits 7 and 8, gates on both, and a rotation of 7. -/
def stayProg : List Instr := [laneCnot, { op := .sq 7 .H false }, { op := .sq 8 .X false }, { op := .rotate 7 }, { op := .sq 7 .X false }]

/-- What is looked at in the examples: of an instruction, whether it takes the qubit, and of a slice, what is on the cell. -/
def glance {ρ : Type} (q : Nat) (c : Cell) : Obs (Mach ρ) → Bool × Option (Option Nat × PatchActivity)
  | .instr i => (decide (Real.Takes q i), none)
  | .slice m => (false, (m.slice.cells c).map fun p => (p.id, p.activity))

/-- What is seen up to and including the entry `k`. -/
def glances {ρ : Type} (q : Nat) (c : Cell) (k : Nat) (L : List (Obs (Mach ρ))) : List Bool × Option (Option (Option Nat × PatchActivity)) :=
  ((L.take k).map fun x => (glance q c x).1, L[k]?.map fun x => (glance q c x).2)

def staySeen (o : Outcome (List (Obs (Mach Unit)))) (q : Nat) (c : Cell) (k : Nat) : Option (List Bool × Option (Option (Option Nat × PatchActivity))) :=
  view o (glances q c k)

def stayStreamed : Outcome (List (Obs (Mach Unit))) := do
  let s ← DSlice.init stayLayout [7, 8]
  let x ← srun (env stayCtx fun _ => false) 60 (sstart ⟨s, (), 1⟩ stayProg)
  .ok (x.2.events.filterMap Ev.obs)

def stayDag : Outcome (List (Obs (Mach Unit))) := do
  let s ← DSlice.init stayLayout [7, 8]
  let d ← dstart ⟨s, (), 1⟩ stayProg
  let x ← drun (env stayCtx fun _ => false) 60 d
  .ok x.2.obs

def stayWave : Outcome (List (Obs (Mach Unit))) := do
  let s ← DSlice.init stayLayout [7, 8]
  let x ← wrun (env stayCtx fun _ => false) 10 60 ⟨start ⟨s, (), 1⟩ stayProg, 1, [], []⟩
  .ok x.2.obs

theorem stay_start : ∃ s, DSlice.init stayLayout [7, 8] = .ok s ∧ ∃ p, s.cells ⟨0, 0⟩ = some p ∧ p.id = some 7 ∧ p.type = .qubit ∧ p.activity = .none :=
  ⟨_, rfl, _, rfl, rfl, rfl, rfl⟩

theorem stay_plain : ∀ i ∈ stayProg, Plain i := by
  intro i hi
  simp only [stayProg, List.mem_cons, List.not_mem_nil, or_false] at hi
  rcases hi with rfl | rfl | rfl | rfl | rfl
  · exact ⟨rfl, rfl, rfl, rfl⟩
  all_goals trivial

/-- Reading the examples: the account is cut at a slice. -/
theorem glances_cut {ρ : Type} {L : List (Obs (Mach ρ))} {q k : Nat} {c : Cell} {bs : List Bool} {x : Option Nat × PatchActivity} (h : glances q c k L = (bs, some (some x))) :
    ∃ A m B, L = A ++ .slice m :: B ∧ (m.slice.cells c).map (fun p => (p.id, p.activity)) = some x ∧ ((∀ b ∈ bs, b = false) → ∀ i ∈ instrs A, ¬ Takes q i) := by
  unfold glances at h
  simp only [Prod.mk.injEq] at h
  obtain ⟨h1, h2⟩ := h
  cases e : L[k]? with
  | none => rw [e] at h2; cases h2
  | some y =>
    rw [e] at h2
    cases y with
    | instr i => simp [glance] at h2
    | slice m =>
      obtain ⟨hk, e⟩ := List.getElem?_eq_some_iff.1 e
      refine ⟨L.take k, m, L.drop (k + 1), ?_, Option.some.inj h2, ?_⟩
      · rw [← e, List.cons_getElem_drop_succ, List.take_append_drop]
      · intro hb i hi ht
        unfold instrs at hi
        obtain ⟨y, hy, e⟩ := List.mem_filterMap.1 hi
        cases y with
        | slice => cases e
        | instr j =>
          cases e
          have := hb _ (h1 ▸ List.mem_map.2 ⟨_, hy, rfl⟩)
          simp only [glance, decide_eq_false_iff_not] at this
          exact this (takes_iff.2 ht)

theorem stay_account {L : List (Obs (Mach Unit))} (h : stayStreamed = .ok L ∨ stayDag = .ok L ∨ stayWave = .ok L) :
    ∃ s, DSlice.init stayLayout [7, 8] = .ok s ∧ ∃ k, Account (env stayCtx fun _ => false) stayProg ⟨s, (), 1⟩ k L := by
  rcases h with h | h | h
  · obtain ⟨s, hs, h⟩ := Outcome.bind_eq_ok.1 h
    obtain ⟨x, hx, h⟩ := Outcome.bind_eq_ok.1 h
    cases h
    exact ⟨s, hs, _, .streamed 60 hx⟩
  · obtain ⟨s, hs, h⟩ := Outcome.bind_eq_ok.1 h
    obtain ⟨d, hd, h⟩ := Outcome.bind_eq_ok.1 h
    obtain ⟨x, hx, h⟩ := Outcome.bind_eq_ok.1 h
    cases h
    exact ⟨s, hs, _, .dag 60 hd hx⟩
  · obtain ⟨s, hs, h⟩ := Outcome.bind_eq_ok.1 h
    obtain ⟨x, hx, h⟩ := Outcome.bind_eq_ok.1 h
    cases h
    exact ⟨s, hs, _, .wave 10 60 (by unfold Wave.Spec.Fits; decide) hx⟩

/-- The hypotheses of `c59_stays` are met in the DAG pipeline by the sixth thing shown, which is the slice on which the gate acts on the
qubit, after both steps of the CNOT. -/
example : stayCtx.router = dpRouter stayCtx.layout pickMin false false ∧ [7, 8].Nodup ∧ (∀ i ∈ stayProg, Plain i) ∧ (∀ p ∈ stayCtx.layout.core, p.activity ≠ .edpc) ∧
    (∃ s, DSlice.init stayCtx.layout [7, 8] = .ok s ∧ (∃ p, s.cells ⟨0, 0⟩ = some p ∧ p.id = some 7 ∧ p.type = .qubit ∧ p.activity = .none) ∧
      ∃ k A m B, Account (env stayCtx fun _ => false) stayProg ⟨s, (), 1⟩ k (A ++ .slice m :: B) ∧ (∀ i ∈ instrs A, ¬ Takes 7 i) ∧
        (m.slice.cells ⟨0, 0⟩).map (fun p => (p.id, p.activity)) = some (some 7, .unitary)) := by
  refine ⟨rfl, by decide, stay_plain, by decide, ?_⟩
  have h : staySeen stayDag 7 ⟨0, 0⟩ 6 = some ([false, false, false, false, false, false], some (some (some 7, .unitary))) := by decide +kernel
  obtain ⟨L, h1, h2⟩ := view_some h
  obtain ⟨A, m, B, rfl, h3, h4⟩ := glances_cut h2
  obtain ⟨s, hs, k, ha⟩ := stay_account (.inr (.inl h1))
  obtain ⟨s', hs', hp⟩ := stay_start
  rw [hs] at hs'; cases hs'
  exact ⟨s, hs, hp, k, A, m, B, ha, h4 (by decide), h3⟩

/-- The qubit is away while it is rotated. -/
theorem stay_away {o : Outcome (List (Obs (Mach Unit)))} (ho : ∀ L, o = .ok L → stayStreamed = .ok L ∨ stayDag = .ok L ∨ stayWave = .ok L) {bs : List Bool} {k : Nat}
    (h : staySeen o 7 ⟨0, 0⟩ k = some (bs, some (some (none, .rotation)))) :
    ∃ k A m B s, o = .ok (A ++ .slice m :: B) ∧ DSlice.init stayLayout [7, 8] = .ok s ∧
      Account (env stayCtx fun _ => false) stayProg ⟨s, (), 1⟩ k (A ++ .slice m :: B) ∧ ¬ There m.slice ⟨0, 0⟩ 7 := by
  obtain ⟨L, h1, h2⟩ := view_some h
  obtain ⟨A, m, B, rfl, h3, -⟩ := glances_cut h2
  obtain ⟨s, hs, k, ha⟩ := stay_account (ho _ h1)
  refine ⟨k, A, m, B, s, h1, hs, ha, ?_⟩
  rintro ⟨p, hp, hid, -⟩
  rw [hp, Option.map_some, hid] at h3
  cases h3

/-- The condition on the instructions shown cannot be left out of `c59_stays`, in any of the pipelines. -/
example : (∃ k A m B s, stayStreamed = .ok (A ++ .slice m :: B) ∧ DSlice.init stayLayout [7, 8] = .ok s ∧
      Account (env stayCtx fun _ => false) stayProg ⟨s, (), 1⟩ k (A ++ .slice m :: B) ∧ ¬ There m.slice ⟨0, 0⟩ 7) ∧
    (∃ k A m B s, stayDag = .ok (A ++ .slice m :: B) ∧ DSlice.init stayLayout [7, 8] = .ok s ∧
      Account (env stayCtx fun _ => false) stayProg ⟨s, (), 1⟩ k (A ++ .slice m :: B) ∧ ¬ There m.slice ⟨0, 0⟩ 7) ∧
    (∃ k A m B s, stayWave = .ok (A ++ .slice m :: B) ∧ DSlice.init stayLayout [7, 8] = .ok s ∧
      Account (env stayCtx fun _ => false) stayProg ⟨s, (), 1⟩ k (A ++ .slice m :: B) ∧ ¬ There m.slice ⟨0, 0⟩ 7) :=
  ⟨stay_away (fun _ h => .inl h) (show staySeen stayStreamed 7 ⟨0, 0⟩ 7 = some ([false, false, false, false, false, false, true], some (some (none, .rotation))) by decide +kernel),
    stay_away (fun _ h => .inr (.inl h)) (show staySeen stayDag 7 ⟨0, 0⟩ 8 = some ([false, false, false, false, false, false, false, true], some (some (none, .rotation))) by decide +kernel),
    stay_away (fun _ h => .inr (.inr h)) (show staySeen stayWave 7 ⟨0, 0⟩ 7 = some ([false, false, false, false, false, true, false], some (some (none, .rotation))) by decide +kernel)⟩

def storeCtx : Ctx Cache := { laneCtx false with layout := stayLayout, router := cachedRouter stayLayout pickMin false }

/-- The hypotheses of `c59_cached` are met in the streamed pipeline: the second slice is shown after the CNOT was routed through a stored
route. -/
example : storeCtx.router = cachedRouter storeCtx.layout pickMin false ∧ [7, 8].Nodup ∧ (∀ i ∈ stayProg, Plain i) ∧ (∀ p ∈ storeCtx.layout.core, p.activity ≠ .edpc) ∧
    view (do let s ← DSlice.init stayLayout [7, 8]; srun (env storeCtx fun _ => false) 60 (sstart ⟨s, fun _ => none, 1⟩ stayProg))
      (fun x => ((x.2.events.filterMap Ev.obs).filterMap fun y => match y with | .slice m => some ((m.slice.cells ⟨0, 0⟩).map fun p => (p.id, p.activity)) | _ => none)[1]?) =
      some (some (some (some 7, .none))) :=
  ⟨rfl, by decide, stay_plain, by decide, by decide +kernel⟩

/-- With edge-disjoint routing. -/
def laneStayCtx : Ctx Unit := { laneCtx true with layout := stayLayout, router := dpRouter stayLayout pickMin false true }

def laneStayDag : Outcome (List (Obs (Mach Unit))) := do
  let s ← DSlice.init stayLayout [7, 8]
  let d ← dstart ⟨s, (), 1⟩ stayProg
  let x ← drun (env laneStayCtx fun _ => false) 60 d
  .ok x.2.obs

def laneStayWave : Outcome (List (Obs (Mach Unit))) := do
  let s ← DSlice.init stayLayout [7, 8]
  let x ← wrun (env laneStayCtx fun _ => false) 10 60 ⟨start ⟨s, (), 1⟩ stayProg, 1, [], []⟩
  .ok x.2.obs

theorem lane_stay_dag {L : List (Obs (Mach Unit))} (h : laneStayDag = .ok L) :
    ∃ s, DSlice.init stayLayout [7, 8] = .ok s ∧ Account (env laneStayCtx fun _ => false) stayProg ⟨s, (), 1⟩ .dag L := by
  obtain ⟨s, hs, h⟩ := Outcome.bind_eq_ok.1 h
  obtain ⟨d, hd, h⟩ := Outcome.bind_eq_ok.1 h
  obtain ⟨x, hx, h⟩ := Outcome.bind_eq_ok.1 h
  cases h
  exact ⟨s, hs, .dag 60 hd hx⟩

theorem lane_stay_wave {L : List (Obs (Mach Unit))} (h : laneStayWave = .ok L) :
    ∃ s, DSlice.init stayLayout [7, 8] = .ok s ∧ Account (env laneStayCtx fun _ => false) stayProg ⟨s, (), 1⟩ .wave L := by
  obtain ⟨s, hs, h⟩ := Outcome.bind_eq_ok.1 h
  obtain ⟨x, hx, h⟩ := Outcome.bind_eq_ok.1 h
  cases h
  exact ⟨s, hs, .wave 10 60 (by unfold Wave.Spec.Fits; decide) hx⟩

/-- The hypotheses of `c59_edpc` are met by the ninth thing shown in the DAG pipeline, the slice on which the gate acts on the qubit after
the CNOT. -/
example : laneStayCtx.router = dpRouter laneStayCtx.layout pickMin false true ∧ [7, 8].Nodup ∧ (∀ i ∈ stayProg, Plain i) ∧ (∀ p ∈ laneStayCtx.layout.core, p.activity ≠ .edpc) ∧
    (∃ s, DSlice.init laneStayCtx.layout [7, 8] = .ok s ∧ (∃ p, s.cells ⟨0, 0⟩ = some p ∧ p.id = some 7 ∧ p.type = .qubit ∧ p.activity = .none) ∧
      ∃ A m B, Account (env laneStayCtx fun _ => false) stayProg ⟨s, (), 1⟩ .dag (A ++ .slice m :: B) ∧ (∀ i ∈ instrs A, ¬ Takes 7 i) ∧
        (m.slice.cells ⟨0, 0⟩).map (fun p => (p.id, p.activity)) = some (some 7, .unitary)) := by
  refine ⟨rfl, by decide, stay_plain, by decide, ?_⟩
  have h : staySeen laneStayDag 7 ⟨0, 0⟩ 8 = some (List.replicate 8 false, some (some (some 7, .unitary))) := by decide +kernel
  obtain ⟨L, h1, h2⟩ := view_some h
  obtain ⟨A, m, B, rfl, h3, h4⟩ := glances_cut h2
  obtain ⟨s, hs, ha⟩ := lane_stay_dag h1
  obtain ⟨s', hs', hp⟩ := stay_start
  rw [hs] at hs'; cases hs'
  exact ⟨s, hs, hp, A, m, B, ha, h4 (by decide), h3⟩

/-- The hypotheses of `c59_edpc` are met, too, by the second slice of the wave pipeline, which comes after both steps of the CNOT. -/
example : laneStayCtx.router = dpRouter laneStayCtx.layout pickMin false true ∧ [7, 8].Nodup ∧ (∀ i ∈ stayProg, Plain i) ∧ (∀ p ∈ laneStayCtx.layout.core, p.activity ≠ .edpc) ∧
    (∃ s, DSlice.init laneStayCtx.layout [7, 8] = .ok s ∧ (∃ p, s.cells ⟨0, 0⟩ = some p ∧ p.id = some 7 ∧ p.type = .qubit ∧ p.activity = .none) ∧
      ∃ A m B, Account (env laneStayCtx fun _ => false) stayProg ⟨s, (), 1⟩ .wave (A ++ .slice m :: B) ∧ (∀ i ∈ instrs A, ¬ Takes 7 i) ∧
        (m.slice.cells ⟨0, 0⟩).map (fun p => (p.id, p.activity)) = some (some 7, .none)) := by
  refine ⟨rfl, by decide, stay_plain, by decide, ?_⟩
  have h : staySeen laneStayWave 7 ⟨0, 0⟩ 3 = some (List.replicate 3 false, some (some (some 7, .none))) := by decide +kernel
  obtain ⟨L, h1, h2⟩ := view_some h
  obtain ⟨A, m, B, rfl, h3, h4⟩ := glances_cut h2
  obtain ⟨s, hs, ha⟩ := lane_stay_wave h1
  obtain ⟨s', hs', hp⟩ := stay_start
  rw [hs] at hs'; cases hs'
  exact ⟨s, hs, hp, A, m, B, ha, h4 (by decide), h3⟩

end Verif.Real.Spec
