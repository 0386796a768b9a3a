import Verif.EndsProps

/-! # An instruction that is tried for ever (C69) -/

namespace Verif.Ends

open Verif Apply Verif.Wave Verif.Pipe Verif.Pipe.Spec Verif.Real Verif.Slices.Spec

namespace Spec

/-- A patch that stays where it is: a qubit that is not being worked on, or a magic state that nobody takes. -/
def InTheWay (s : DSlice) (c : Cell) : Prop := ∃ p, s.cells c = some p ∧ (p.type = .qubit ∨ p.type = .preparedState) ∧ p.activity = .none

/-- The patch found for the id is a qubit that is not being worked on. -/
def Idle (s : DSlice) (id : Nat) : Prop := ∃ c p, s.cellById id = some c ∧ s.cells c = some p ∧ p.type = .qubit ∧ p.isActive = false

/-- The cells on which a local operation makes new patches: both halves of a Bell pair, the cell into which a patch is extended. -/
def fresh : LocalInstr → List Cell
  | .bellPrepare _ _ a b => [a, b]
  | .extendSplit _ _ e => [e]
  | _ => []

/-- The patch that is extended. -/
def source : LocalInstr → List Cell
  | .extendSplit _ t _ => [t]
  | _ => []

/-- A CNOT whose next local operation is to make a patch on a cell that is not free. -/
def Blocked (s : DSlice) (i : Instr) : Prop :=
  ∃ c f k ps locals sets o, i.op = .bellCnot c ∧ Idle s c.control ∧ Idle s c.target ∧ c.counterPairs = some ((f, k) :: ps) ∧
    c.localSets = some (locals :: sets) ∧ locals[k]? = some o ∧ (∀ x ∈ fresh o ++ source o, s.inRange x = true) ∧ ∃ x ∈ fresh o, InTheWay s x

end Spec

open Spec

theorem last_filter {α : Type} {p q : α → Bool} {l : List α} {c : α} (hpq : ∀ x, q x = true → p x = true) (h : (l.filter p).getLast? = some c) (hc : q c = true) :
    (l.filter q).getLast? = some c := by
  have e : l.filter q = (l.filter p).filter q := by
    rw [List.filter_filter]
    refine List.filter_congr fun x _ => ?_
    cases hx : q x with
    | false => simp
    | true => simp [hpq x hx]
  obtain ⟨u, hu⟩ := List.getLast?_eq_some_iff.1 h
  rw [e, hu, List.filter_append]
  simp [hc]

theorem stays {L : Layout} {s s' : DSlice} (h : s.advance L = .ok s') {c : Cell} (hc : InTheWay s c) : InTheWay s' c := by
  obtain ⟨p, hp, ht, ha⟩ := hc
  obtain ⟨q, hq1, hq2⟩ := aged hp (by unfold Measured; rw [ha]; simp)
  obtain ⟨b1, -, -, -, -, b6, -⟩ := (DSlice.age_ok p).2 q hq2
  refine ⟨q, ?_, by rw [b1]; exact ht, by rw [b6, ha]; simp⟩
  rcases (DSlice.advance_ok h).1.cell c with e | ⟨-, e⟩
  · rw [e, hq1]
  · have := e q hq1
    rw [b1] at this
    rcases ht with ht | ht <;> simp [ht] at this

theorem idle_none {p : DensePatch} (h : p.isActive = false) : p.activity = .none := by
  unfold DensePatch.isActive at h
  simp at h
  exact h.1

theorem stays_idle {L : Layout} {s s' : DSlice} (h : s.advance L = .ok s') {id : Nat} (hi : Idle s id) : Idle s' id := by
  obtain ⟨c, p, h1, h2, h3, h4⟩ := hi
  have hn := idle_none h4
  obtain ⟨q, g1, g2, g3, -, -, g6⟩ := c29_survive h h2 h3 (by unfold Measured; rw [hn]; simp)
  refine ⟨c, q, ?_, g1, g2, (g6 (.inl hn)).2⟩
  have hm := (DSlice.advance_ok h).1
  have hall : s'.allCells = s.allCells := by
    unfold DSlice.allCells
    rw [hm.rows, hm.cols]
    rfl
  unfold DSlice.cellById at h1 ⊢
  rw [hall]
  have hid : p.id = some id := by
    have := List.mem_of_getLast? h1
    have := (List.mem_filter.1 this).2
    unfold DSlice.holdsId at this
    rw [h2] at this
    simpa using this
  refine last_filter ?_ h1 ?_
  · intro x hx
    unfold DSlice.holdsId at hx ⊢
    rcases hm.cell x with e | ⟨⟨r, e1, e2, -⟩, -⟩
    · rw [e] at hx
      unfold DSlice.ageAll at hx
      simp only at hx
      cases hs : s.cells x with
      | none => rw [hs] at hx; simp at hx
      | some u =>
        rw [hs] at hx
        simp only [Option.bind_some] at hx
        cases hu : DSlice.age u with
        | none => rw [hu] at hx; simp at hx
        | some v =>
          rw [hu] at hx
          simp only at hx ⊢
          rw [((DSlice.age_ok u).2 v hu).2.1] at hx
          exact hx
    · rw [e1] at hx
      simp [e2] at hx
  · unfold DSlice.holdsId
    rw [g1]
    simp [g3, hid]

theorem stays_range {L : Layout} {s s' : DSlice} (h : s.advance L = .ok s') (c : Cell) : s'.inRange c = s.inRange c := by
  have hm := (DSlice.advance_ok h).1
  unfold DSlice.inRange
  rw [hm.rows, hm.cols]
  rfl

theorem stays_fits {L : Layout} {s s' : DSlice} (h : s.advance L = .ok s') (hf : Slices.Spec.Fits L s) : Slices.Spec.Fits L s' := by
  have hz := Apply.sized_advance (z := (s.rows, s.cols, s.times.length)) rfl h
  unfold DSlice.Sized at hz
  simp only [Prod.mk.injEq] at hz
  exact ⟨hz.2.2.trans hf.times, fun e => ⟨(hf.reserved e).1, fun c hc => by rw [stays_range h]; exact (hf.reserved e).2 c hc⟩,
    fun e => ⟨(hf.distilled e).1, fun cs hcs c hc => by rw [stays_range h]; exact (hf.distilled e).2 cs hcs c hc⟩⟩

theorem stays_blocked {L : Layout} {s s' : DSlice} (h : s.advance L = .ok s') {i : Instr} (hb : Blocked s i) : Blocked s' i := by
  obtain ⟨c, f, k, ps, locals, sets, o, h1, h2, h3, h4, h5, h6, h7, x, h8, h9⟩ := hb
  exact ⟨c, f, k, ps, locals, sets, o, h1, stays_idle h h2, stays_idle h h3, h4, h5, h6, fun y hy => by rw [stays_range h]; exact h7 y hy, x, h8, stays h h9⟩

theorem not_free {s : DSlice} {c : Cell} (hr : s.inRange c = true) (h : InTheWay s c) : available false s c = .ok false := by
  obtain ⟨p, hp, -⟩ := h
  simp [available, DSlice.isFree, DSlice.patchAt, hr, hp]

theorem is_told {s : DSlice} {c : Cell} (hr : s.inRange c = true) : ∃ b, available false s c = .ok b := by
  simp [available, DSlice.isFree, DSlice.patchAt, hr]

theorem no_pair {s : DSlice} {id1 id2 : Option Nat} {c1 c2 : Cell} (h1 : s.inRange c1 = true) (h2 : s.inRange c2 = true) (h : InTheWay s c1 ∨ InTheWay s c2) :
    bellPrepare false s id1 id2 c1 c2 = .ok (s, true) := by
  unfold bellPrepare
  obtain ⟨b, hb⟩ := is_told h1
  rw [hb, Outcome.bind_ok]
  cases b with
  | false => rfl
  | true =>
    rcases h with h | h
    · rw [not_free h1 h] at hb; cases hb
    · simp only [Bool.not_true, Bool.false_eq_true, if_false]
      rw [not_free h2 h, Outcome.bind_ok]
      rfl

theorem no_extension {s : DSlice} {id : Option Nat} {t e : Cell} (h1 : s.inRange t = true) (h2 : s.inRange e = true) (h : InTheWay s e) : extendSplit false s id t e = .ok (s, true) := by
  unfold extendSplit
  have : ∃ b, idleAt s t = .ok b := by
    unfold idleAt DSlice.patchAt
    rw [if_pos h1, Outcome.bind_ok]
    split <;> exact ⟨_, rfl⟩
  obtain ⟨b, hb⟩ := this
  rw [hb, Outcome.bind_ok]
  cases b with
  | false => rfl
  | true =>
    simp only [Bool.not_true, Bool.false_eq_true, if_false]
    rw [not_free h2 h, Outcome.bind_ok]
    rfl

theorem no_patch {s : DSlice} {o : LocalInstr} (h1 : ∀ x ∈ fresh o ++ source o, s.inRange x = true) (h2 : ∃ x ∈ fresh o, InTheWay s x) : applyLocal false s o = .ok (s, true) := by
  obtain ⟨x, hx, h2⟩ := h2
  cases o with
  | bellPrepare id1 id2 a b =>
    refine no_pair (h1 a (by simp [fresh])) (h1 b (by simp [fresh])) ?_
    simp only [fresh, List.mem_cons, List.not_mem_nil, or_false] at hx
    rcases hx with rfl | rfl
    · exact .inl h2
    · exact .inr h2
  | extendSplit id t e =>
    simp only [fresh, List.mem_cons, List.not_mem_nil, or_false] at hx
    subst hx
    exact no_extension (h1 t (by simp [fresh, source])) (h1 x (by simp [fresh])) h2
  | _ => simp [fresh] at hx

section
variable {ρ : Type} {ctx : Ctx ρ} {realloc : Nat → Bool}

/-- An attempt on such an instruction does nothing, and the instruction comes back. -/
theorem blocked_apply (hd : ctx.router.edpc = false) (hl : ctx.localInstrs = true) {m : Mach ρ} {i : Instr} (h : Blocked m.slice i) :
    ∃ j, Apply.apply ctx m i = .ok ⟨m, j, false, [j]⟩ ∧ Blocked m.slice j := by
  obtain ⟨c, f, k, ps, locals, sets, o, h1, h2, h3, h4, h5, h6, h7, h8⟩ := h
  have hrun : runLocals false (locals.drop k) m.slice = .ok (m.slice, 0, false) := by
    have hk : k < locals.length := by
      rcases Nat.lt_or_ge k locals.length with h | h
      · exact h
      · rw [List.getElem?_eq_none h] at h6; cases h6
    rw [List.drop_eq_getElem_cons hk]
    have e : locals[k] = o := by
      rw [List.getElem?_eq_getElem hk] at h6
      exact Option.some.inj h6
    rw [e]
    unfold runLocals
    have : applyLocal false m.slice o = .ok (m.slice, true) := no_patch h7 h8
    rw [this, Outcome.bind_ok]
    rfl
  refine ⟨{ i with op := .bellCnot { c with localSets := some (locals :: sets), counterPairs := some ((k, k + 0) :: ps) } }, ?_, ?_⟩
  · obtain ⟨a, p, a1, a2, a3, a4⟩ := h2
    obtain ⟨b, q, b1, b2, b3, b4⟩ := h3
    have ha : m.slice.patchById c.control = some p := by unfold DSlice.patchById; rw [a1]; exact a2
    have hb : m.slice.patchById c.target = some q := by unfold DSlice.patchById; rw [b1]; exact b2
    unfold Apply.apply
    rw [h1]
    simp only
    unfold applyCnot
    rw [hl, ha, hb]
    simp only [a4, b4, hd, Bool.not_true, Bool.or_self, Bool.false_eq_true, if_false]
    unfold applyCnotPlain
    rw [h4, h5]
    simp only
    unfold cnotRun
    simp only
    rw [hd, hrun, Outcome.bind_ok]
    rfl
  · exact ⟨_, k, k, ps, locals, sets, o, rfl, h2, h3, rfl, rfl, h6, h7, h8⟩

/-- C69: when it is the only instruction left in the queue of the streamed pipeline, the loop goes on for ever: after any number of rounds it is still there, no other instruction has been read and a slice has been
made in each of the rounds. -/
theorem Spec.c69_blocked (hd : ctx.router.edpc = false) (hl : ctx.localInstrs = true) : ∀ (n : Nat) {st : SSt (Mach ρ)} {it : Item}, st.future = [it] → Blocked st.slice.slice it.instr →
    Slices.Spec.Fits ctx.layout st.slice.slice →
    ∃ st', srun (env ctx realloc) n st = .ok (.go, st') ∧ (∃ it', st'.future = [it'] ∧ it'.tag = it.tag ∧ Blocked st'.slice.slice it'.instr) ∧ st'.stream = st.stream ∧ st'.read = st.read ∧ st'.count = st.count + n := by
  intro n
  induction n with
  | zero => exact fun {st it} h1 h2 _ => ⟨st, rfl, ⟨it, h1, rfl, h2⟩, rfl, rfl, rfl⟩
  | succ n ih =>
    intro st it h1 h2 h3
    obtain ⟨j, e1, e2⟩ := blocked_apply hd hl h2
    obtain ⟨s', hs⟩ := c29_defined h3
    have hstep : sstep (env ctx realloc) st = .ok (.go, { st with
        slice := { st.slice with slice := s' }
        count := st.count + 1
        future := [⟨j, it.tag, 0, j.wait⟩]
        events := st.events ++ ([Ev.attempt it false [j]] ++ [Ev.instr it.tag j]) ++ [.slice st.slice] }) := by
      unfold sstep takeNext
      rw [h1]
      simp only
      change (do let r ← Apply.apply ctx st.slice it.instr; react (env ctx realloc) { st with future := [] } it r) = _
      rw [e1, Outcome.bind_ok]
      unfold react
      simp only [ne_eq, List.cons_ne_self, not_false_eq_true, if_true, reduceCtorEq, Bool.false_eq_true, if_false]
      change (do let s ← Apply.step ctx st.slice; _) = _
      unfold Apply.step
      rw [hs]
      rfl
    unfold srun
    rw [hstep, Outcome.bind_ok]
    simp only [if_true]
    obtain ⟨st', g1, ⟨it', g2, g3, g4⟩, g5, g7, g6⟩ := ih (st := { st with
        slice := { st.slice with slice := s' }
        count := st.count + 1
        future := [⟨j, it.tag, 0, j.wait⟩]
        events := st.events ++ ([Ev.attempt it false [j]] ++ [Ev.instr it.tag j]) ++ [.slice st.slice] }) (it := ⟨j, it.tag, 0, j.wait⟩) rfl (stays_blocked hs e2) (stays_fits hs h3)
    exact ⟨st', g1, ⟨it', g2, g3, g4⟩, g5, g7, by rw [g6]; simp only; omega⟩

end

end Verif.Ends
