import Verif.ClockLemmas
import Verif.StayProps
import Verif.Compiled
import Verif.Sizes

/-! # The clock of the factories (C73) and the magic states they make (C74)

On layouts with factories each one makes a magic state every so many slices, whatever is being sliced, and no more magic states
are handed out than the factories have made.
-/

namespace Verif.Clock

open Verif Verif.DSlice Verif.Apply Verif.Wave Verif.Pipe Verif.Pipe.Spec Verif.Real Verif.Real.Spec

/-! ## Proofs -/

section
variable {ρ : Type} {ctx : Ctx ρ} {realloc : Nat → Bool} {r : Bool} {m0 m : Mach ρ} {A : List (Obs (Mach ρ))}

theorem step_times {i : Instr} {x : Res (Mach ρ)} (h : Apply.apply ctx m i = .ok x) : x.slice.slice.times = m.slice.times := by
  by_cases hm : ∃ t n, i.op = .magic t n
  · obtain ⟨t, n, e⟩ := hm
    unfold Apply.apply at h
    rw [e] at h
    exact (timed_magic (z := (m.slice.times, m.slice.magic)) rfl h).1
  · exact congrArg Prod.fst (timed_apply (z := (m.slice.times, m.slice.magic)) rfl (fun t n e => hm ⟨t, n, e⟩) h)

theorem step_magic {i : Instr} {x : Res (Mach ρ)} (h : Apply.apply ctx m i = .ok x) :
    x.slice.slice.magic.length + (if x.err = false ∧ asksMagic x.instr = true then 1 else 0) ≤ m.slice.magic.length := by
  by_cases hm : ∃ t n, i.op = .magic t n
  · obtain ⟨t, n, e⟩ := hm
    unfold Apply.apply at h
    rw [e] at h
    rcases (timed_magic (z := (m.slice.times, m.slice.magic)) rfl h).2 with ⟨h1, h2⟩ | ⟨h1, c, hc, h2⟩
    · rw [h2, if_neg (by simp [h1])]; exact Nat.le_refl _
    · rw [h2]
      have : (m.slice.magic.filter (· ≠ c)).length < m.slice.magic.length :=
        List.length_filter_lt_length_iff_exists.2 ⟨c, hc, by simp⟩
      dsimp only
      split <;> omega
  · have h1 := congrArg Prod.snd (timed_apply (z := (m.slice.times, m.slice.magic)) rfl (fun t n e => hm ⟨t, n, e⟩) h)
    have h2 : asksMagic x.instr = false := by
      cases Sliced.apply_leaves h with
      | same hd e1 e2 e3 =>
        rw [e1]
        unfold asksMagic
        split
        · rename_i e; exact absurd ⟨_, _, e⟩ hm
        · rfl
      | multi e1 e2 => unfold asksMagic; rw [e1]
      | ystate e0 e1 e2 => unfold asksMagic; rw [e1]
      | bell e h => obtain ⟨⟨b, e1⟩, -⟩ := bell_kinds e h; unfold asksMagic; rw [e1]
      | cnot e h => obtain ⟨⟨b, e1⟩, -⟩ := cnot_kinds e h; unfold asksMagic; rw [e1]
    rw [if_neg (by simp [h2])]
    dsimp only at h1
    rw [h1]
    exact Nat.le_refl _

theorem step_reset {t u : Mach ρ} (h : (env ctx realloc).reset t = .ok u) : u.slice.times = t.slice.times ∧ u.slice.magic = t.slice.magic := by
  change (do let s ← resetMarked t.slice; Outcome.ok { t with slice := s }) = .ok u at h
  obtain ⟨s, h1, h⟩ := Outcome.bind_eq_ok.1 h
  cases h
  exact ⟨(resetMarked_same h1).times, (resetMarked_same h1).magic⟩

theorem step_advance {t u : Mach ρ} (h : (env ctx realloc).advance t = .ok u) : t.slice.advance ctx.layout = .ok u.slice := by
  change Apply.step ctx t = .ok u at h
  unfold Apply.step at h
  obtain ⟨s, h1, h⟩ := Outcome.bind_eq_ok.1 h
  cases h
  exact h1

theorem slices_instr (A : List (Obs (Mach ρ))) (i : Instr) : slices (A ++ [.instr i]) = slices A := by
  rw [slices_append]; exact List.append_nil _

theorem slices_slice (A : List (Obs (Mach ρ))) (t : Mach ρ) : (slices (A ++ [.slice t])).length = (slices A).length + 1 := by
  rw [slices_append, List.length_append]; rfl

theorem play_length (hz : m0.slice.times = ctx.layout.times) (h : Play (env ctx realloc) r m0 A m) : m.slice.times.length = ctx.layout.times.length := by
  induction h with
  | start => rw [hz]
  | done h ha he ih => rw [step_times ha]; exact ih
  | refused h ha he ih => rw [step_times ha]; exact ih
  | reset h hd ha ih => rw [(step_reset ha).1]; exact ih
  | @next L t u h ha ih =>
    have := sized_advance (z := (t.slice.rows, t.slice.cols, t.slice.times.length)) rfl (step_advance ha)
    unfold Sized at this
    simp only [Prod.mk.injEq] at this
    rw [this.2.2]; exact ih

theorem play_times (hm : ctx.layout.magicReserved = false) (hz : m0.slice.times = ctx.layout.times) (h : Play (env ctx realloc) r m0 A m) {i T : Nat}
    (hT : ctx.layout.times[i]? = some T) (hb : T < 2 ^ 32) : m.slice.times[i]? = some (left T (slices A).length) := by
  induction h with
  | start =>
    rw [hz, hT]
    show _ = some (left T 0)
    congr 1
    unfold left period
    split
    · rename_i e; rw [e]; simp
    · rw [Nat.zero_mod, Nat.sub_zero, Nat.mod_eq_of_lt hb]
  | done h ha he ih => rw [step_times ha, slices_instr]; exact ih
  | refused h ha he ih => rw [step_times ha]; exact ih
  | reset h hd ha ih => rw [(step_reset ha).1]; exact ih
  | @next L t u h ha ih =>
    rw [slices_slice, left_next hb]
    have h1 := (advance_worked hm (step_advance ha)).times i _ T ih hT
    rw [h1, if_pos ⟨Nat.zero_le _, by rw [Nat.zero_add]; exact (List.getElem?_eq_some_iff.1 ih).1⟩]

theorem play_due (hm : ctx.layout.magicReserved = false) (hz : m0.slice.times = ctx.layout.times) (hb : ∀ T ∈ ctx.layout.times, T < 2 ^ 32) (h : Play (env ctx realloc) r m0 A m) :
    due m.slice.ageAll 0 m.slice.times.length = (List.range ctx.layout.times.length).filter fun i => decide (period (ctx.layout.times.getD i 0) ∣ (slices A).length + 1) := by
  unfold due
  rw [play_length hz h, ← List.range_eq_range']
  refine List.filter_congr fun j hj => ?_
  rw [List.mem_range] at hj
  have hj' := List.getElem?_eq_getElem hj
  have hlt := hb _ (List.getElem_mem hj)
  have h1 := play_times hm hz h hj' hlt
  show decide (m.slice.times[j]? = some 1) = _
  rw [h1, List.getD_eq_getElem?_getD, hj']
  refine decide_eq_decide.2 ?_
  rw [Option.some.injEq]
  exact left_one hlt

theorem sum_next (k : Nat) : ∀ (n : Nat) (f : Nat → Nat), ((List.range n).map fun i => (k + 1) / f i).sum =
    ((List.range n).map fun i => k / f i).sum + ((List.range n).filter fun i => decide (f i ∣ k + 1)).length
  | 0, f => rfl
  | n + 1, f => by
    rw [List.range_succ, List.map_append, List.map_append, List.filter_append, List.sum_append, List.sum_append, List.length_append, sum_next k n f]
    simp only [List.map_cons, List.map_nil, List.sum_cons, List.sum_nil, Nat.add_zero, List.filter_cons, List.filter_nil, decide_eq_true_eq]
    rw [Nat.succ_div]
    split <;> simp <;> omega

theorem map_getD (l : List Nat) (f : Nat → Nat) : l.map f = (List.range l.length).map fun i => f (l.getD i 0) := by
  refine List.ext_getElem (by simp) fun i h1 h2 => ?_
  rw [List.length_map] at h1
  simp [List.getElem?_eq_getElem h1]

/-- The magic states that factories with these times make in `k` slices. -/
def output (times : List Nat) (k : Nat) : Nat := (times.map fun T => k / period T).sum

theorem play_bound (hm : ctx.layout.magicReserved = false) (hz : m0.slice.times = ctx.layout.times) (hq : m0.slice.magic = []) (hb : ∀ T ∈ ctx.layout.times, T < 2 ^ 32)
    (h : Play (env ctx realloc) r m0 A m) : (instrs A).countP asksMagic + m.slice.magic.length ≤ output ctx.layout.times (slices A).length := by
  induction h with
  | start => rw [hq]; exact Nat.zero_le _
  | @done L t h i x ha he ih =>
    have h1 := step_magic ha
    rw [slices_instr, instrs_append, List.countP_append]
    have : (instrs [(Obs.instr x.instr : Obs (Mach ρ))]).countP asksMagic = if x.err = false ∧ asksMagic x.instr = true then 1 else 0 := by
      show List.countP asksMagic [x.instr] = _
      rw [List.countP_cons, List.countP_nil]
      simp [he]
    omega
  | refused h ha he ih =>
    have h1 := step_magic ha
    omega
  | reset h hd ha ih => rw [(step_reset ha).2]; exact ih
  | @next L t u h ha ih =>
    have h1 := (advance_worked hm (step_advance ha)).number
    rw [play_due hm hz hb h] at h1
    have h2 : (instrs (L ++ [Obs.slice t])).countP asksMagic = (instrs L).countP asksMagic := by rw [instrs_append]; exact congrArg _ (List.append_nil _)
    rw [h2, slices_slice]
    unfold output at *
    rw [map_getD ctx.layout.times] at ih ⊢
    rw [sum_next]
    have h3 : t.slice.ageAll.magic = t.slice.magic := rfl
    rw [h3] at h1
    omega

theorem start_clock {L : Layout} {ids : List Nat} {s : DSlice} (h : DSlice.init L ids = .ok s) : s.times = L.times ∧ s.magic = [] := by
  refine ⟨?_, init_magic h⟩
  have key : ∀ (cs : List (Cell × DensePatch)) (a b : DSlice), assignAll cs a = .ok b → b.times = a.times := by
    intro cs
    induction cs with
    | nil => intro a b h; cases h; rfl
    | cons c cs ih =>
      intro a b h
      rw [assignAll] at h
      obtain ⟨x, h1, h⟩ := Outcome.bind_eq_ok.1 h
      unfold assign at h1
      split at h1
      · cases h1; exact ih (a.put c.1 (some c.2)) b h
      · cases h1
  unfold DSlice.init at h
  split at h
  · cases h
  · obtain ⟨s1, h1, h⟩ := Outcome.bind_eq_ok.1 h
    obtain ⟨s2, h2, h⟩ := Outcome.bind_eq_ok.1 h
    obtain ⟨s3, h3, h⟩ := Outcome.bind_eq_ok.1 h
    obtain ⟨s4, h4, h⟩ := Outcome.bind_eq_ok.1 h
    exact key _ { s4 with times := L.times } _ h

theorem account_play {σ : Type} {e : Env σ} {P : List Instr} {s m : σ} {k : Loop} {L A B : List (Obs σ)} (h : Account e P s k L) (hL : L = A ++ .slice m :: B) :
    ∃ r, Play e r s A m ∧ (B = [] ∨ ∃ u B' t, e.advance m = .ok u ∧ Play e r u B' t ∧ (B = B' ∨ B = B' ++ [.slice t])) := by
  have key : ∀ {r t}, Play e r s L t → ∃ r, Play e r s A m ∧ (B = [] ∨ ∃ u B' t, e.advance m = .ok u ∧ Play e r u B' t ∧ (B = B' ∨ B = B' ++ [.slice t])) := by
    intro r t h
    obtain ⟨u, h1, h2, h3⟩ := play_split h hL
    exact ⟨r, h1, .inr ⟨u, B, t, h2, h3, .inl rfl⟩⟩
  cases h with
  | @streamed n c st h =>
    obtain ⟨p1, p2⟩ := c57_streamed _ _ _ _ _ h
    by_cases hc : c = .go
    · exact key (p1 hc)
    · obtain ⟨L0, e1, hp⟩ := p2 hc
      rw [e1] at hL
      rcases List.eq_nil_or_concat B with rfl | ⟨B', b, rfl⟩
      · obtain ⟨g1, g2⟩ := List.append_inj' hL rfl
        cases g2
        subst g1
        exact ⟨_, hp, .inl rfl⟩
      · rw [List.concat_eq_append, ← List.cons_append, ← List.append_assoc] at hL
        obtain ⟨g1, g2⟩ := List.append_inj' hL rfl
        cases g2
        obtain ⟨u, h1, h2, h3⟩ := play_split hp g1
        exact ⟨_, h1, .inr ⟨u, B', _, h2, h3, .inr (List.concat_eq_append)⟩⟩
  | @dag n b st0 st h0 h => exact key (c57_dag _ _ _ _ _ _ h0 h).1
  | @wave depth n hf b w h => exact key (c57_wave _ _ _ _ _ _ h).1

theorem age_free {s : DSlice} (c : Cell) : s.ageAll.cells c = none ↔ s.cells c = none ∨ ∃ p, s.cells c = some p ∧ (p.activity = .measurement ∨ p.activity = .multiPatchMeasurement) := by
  unfold ageAll
  dsimp only
  cases h : s.cells c with
  | none => simp
  | some p => rw [Option.bind_some, (age_ok p).1]; simp

end

namespace Spec

/-! ## Specification -/

/-- The cell is empty once what has been measured on the slice is gone. -/
def cleared (s : DSlice) (c : Cell) : Bool :=
  match s.cells c with
  | none => true
  | some p => p.activity == .measurement || p.activity == .multiPatchMeasurement

/-- An idle magic state. -/
structure Magic (p : DensePatch) : Prop where
  type : p.type = .preparedState
  label : p.label = some "Magic State"
  id : p.id = none
  idle : p.activity = .none

/-- From one slice to the next, factories with these queues have delivered: each in turn has put a magic state on the first cell of its queue that is still free, if there is one. -/
structure Delivery (queues : List (List Cell)) (s s' : DSlice) : Prop where
  magic : ∀ c ∈ placed (cleared s) queues, ∃ p, s'.cells c = some p ∧ Magic p
  free : ∀ c, s'.cells c = none ↔ cleared s c = true ∧ c ∉ placed (cleared s) queues
  kept : ∀ c p, s.cells c = some p → cleared s c = false → ∃ q, s'.cells c = some q ∧ q.type = p.type ∧ q.id = p.id ∧ q.label = p.label
  queue : ∀ c, c ∈ s'.magic ↔ c ∈ s.magic ∨ c ∈ placed (cleared s) queues

/-- The queues of the factories that deliver after the slice number `k`. -/
def served (L : Layout) (k : Nat) : List (List Cell) :=
  ((List.range L.times.length).filter fun i => decide (period (L.times.getD i 0) ∣ k + 1)).map fun i => L.distilled.getD i []

section
variable {ρ : Type} {ctx : Ctx ρ} {realloc : Nat → Bool} {P : List Instr} {ids : List Nat} {s : DSlice} {rs : ρ} {n : Nat} {k : Loop} {A B : List (Obs (Mach ρ))} {m : Mach ρ}

/-! ## C73 -/

/-- C73: on the slice shown after `k` others the time of each factory has been counted down `k` times from the time of the layout, and anew each time it has run out. This is so whatever
instructions are carried out, refused or waiting. -/
theorem c73_clock (hm : ctx.layout.magicReserved = false) (hs : DSlice.init ctx.layout ids = .ok s) (h : Account (env ctx realloc) P ⟨s, rs, n⟩ k (A ++ .slice m :: B)) {i T : Nat}
    (hT : ctx.layout.times[i]? = some T) (hb : T < 2 ^ 32) (hp : 0 < T) : m.slice.times[i]? = some (T - (slices A).length % T) := by
  obtain ⟨r, h1, -⟩ := account_play h rfl
  rw [play_times hm (start_clock hs).1 h1 hT hb]
  congr 1
  unfold left period
  rw [if_neg (by omega), Nat.mod_eq_of_lt (by have := Nat.mod_lt (slices A).length hp; omega)]

/-- C73: a factory whose time is zero is one whose time is `2 ^ 32`: after the first slice its time is the largest 32-bit number. -/
theorem c73_zero (hm : ctx.layout.magicReserved = false) (hs : DSlice.init ctx.layout ids = .ok s) (h : Account (env ctx realloc) P ⟨s, rs, n⟩ k (A ++ .slice m :: B)) {i : Nat}
    (hT : ctx.layout.times[i]? = some 0) : m.slice.times[i]? = some ((2 ^ 32 - (slices A).length % 2 ^ 32) % 2 ^ 32) := by
  obtain ⟨r, h1, -⟩ := account_play h rfl
  rw [play_times hm (start_clock hs).1 h1 hT (by omega)]
  rfl

/-- C73: between a slice shown and the next attempt the factories whose time is over deliver, and no others. The factory number `i` does so after the slices number `T - 1`, `2 * T - 1` and so
on, `T` being its time. -/
theorem c73_delivery (hm : ctx.layout.magicReserved = false) (hs : DSlice.init ctx.layout ids = .ok s) (hb : ∀ T ∈ ctx.layout.times, T < 2 ^ 32)
    (h : Account (env ctx realloc) P ⟨s, rs, n⟩ k (A ++ .slice m :: B)) (hB : B ≠ []) :
    ∃ r u B' t, Play (env ctx realloc) r u B' t ∧ (B = B' ∨ B = B' ++ [.slice t]) ∧ Delivery (served ctx.layout (slices A).length) m.slice u.slice := by
  obtain ⟨r, h1, h2⟩ := account_play h rfl
  obtain ⟨u, B', t, h2, h3, h4⟩ := h2.resolve_left hB
  refine ⟨r, u, B', t, h3, h4, ?_⟩
  have hw := advance_worked hm (step_advance h2)
  have hq : dueQueues ctx.layout m.slice.ageAll 0 m.slice.times.length = served ctx.layout (slices A).length := by
    unfold dueQueues served
    rw [play_due hm (start_clock hs).1 hb h1]
  have hc : (fun c => decide (m.slice.ageAll.cells c = none)) = cleared m.slice := by
    funext c
    rw [Bool.eq_iff_iff, decide_eq_true_iff, age_free]
    unfold cleared
    cases m.slice.cells c with
    | none => simp
    | some p => simp
  have hcc : ∀ c, m.slice.ageAll.cells c = none ↔ cleared m.slice c = true := by
    intro c
    rw [← hc, decide_eq_true_iff]
  have hcell := hw.cell
  have hqueue := hw.queue
  rw [hc, hq] at hcell hqueue
  refine ⟨fun c hx => ⟨magicPatch, by rw [hcell c, if_pos hx], rfl, rfl, rfl, rfl⟩, fun c => ?_, fun c p hp hx => ?_, hqueue⟩
  · rw [hcell c]
    by_cases hx : c ∈ placed (cleared m.slice) (served ctx.layout (slices A).length)
    · rw [if_pos hx]; simp [hx]
    · rw [if_neg hx, hcc c]; simp [hx]
  · have hf : ∀ {q : Cell → Bool} {qs : List (List Cell)} {c : Cell}, c ∈ placed q qs → q c = true := by
      intro q qs
      induction qs generalizing q with
      | nil => intro c h; cases h
      | cons x qs ih =>
        intro c h
        rw [placed] at h
        split at h
        · exact ih h
        · rename_i d hd
          rcases List.mem_cons.1 h with rfl | h
          · exact List.find?_some hd
          · have := ih h
            simp only [Bool.and_eq_true] at this
            exact this.1
    have hn : c ∉ placed (cleared m.slice) (served ctx.layout (slices A).length) := fun h => by rw [hf h] at hx; cases hx
    rw [hcell c, if_neg hn]
    have : m.slice.ageAll.cells c = age p := by unfold ageAll; dsimp only; rw [hp, Option.bind_some]
    rw [this]
    cases ha : age p with
    | none =>
      rw [← this, hcc c, hx] at ha; cases ha
    | some q =>
      obtain ⟨a1, a2, a3, -⟩ := (age_ok p).2 q ha
      exact ⟨q, rfl, a1, a2, a3⟩

/-! ## C74 -/

/-- C74: the magic states handed out before a slice and those waiting on it are no more than the factories can have made: `k / T` each, if `k` slices have been shown before and `T` is its time. -/
theorem c74_bound (hm : ctx.layout.magicReserved = false) (hs : DSlice.init ctx.layout ids = .ok s) (hb : ∀ T ∈ ctx.layout.times, T < 2 ^ 32)
    (h : Account (env ctx realloc) P ⟨s, rs, n⟩ k (A ++ .slice m :: B)) :
    (instrs A).countP asksMagic + m.slice.magic.length ≤ (ctx.layout.times.map fun T => (slices A).length / period T).sum := by
  obtain ⟨r, h1, -⟩ := account_play h rfl
  exact play_bound hm (start_clock hs).1 (start_clock hs).2 hb h1

end

end Spec

end Verif.Clock
