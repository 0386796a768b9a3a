import Verif.ClockProps
import Verif.CourseProps
import Verif.SlicerWholeExamples
import Mathlib.Data.List.Perm.Subperm

/-! # The clock of the factories, for the slicer program (C73, C74) -/

namespace Verif.Clock

open Verif Verif.DSlice Verif.Apply Verif.Wave Verif.Pipe Verif.Pipe.Spec Verif.Real Verif.Real.Spec Verif.Slicer Verif.Slicer.Spec Verif.Course.Spec

theorem slices_split {σ : Type} : ∀ {A : List (Obs σ)} {k : Nat} {m : σ}, (slices A)[k]? = some m → ∃ A1 A2, A = A1 ++ .slice m :: A2 ∧ (slices A1).length = k
  | [], k, m, h => by cases h
  | .instr i :: A, k, m, h => by
    obtain ⟨A1, A2, e, h1⟩ := slices_split (A := A) (k := k) (m := m) h
    exact ⟨.instr i :: A1, A2, by rw [e]; rfl, h1⟩
  | .slice s :: A, 0, m, h => by
    have : s = m := Option.some.inj h
    subst this
    exact ⟨[], A, rfl, rfl⟩
  | .slice s :: A, k + 1, m, h => by
    obtain ⟨A1, A2, e, h1⟩ := slices_split (A := A) (k := k) (m := m) h
    exact ⟨.slice s :: A1, A2, by rw [e]; rfl, by show (slices A1).length + 1 = _; rw [h1]⟩

theorem output_mono {times : List Nat} {k l : Nat} (h : k ≤ l) : output times k ≤ output times l := by
  unfold output
  induction times with
  | nil => exact Nat.le_refl _
  | cons T times ih =>
    simp only [List.map_cons, List.sum_cons]
    exact Nat.add_le_add (Nat.div_le_div_right h) ih

section
variable {ρ : Type} {ctx : Ctx ρ} {realloc : Nat → Bool} {P : List Instr} {m0 : Mach ρ} {k : Loop} {A : List (Obs (Mach ρ))}

theorem account_bound (hm : ctx.layout.magicReserved = false) (hz : m0.slice.times = ctx.layout.times) (hq : m0.slice.magic = []) (hb : ∀ T ∈ ctx.layout.times, T < 2 ^ 32)
    (h : Account (env ctx realloc) P m0 k A) : (instrs A).countP asksMagic ≤ output ctx.layout.times (slices A).length := by
  have key : ∀ {r : Bool} {A : List (Obs (Mach ρ))} {t : Mach ρ}, Play (env ctx realloc) r m0 A t → (instrs A).countP asksMagic ≤ output ctx.layout.times (slices A).length :=
    fun h => Nat.le_trans (Nat.le_add_right _ _) (play_bound hm hz hq hb h)
  cases h with
  | @streamed n c st h =>
    obtain ⟨p1, p2⟩ := c57_streamed _ _ _ _ _ h
    by_cases hc : c = .go
    · exact key (p1 hc)
    · obtain ⟨L0, e1, hp⟩ := p2 hc
      rw [e1, instrs_append, slices_append]
      show (instrs L0 ++ []).countP asksMagic ≤ _
      rw [List.append_nil]
      exact Nat.le_trans (key hp) (output_mono (by rw [List.length_append]; omega))
  | @dag n b st0 st h0 h => exact key (c57_dag _ _ _ _ _ _ h0 h).1
  | @wave depth n hf b w h => exact key (c57_wave _ _ _ _ _ _ h).1

end

theorem getElem_zip {α β : Type} {a : List α} {b : List β} {x : α × β} (h : x ∈ a.zip b) : x.2 ∈ b := (List.of_mem_zip h).2

/-- All requests of a program that has been carried out have been shown. -/
theorem carried_requests {edpc : Bool} {P is : List Instr} {tags : List Nat} {whole : Prop} (h : Carried edpc P is whole tags) (hw : whole) : P.countP asksMagic ≤ is.countP asksMagic := by
  have hP : P.countP asksMagic = ((List.range P.length).filter fun k => (P[k]?).any asksMagic).length := by
    rw [← List.countP_eq_length_filter]
    have : P = (List.range P.length).filterMap fun k => P[k]? := by
      refine List.ext_getElem? fun k => ?_
      clear hw h
      induction P using List.reverseRecOn generalizing k with
      | nil => rfl
      | append_singleton P x ih =>
        rw [List.length_append, List.length_singleton, List.range_succ, List.filterMap_append]
        have e : (List.range P.length).filterMap (fun k => (P ++ [x])[k]?) = (List.range P.length).filterMap fun k => P[k]? := by
          refine List.filterMap_congr fun j hj => ?_
          rw [List.mem_range] at hj
          exact List.getElem?_append_left hj
        rw [e, ← List.ext_getElem? fun k => ih k]
        simp
    conv_lhs => rw [this]
    rw [List.countP_filterMap]
    exact List.countP_congr fun x _ => by cases P[x]? <;> simp
  rw [hP, List.countP_eq_length_filter]
  have e2 : (is.filter asksMagic).length = (((tags.zip is).filter fun x => asksMagic x.2).map Prod.fst).length := by
    rw [List.length_map]
    conv_lhs => rw [← List.map_snd_zip (l₁ := tags) (l₂ := is) (by rw [h.length])]
    rw [List.filter_map, List.length_map]
    rfl
  rw [e2]
  refine (List.subperm_of_subset ((List.nodup_range).filter _) ?_).length_le
  intro k hk
  rw [List.mem_filter, List.mem_range] at hk
  obtain ⟨h1, h2⟩ := hk
  have hk' := List.getElem?_eq_getElem h1
  rw [hk'] at h2
  have h2 : asksMagic P[k] = true := h2
  rcases h.steps k _ hk' with ⟨-, hn⟩ | ⟨more, hd, hm⟩
  · exact absurd hw hn
  · rw [hm hw, List.append_nil] at hd
    generalize hl : stepsOf tags is k = l at hd
    generalize ho : P[k].op = o at hd
    have hone : l = [o] := by
      unfold asksMagic at h2
      rw [ho] at h2
      cases hd <;> first | rfl | cases h2
    rw [hone] at hl
    have : o ∈ stepsOf tags is k := by rw [hl]; simp
    unfold stepsOf at this
    obtain ⟨x, hx, e⟩ := List.mem_map.1 this
    rw [List.mem_filter] at hx
    refine List.mem_map.2 ⟨x, List.mem_filter.2 ⟨hx.1, ?_⟩, by simpa using hx.2⟩
    unfold asksMagic at h2 ⊢
    rw [e, ← ho]
    exact h2

namespace Spec

section
variable {a : Args} {w : World} {j : Job} {P : List Instr} {r : Ran} {t : List (Chan × Str)}

/-- C73 for the slicer program: on the slice number `k` the factory number `i` shows its time, which is the one given with `--disttime` (ten by default) and `i` more unless `--nostagger` is given,
less the slices since it has last delivered. Times are 32-bit numbers. -/
theorem c73_slicer (h : program a w = .ok (.sliced j P r t)) (hm : j.layout.magicReserved = false) {k i T : Nat} {s : DSlice} (hk : (shown r.obs)[k]? = some s) (hi : i < j.layout.regions.length)
    (hT : T = (a.distTime.getD 10 + if a.noStagger = true then 0 else i) % 2 ^ 32) (hp : 0 < T) : s.times[i]? = some (T - k % T) := by
  obtain ⟨h1, h2, h3, -⟩ := program_sliced h
  have hf : j.layout.times[i]? = some T := by
    rw [(c66_factories h).1 i hi, hT]
    cases a.distTime <;> rfl
  rcases ran_traced h3 with e | ⟨ρ, ctx, rs, s0, A, hA⟩
  · rw [e] at hk; cases hk
  · rw [hA.obs, shown_bare, List.getElem?_map] at hk
    cases hs : (slices A)[k]? with
    | none => rw [hs] at hk; cases hk
    | some m =>
      rw [hs] at hk
      cases hk
      obtain ⟨A1, A2, e, hl⟩ := slices_split hs
      have hacc := hA.account
      rw [e] at hacc
      rw [← hl]
      have hb : T < 2 ^ 32 := by rw [hT]; exact Nat.mod_lt _ (by decide)
      refine c73_clock (by rw [hA.layout]; exact hm) (by rw [hA.layout]; exact hA.first) hacc ?_ hb hp
      rw [hA.layout]; exact hf

theorem times_small (h : program a w = .ok (.sliced j P r t)) (hm : j.layout.magicReserved = false) :
    ∀ T ∈ j.layout.times, ∃ i, T = (a.distTime.getD 10 + if a.noStagger = true then 0 else i) % 2 ^ 32 := by
  obtain ⟨h1, -⟩ := program_sliced h
  obtain ⟨g, hg⟩ := (prepared h1).grid
  obtain ⟨-, -, -, -, -, hlen, -⟩ := Layouts.Spec.c42_regions hg
  intro T hT
  obtain ⟨i, hi, rfl⟩ := List.getElem_of_mem hT
  have := (c66_factories h).1 i (by rw [← hlen hm]; exact hi)
  rw [List.getElem?_eq_getElem hi] at this
  refine ⟨i, (Option.some.inj this).trans ?_⟩
  cases a.distTime <;> rfl

/-- C74, for runs that have not finished too, and with EDPC. -/
theorem c74_slicer_shown (h : program a w = .ok (.sliced j P r t)) (hm : j.layout.magicReserved = false) :
    (instrs r.obs).countP asksMagic ≤ (j.layout.times.map fun T => (shown r.obs).length / period T).sum := by
  obtain ⟨h1, h2, h3, -⟩ := program_sliced h
  rcases ran_traced h3 with e | ⟨ρ, ctx, rs, s0, A, hA⟩
  · rw [e]; exact Nat.zero_le _
  · have hb : ∀ T ∈ j.layout.times, T < 2 ^ 32 := fun T hT => by
      obtain ⟨i, e⟩ := times_small h hm T hT
      rw [e]; exact Nat.mod_lt _ (by decide)
    obtain ⟨z1, z2⟩ := start_clock hA.first
    have := account_bound (by rw [hA.layout]; exact hm) (by rw [hA.layout]; exact z1) z2 (by rw [hA.layout]; exact hb) hA.account
    rw [hA.layout] at this
    rw [hA.obs, instrs_bare, shown_bare, List.length_map]
    exact this

/-- C74 for the slicer program: a run without EDPC that finishes has shown at least as many slices as the factories need for the magic states the program asks for. -/
theorem c74_slicer (h : program a w = .ok (.sliced j P r t)) (he : a.pipeline ≠ some "edpc".toList) (hf : r.phase = .finished) (hm : j.layout.magicReserved = false) :
    P.countP asksMagic ≤ (j.layout.times.map fun T => (shown r.obs).length / period T).sum := by
  obtain ⟨tags, hc⟩ := c68_slicer h he
  exact Nat.le_trans (carried_requests hc hf) (c74_slicer_shown h hm)

/-- C73 and C74 fail for factories that take no time: with `--nostagger` and `--disttime 0` or any multiple of `2 ^ 32` no magic state is handed out on the first `2 ^ 32 - 1` slices. -/
theorem c74_no_time (h : program a w = .ok (.sliced j P r t)) (hm : j.layout.magicReserved = false)
    {n : Nat} (h0 : a.distTime = some n) (h32 : n % 2 ^ 32 = 0) (hn : a.noStagger = true) (hl : (shown r.obs).length < 2 ^ 32) : ∀ i ∈ instrs r.obs, asksMagic i = false := by
  have hz : ∀ T ∈ j.layout.times, T = 0 := by
    intro T hT
    obtain ⟨i, e⟩ := times_small h hm T hT
    rw [h0, if_pos hn] at e
    rw [e]; exact h32
  have hb := c74_slicer_shown h hm
  have hzero : ∀ l : List Nat, (∀ T ∈ l, T = 0) → (l.map fun T => (shown r.obs).length / period T).sum = 0 := by
    intro l
    induction l with
    | nil => intro _; rfl
    | cons T l ih =>
      intro hl'
      rw [List.map_cons, List.sum_cons, ih fun T hT => hl' T (List.mem_cons_of_mem _ hT), hl' T (by simp)]
      show (shown r.obs).length / 2 ^ 32 + 0 = 0
      rw [Nat.div_eq_of_lt hl]
  rw [hzero _ hz] at hb
  intro i hi
  have := List.countP_eq_zero.1 (Nat.le_zero.1 hb) i hi
  simpa using this

end

/-! ## Examples -/

/-- The times of the first factory shown on the slices, the requests for magic states and the slices shown. -/
def clockOf : Outcome Result → Option (Phase × Bool × List Nat × List Nat × Nat × Nat)
  | .ok (.sliced j P r _) => some (r.phase, j.layout.magicReserved, j.layout.times, (shown r.obs).map (fun s => s.times.getD 0 0), P.countP asksMagic, (shown r.obs).length)
  | _ => none

/-- Two magic states, one factory with time six. -/
def twoArgs : Args := { wholeArgs with distTime := some 6 }

def twoWorld : World := { wholeWorld with files := fun f => if f = "in".toList then some "qreg q[2];\nt q[0];\nt q[0];\n".toList else none }

theorem ex_two : clockOf (program twoArgs twoWorld) =
    some (.finished, false, [6], [6, 5, 4, 3, 2, 1, 6, 5, 4, 3, 2, 1, 6, 5, 4, 3], 2, 16) := by decide +kernel

theorem clock_sliced {o : Outcome Result} {ph : Phase} {b : Bool} {T : List Nat} {ts : List Nat} {n l : Nat} (h : clockOf o = some (ph, b, T, ts, n, l)) :
    ∃ j P r t, o = .ok (.sliced j P r t) ∧ r.phase = ph ∧ j.layout.magicReserved = b ∧ j.layout.times = T ∧ (shown r.obs).map (fun s => s.times.getD 0 0) = ts ∧ P.countP asksMagic = n ∧ (shown r.obs).length = l := by
  unfold clockOf at h
  split at h
  · rename_i j P r t
    simp only [Option.some.injEq, Prod.mk.injEq] at h
    exact ⟨j, P, r, t, rfl, h.1, h.2.1, h.2.2.1, h.2.2.2.1, h.2.2.2.2.1, h.2.2.2.2.2⟩
  · cases h

/-- The hypotheses of `c74_slicer` and `c74_slicer_shown`; the bound is attained: there are two requests, and two magic states are made in twelve to seventeen slices. -/
example : ∃ j P r t, program twoArgs twoWorld = .ok (.sliced j P r t) ∧ twoArgs.pipeline ≠ some "edpc".toList ∧ r.phase = .finished ∧ j.layout.magicReserved = false ∧
    P.countP asksMagic = 2 ∧ (j.layout.times.map fun T => (shown r.obs).length / period T).sum = 2 := by
  obtain ⟨j, P, r, t, h, h1, h2, h3, -, h5, h6⟩ := clock_sliced ex_two
  exact ⟨j, P, r, t, h, by decide, h1, h2, h5, by rw [h3, h6]; rfl⟩

/-- The hypotheses of `c73_slicer`, with a slice after a delivery. -/
example : ∃ j P r t s, program twoArgs twoWorld = .ok (.sliced j P r t) ∧ j.layout.magicReserved = false ∧ (shown r.obs)[8]? = some s ∧ s.times.getD 0 0 = 6 - 8 % 6 := by
  obtain ⟨j, P, r, t, h, h1, h2, h3, h4, h5, h6⟩ := clock_sliced ex_two
  have h8 := List.getElem?_eq_getElem (show 8 < (shown r.obs).length by omega)
  refine ⟨j, P, r, t, _, h, h2, h8, ?_⟩
  have := congrArg (fun l => l[8]?) h4
  simp only [List.getElem?_map, h8, Option.map_some] at this
  exact Option.some.inj this

def zeroArgs : Args := { wholeArgs with distTime := some 0, noStagger := true }

theorem ex_zero : clockOf (program zeroArgs { twoWorld with steps := 16 }) =
    some (.running, false, [0], 0 :: (List.range 15).map (fun k => 2 ^ 32 - 1 - k), 2, 16) := by decide +kernel

/-- The hypotheses of `c74_no_time`: the run waits for a magic state. -/
example : ∃ j P r t, program zeroArgs { twoWorld with steps := 16 } = .ok (.sliced j P r t) ∧ j.layout.magicReserved = false ∧ zeroArgs.distTime = some 0 ∧ zeroArgs.noStagger = true ∧
    (shown r.obs).length < 2 ^ 32 ∧ P.countP asksMagic = 2 := by
  obtain ⟨j, P, r, t, h, h1, h2, h3, h4, h5, h6⟩ := clock_sliced ex_zero
  exact ⟨j, P, r, t, h, h2, rfl, rfl, by omega, h5⟩

theorem account_of {a : Args} {w : World} {j : Job} {P : List Instr} {r : Ran} {t : List (Chan × Str)} (h : program a w = .ok (.sliced j P r t)) {k : Nat}
    (hk : k + 1 < (shown r.obs).length) :
    ∃ (ρ : Type) (ctx : Ctx ρ) (s : DSlice) (rs : ρ) (l : Loop) (A B : List (Obs (Mach ρ))) (m : Mach ρ), ctx.layout = j.layout ∧ DSlice.init ctx.layout (Stream.coreQubits j.size) = .ok s ∧
      Account (env ctx w.realloc) P ⟨s, rs, 1⟩ l (A ++ .slice m :: B) ∧ (slices A).length = k ∧ B ≠ [] := by
  obtain ⟨h1, h2, h3, -⟩ := program_sliced h
  rcases ran_traced h3 with e | ⟨ρ, ctx, rs, s0, A, hA⟩
  · rw [e] at hk; cases hk
  · rw [hA.obs, shown_bare, List.length_map] at hk
    have hs := List.getElem?_eq_getElem (show k < (slices A).length by omega)
    obtain ⟨A1, A2, e, hl⟩ := slices_split hs
    refine ⟨ρ, ctx, s0, rs, _, A1, A2, _, hA.layout, by rw [hA.layout]; exact hA.first, e ▸ hA.account, hl, ?_⟩
    rintro rfl
    rw [e, slices_append, List.length_append] at hk
    have : (slices [(Obs.slice (slices A)[k] : Obs (Mach ρ))]).length = 1 := rfl
    omega

/-- The hypotheses of `c73_clock`, `c73_delivery` and `c74_bound`, on the slice after which the first magic state is delivered. -/
example : ∃ (ρ : Type) (ctx : Ctx ρ) (P : List Instr) (realloc : Nat → Bool) (ids : List Nat) (s : DSlice) (rs : ρ) (l : Loop) (A B : List (Obs (Mach ρ))) (m : Mach ρ),
    ctx.layout.magicReserved = false ∧ ctx.layout.times = [6] ∧ DSlice.init ctx.layout ids = .ok s ∧
      Account (env ctx realloc) P ⟨s, rs, 1⟩ l (A ++ .slice m :: B) ∧ (slices A).length = 5 ∧ B ≠ [] := by
  obtain ⟨j, P, r, t, h, h1, h2, h3, h4, h5, h6⟩ := clock_sliced ex_two
  obtain ⟨ρ, ctx, s, rs, l, A, B, m, e1, e2, e3, e4, e5⟩ := account_of (k := 5) h (by omega)
  exact ⟨ρ, ctx, P, _, _, s, rs, l, A, B, m, by rw [e1]; exact h2, by rw [e1]; exact h3, e2, e3, e4, e5⟩

/-- The hypotheses of `c73_zero`. -/
example : ∃ (ρ : Type) (ctx : Ctx ρ) (P : List Instr) (realloc : Nat → Bool) (ids : List Nat) (s : DSlice) (rs : ρ) (l : Loop) (A B : List (Obs (Mach ρ))) (m : Mach ρ),
    ctx.layout.magicReserved = false ∧ ctx.layout.times = [0] ∧ DSlice.init ctx.layout ids = .ok s ∧
      Account (env ctx realloc) P ⟨s, rs, 1⟩ l (A ++ .slice m :: B) ∧ (slices A).length = 3 := by
  obtain ⟨j, P, r, t, h, h1, h2, h3, h4, h5, h6⟩ := clock_sliced ex_zero
  obtain ⟨ρ, ctx, s, rs, l, A, B, m, e1, e2, e3, e4, e5⟩ := account_of (k := 3) h (by omega)
  exact ⟨ρ, ctx, P, _, _, s, rs, l, A, B, m, by rw [e1]; exact h2, by rw [e1]; exact h3, e2, e3, e4⟩

/-- What `placed` says: the second queue finds its first cell taken by the first. -/
example : placed (fun c => c != ⟨0, 0⟩) [[⟨0, 0⟩, ⟨0, 1⟩], [⟨0, 1⟩, ⟨1, 1⟩], [⟨0, 0⟩]] = [⟨0, 1⟩, ⟨1, 1⟩] := by decide

end Spec

end Verif.Clock
