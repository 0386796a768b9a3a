import Verif.Timed
import Verif.PlayProps
import Mathlib.Data.Nat.ModEq

/-! # The clock of the factories (lemmas) -/

namespace Verif.Clock

open Verif Verif.DSlice Verif.Apply Verif.Wave Verif.Pipe Verif.Pipe.Spec

/-- Where new magic states go: the factories whose time has come, in order, each fill the first cell of their queue that is still free. -/
def placed (free : Cell → Bool) : List (List Cell) → List Cell
  | [] => []
  | q :: qs =>
    match q.find? free with
    | none => placed free qs
    | some c => c :: placed (fun x => free x && x != c) qs

/-- The slices a factory takes for a magic state: its time, counted down in 32 bits. -/
def period (T : Nat) : Nat := if T = 0 then 2 ^ 32 else T

/-- What the factory shows on the slice shown after `k` others. -/
def left (T k : Nat) : Nat := (period T - k % period T) % 2 ^ 32

theorem period_pos (T : Nat) : 0 < period T := by
  unfold period; split <;> omega

theorem left_one {T k : Nat} (hT : T < 2 ^ 32) : left T k = 1 ↔ period T ∣ k + 1 := by
  have hp := period_pos T
  have hle : period T ≤ 2 ^ 32 := by unfold period; split <;> omega
  have hm := Nat.mod_lt k hp
  rw [Nat.dvd_iff_mod_eq_zero, Nat.add_mod]
  unfold left
  constructor
  · intro h
    have h1 : period T - k % period T = 1 := by
      by_cases e : period T - k % period T = 2 ^ 32
      · rw [e] at h; simp at h
      · rw [Nat.mod_eq_of_lt (by omega)] at h; exact h
    by_cases e : period T = 1
    · rw [e]; exact Nat.mod_one _
    · rw [Nat.mod_eq_of_lt (a := 1) (by omega), show k % period T + 1 = period T by omega]
      exact Nat.mod_self _
  · intro h
    by_cases e : period T = 1
    · rw [e, Nat.mod_one]; rfl
    · rw [Nat.mod_eq_of_lt (a := 1) (by omega)] at h
      have : k % period T + 1 = period T := by
        rcases Nat.lt_or_ge (k % period T + 1) (period T) with g | g
        · rw [Nat.mod_eq_of_lt g] at h; omega
        · omega
      rw [show period T - k % period T = 1 by omega]; rfl

theorem left_next {T k : Nat} (hT : T < 2 ^ 32) : left T (k + 1) = if left T k = 1 then T else dec32 (left T k) := by
  have hp := period_pos T
  have hle : period T ≤ 2 ^ 32 := by unfold period; split <;> omega
  have hm := Nat.mod_lt k hp
  split
  · rename_i h
    have hd := (left_one hT).1 h
    unfold left
    rw [Nat.mod_eq_zero_of_dvd hd, Nat.sub_zero]
    unfold period
    split
    · rename_i e; subst e; exact Nat.mod_self _
    · exact Nat.mod_eq_of_lt hT
  · rename_i h
    have hd := mt (left_one hT).2 h
    have e1 : (k + 1) % period T = k % period T + 1 := by
      have hn : period T ≠ 1 := fun e => hd (by rw [e]; exact Nat.one_dvd _)
      rw [Nat.add_mod, Nat.mod_eq_of_lt (a := 1) (by omega)]
      refine Nat.mod_eq_of_lt ?_
      by_contra hc
      refine hd (Nat.dvd_of_mod_eq_zero ?_)
      rw [Nat.add_mod, Nat.mod_eq_of_lt (a := 1) (by omega), show k % period T + 1 = period T by omega]
      exact Nat.mod_self _
    have e2 : k % period T + 1 < period T := e1 ▸ Nat.mod_lt _ hp
    unfold left dec32
    rw [e1]
    by_cases e : period T - k % period T = 2 ^ 32
    · rw [e, Nat.mod_self, if_pos rfl, show period T - (k % period T + 1) = 2 ^ 32 - 1 by omega]; rfl
    · rw [Nat.mod_eq_of_lt (a := period T - k % period T) (by omega), if_neg (by omega), Nat.mod_eq_of_lt (by omega)]
      omega

theorem dec32_zero {t : Nat} : dec32 t = 0 ↔ t = 1 := by
  unfold dec32; split <;> omega

/-- The factories among `n` from `i` on whose time has come. -/
def due (s : DSlice) (i n : Nat) : List Nat := (List.range' i n).filter fun j => decide (s.times[j]? = some 1)

/-- The queues of those factories. -/
def dueQueues (L : Layout) (s : DSlice) (i n : Nat) : List (List Cell) := (due s i n).map fun j => L.distilled.getD j []

theorem firstFree_find {s : DSlice} : ∀ {cs : List Cell} {o : Option Cell}, s.firstFree cs = .ok o → o = cs.find? fun c => decide (s.cells c = none)
  | [], o, h => by cases h; rfl
  | x :: cs, o, h => by
    rw [firstFree] at h
    obtain ⟨f, h1, h⟩ := Outcome.bind_eq_ok.1 h
    obtain ⟨-, hf⟩ := isFree_ok h1
    rw [List.find?_cons]
    split at h
    · rename_i e
      cases h
      rw [decide_eq_true (hf.1 e)]
    · rename_i e
      rw [decide_eq_false fun hn => e (hf.2 hn)]
      exact firstFree_find h

theorem length_setInsert (c : Cell) : ∀ xs : List Cell, (setInsert c xs).length ≤ xs.length + 1
  | [] => Nat.le_refl _
  | x :: xs => by
    have ih := length_setInsert c xs
    rw [setInsert]
    split
    · simp
    · split
      · simp
      · simp only [List.length_cons]; omega

/-- What the factories among `n` from `i` on have done. -/
structure Worked (L : Layout) (i n : Nat) (s s' : DSlice) : Prop where
  times : ∀ (j t T : Nat), s.times[j]? = some t → L.times[j]? = some T → s'.times[j]? = some (if i ≤ j ∧ j < i + n then if t = 1 then T else dec32 t else t)
  cell : ∀ c, s'.cells c = if c ∈ placed (fun c => decide (s.cells c = none)) (dueQueues L s i n) then some magicPatch else s.cells c
  queue : ∀ c, c ∈ s'.magic ↔ c ∈ s.magic ∨ c ∈ placed (fun c => decide (s.cells c = none)) (dueQueues L s i n)
  number : s'.magic.length ≤ s.magic.length + (due s i n).length

theorem due_set {s s' : DSlice} {i n x : Nat} (h : s'.times = s.times.set i x) : due s' (i + 1) n = due s (i + 1) n := by
  unfold due
  refine List.filter_congr fun j hj => ?_
  rw [List.mem_range'_1] at hj
  rw [h, List.getElem?_set_ne (by omega)]

theorem due_here {s : DSlice} {i n : Nat} (h : s.times[i]? = some 1) : due s i (n + 1) = i :: due s (i + 1) n := by
  unfold due
  rw [List.range'_succ, List.filter_cons, if_pos (by simp [h])]

theorem due_not {s : DSlice} {i n : Nat} (h : s.times[i]? ≠ some 1) : due s i (n + 1) = due s (i + 1) n := by
  unfold due
  rw [List.range'_succ, List.filter_cons, if_neg (by simp [h])]

theorem factories_worked {L : Layout} : ∀ {n i : Nat} {s s' : DSlice}, factories L n i s = .ok s' → Worked L i n s s'
  | 0, i, s, s', h => by
    cases h
    have e : due s i 0 = [] := rfl
    refine ⟨fun j t T h1 _ => ?_, fun c => ?_, fun c => ?_, ?_⟩
    · rw [h1, if_neg (by omega)]
    · rw [if_neg]; simp [dueQueues, e, placed]
    · simp [dueQueues, e, placed]
    · simp
  | n + 1, i, s, s', h => by
    rw [factories] at h
    split at h
    · rename_i h0
      have hi : s.times[i]? = some 1 := by
        rw [dec32_zero, List.getD_eq_getElem?_getD] at h0
        cases e : s.times[i]? with
        | none => rw [e] at h0; cases h0
        | some t => rw [e] at h0; exact congrArg some h0
      obtain ⟨s1, h1, h⟩ := Outcome.bind_eq_ok.1 h
      have ih := factories_worked h
      unfold deliver at h1
      split at h1
      · rename_i locs T' hl hT
        obtain ⟨o, h2, h1⟩ := Outcome.bind_eq_ok.1 h1
        have hfind := firstFree_find h2
        have key : s1.times = s.times.set i T' → due s1 (i + 1) n = due s (i + 1) n ∧ ∀ (j t T : Nat), s.times[j]? = some t → L.times[j]? = some T →
            s'.times[j]? = some (if i ≤ j ∧ j < i + (n + 1) then if t = 1 then T else dec32 t else t) := by
          intro et
          refine ⟨due_set et, fun j t T g1 g2 => ?_⟩
          by_cases e : j = i
          · subst e
            have g3 : s1.times[j]? = some T' := by
              rw [et]; exact List.getElem?_set_self (List.getElem?_eq_some_iff.1 g1).1
            rw [ih.times j T' T g3 g2, if_neg (by omega), if_pos (by omega)]
            rw [hi] at g1; cases g1
            rw [hT] at g2; cases g2
            rfl
          · have g3 : s1.times[j]? = some t := by rw [et, List.getElem?_set_ne (by omega)]; exact g1
            rw [ih.times j t T g3 g2]
            by_cases e2 : i ≤ j ∧ j < i + (n + 1)
            · rw [if_pos e2, if_pos (by omega)]
            · rw [if_neg e2, if_neg (by omega)]
        have hq : dueQueues L s i (n + 1) = locs :: dueQueues L s (i + 1) n := by
          unfold dueQueues
          rw [due_here hi, List.map_cons, List.getD_eq_getElem?_getD, hl]
          rfl
        split at h1
        · rename_i c
          obtain ⟨s2, h3, h1⟩ := Outcome.bind_eq_ok.1 h1
          have e3 := spawn_ok h3
          have ec : ∀ x, s2.cells x = if x = c then some magicPatch else s.cells x := by
            intro x
            rw [e3]
            by_cases e : x = c
            · subst e; simp
            · simp only [put_cells]; rw [upd_other _ _ e, if_neg e]
          have et : s2.times = s.times.set i (dec32 (s.times.getD i 0)) := by rw [e3]; rfl
          have em : s2.magic = setInsert c s.magic := by rw [e3]
          clear e3
          cases h1
          obtain ⟨k1, k2⟩ := key (by show s2.times.set i T' = _; rw [et, List.set_set])
          have hf : ∀ x, decide (({ s2 with times := s2.times.set i T' } : DSlice).cells x = none) = (decide (s.cells x = none) && x != c) := by
            intro x
            show decide (s2.cells x = none) = _
            simp only [ec x]
            by_cases e : x = c
            · simp [e]
            · simp [e]
          have e4 : placed (fun c => decide (s.cells c = none)) (dueQueues L s i (n + 1)) =
              c :: placed (fun c => decide (({ s2 with times := s2.times.set i T' } : DSlice).cells c = none)) (dueQueues L { s2 with times := s2.times.set i T' } (i + 1) n) := by
            rw [hq, placed, ← hfind]
            dsimp only
            rw [funext hf]
            unfold dueQueues
            rw [k1]
          refine ⟨k2, fun x => ?_, fun x => ?_, ?_⟩
          · rw [ih.cell x, e4]
            by_cases hx : x ∈ placed (fun c => decide (({ s2 with times := s2.times.set i T' } : DSlice).cells c = none)) (dueQueues L { s2 with times := s2.times.set i T' } (i + 1) n)
            · rw [if_pos hx, if_pos (List.mem_cons_of_mem _ hx)]
            · rw [if_neg hx]
              by_cases e : x = c
              · rw [if_pos (by simp [e])]; exact (ec x).trans (if_pos e)
              · rw [if_neg (by simp only [List.mem_cons]; tauto)]; exact (ec x).trans (if_neg e)
          · rw [ih.queue x, e4, List.mem_cons]
            have : x ∈ ({ s2 with times := s2.times.set i T' } : DSlice).magic ↔ x = c ∨ x ∈ s.magic := by
              show x ∈ s2.magic ↔ _
              rw [em]; exact mem_setInsert
            rw [this]
            tauto
          · have g := ih.number
            rw [k1] at g
            rw [due_here hi]
            have g2 : ({ s2 with times := s2.times.set i T' } : DSlice).magic.length ≤ s.magic.length + 1 := by
              show s2.magic.length ≤ _
              rw [em]; exact length_setInsert _ _
            simp only [List.length_cons]
            omega
        · cases h1
          obtain ⟨k1, k2⟩ := key (by simp)
          have e4 : placed (fun c => decide (s.cells c = none)) (dueQueues L s i (n + 1)) =
              placed (fun c => decide (s.cells c = none)) (dueQueues L s (i + 1) n) := by
            rw [hq, placed, ← hfind]
          have e5 : ∀ x, dueQueues L { s with times := x } (i + 1) n = (due { s with times := x } (i + 1) n).map fun j => L.distilled.getD j [] := fun _ => rfl
          refine ⟨k2, fun x => ?_, fun x => ?_, ?_⟩
          · rw [ih.cell x, e4, e5, k1]; rfl
          · rw [ih.queue x, e4, e5, k1]; rfl
          · have g := ih.number
            rw [k1] at g
            rw [due_here hi]
            simp only [List.length_cons]
            have : ({ s with times := (s.times.set i (dec32 (s.times.getD i 0))).set i T' } : DSlice).magic = s.magic := rfl
            rw [this] at g
            omega
      · cases h1
    · rename_i h0
      have hi : s.times[i]? ≠ some 1 := by
        intro e
        rw [dec32_zero, List.getD_eq_getElem?_getD, e] at h0
        exact h0 rfl
      have ih := factories_worked h
      have k1 : due { s with times := s.times.set i (dec32 (s.times.getD i 0)) } (i + 1) n = due s (i + 1) n := due_set rfl
      have e5 : ∀ x, dueQueues L { s with times := x } (i + 1) n = (due { s with times := x } (i + 1) n).map fun j => L.distilled.getD j [] := fun _ => rfl
      have e6 : dueQueues L s i (n + 1) = dueQueues L s (i + 1) n := by unfold dueQueues; rw [due_not hi]
      refine ⟨fun j t T g1 g2 => ?_, fun x => ?_, fun x => ?_, ?_⟩
      · by_cases e : j = i
        · subst e
          have g3 : ({ s with times := s.times.set j (dec32 (s.times.getD j 0)) } : DSlice).times[j]? = some (dec32 t) := by
            show (s.times.set j _)[j]? = _
            rw [List.getElem?_set_self (List.getElem?_eq_some_iff.1 g1).1, List.getD_eq_getElem?_getD, g1]; rfl
          rw [ih.times j _ T g3 g2, if_neg (by omega), if_pos (by omega), if_neg fun e => hi (by rw [g1, e])]
        · have g3 : ({ s with times := s.times.set i (dec32 (s.times.getD i 0)) } : DSlice).times[j]? = some t := by
            show (s.times.set i _)[j]? = _
            rw [List.getElem?_set_ne (by omega)]; exact g1
          rw [ih.times j t T g3 g2]
          by_cases e2 : i ≤ j ∧ j < i + (n + 1)
          · rw [if_pos e2, if_pos (by omega)]
          · rw [if_neg e2, if_neg (by omega)]
      · rw [ih.cell x, e6, e5, k1]; rfl
      · rw [ih.queue x, e6, e5, k1]; rfl
      · have g := ih.number
        rw [k1] at g
        rw [due_not hi]
        exact g

theorem advance_worked {L : Layout} {s s' : DSlice} (hm : L.magicReserved = false) (h : s.advance L = .ok s') : Worked L 0 s.times.length s.ageAll s' := by
  unfold advance at h
  dsimp only at h
  rw [hm] at h
  rw [if_neg (by decide)] at h
  obtain ⟨a, g, h⟩ := Outcome.bind_eq_ok.1 h
  cases h
  have k := factories_worked g
  exact ⟨k.times, k.cell, k.queue, k.number⟩

/-! ### Runs -/

theorem play_split {σ : Type} {env : Env σ} {r : Bool} {s m t : σ} {L : List (Obs σ)} (h : Play env r s L t) : ∀ {A B : List (Obs σ)}, L = A ++ .slice m :: B →
    ∃ u, Play env r s A m ∧ env.advance m = .ok u ∧ Play env r u B t := by
  induction h with
  | start => intro A B e; cases A <;> cases e
  | @done L t h i r' ha he ih =>
    intro A B e
    rcases List.eq_nil_or_concat B with rfl | ⟨B', b, rfl⟩
    · have := congrArg List.getLast? e
      simp at this
    · rw [List.concat_eq_append, ← List.cons_append, ← List.append_assoc] at e
      obtain ⟨e1, e2⟩ := List.append_inj' e rfl
      cases e2
      obtain ⟨u, h1, h2, h3⟩ := ih e1
      exact ⟨u, h1, h2, by rw [List.concat_eq_append]; exact h3.done ha he⟩
  | refused h ha he ih =>
    intro A B e
    obtain ⟨u, h1, h2, h3⟩ := ih e
    exact ⟨u, h1, h2, h3.refused ha he⟩
  | reset h hd ha ih =>
    intro A B e
    obtain ⟨u, h1, h2, h3⟩ := ih e
    exact ⟨u, h1, h2, h3.reset hd ha⟩
  | @next L t u h ha ih =>
    intro A B e
    rcases List.eq_nil_or_concat B with rfl | ⟨B', b, rfl⟩
    · obtain ⟨e1, e2⟩ := List.append_inj' e rfl
      cases e2
      subst e1
      exact ⟨u, h, ha, .start⟩
    · rw [List.concat_eq_append, ← List.cons_append, ← List.append_assoc] at e
      obtain ⟨e1, e2⟩ := List.append_inj' e rfl
      cases e2
      obtain ⟨u, h1, h2, h3⟩ := ih e1
      exact ⟨u, h1, h2, by rw [List.concat_eq_append]; exact h3.next ha⟩

/-- A request for a magic state. -/
def asksMagic (i : Instr) : Bool := match i.op with | .magic _ _ => true | _ => false

end Verif.Clock
