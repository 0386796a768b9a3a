import Verif.QuantumNet
import Verif.BellProps

/-!
# The cells used by long-range Bell operations: lemmas

In a part of a route, every cell between the ends is made in the first layer and measured away in the second.
-/

namespace Verif.Apply

open Verif Verif.Quantum

/-- What happens to the first and the last cell. -/
def roleA : LongRange → Bool → Role
  | .prep, _ => .made
  | .measure, _ => .gone
  | .split, true => .kept
  | .split, false => .made
  | .merge, true => .kept
  | .merge, false => .gone

def roleE : LongRange → Bool → Role
  | .prep, _ => .made
  | .measure, _ => .gone
  | .split, true => .made
  | .split, false => .kept
  | .merge, true => .gone
  | .merge, false => .kept

/-- The roles at position `k` for an instruction that makes or measures away (`r`) the cells between the ends. -/
def loAt (ty : LongRange) (rev : Bool) (a : Nat) (r : Role) (k : Nat) : Role := if k = a then roleA ty rev else r
def hiAt (ty : LongRange) (rev : Bool) (e : Nat) (r : Role) (k : Nat) : Role := if k + 1 = e then roleE ty rev else r

def Fits (route : List Cell) (lo hi : Nat → Role) (k : Nat) (i : LocalInstr) : Prop :=
  ∃ u v, route[k]? = some u ∧ route[k + 1]? = some v ∧ HasRoles u v i (lo k) (hi k)

/-- Instructions added to a layer. -/
def Only (P : LocalInstr → Prop) (is is' : List LocalInstr) : Prop := ∃ a, is' = is ++ a ∧ ∀ i ∈ a, P i

theorem Only.refl {P : LocalInstr → Prop} (is : List LocalInstr) : Only P is is := ⟨[], by simp, by simp⟩

theorem Only.trans {P : LocalInstr → Prop} {a b c : List LocalInstr} : Only P a b → Only P b c → Only P a c := by
  rintro ⟨x, rfl, hx⟩ ⟨y, rfl, hy⟩
  exact ⟨x ++ y, by simp, fun i hi => (List.mem_append.1 hi).elim (hx i) (hy i)⟩

theorem Only.push {P : LocalInstr → Prop} {is : List LocalInstr} {i : LocalInstr} (h : P i) : Only P is (is ++ [i]) := ⟨[i], rfl, by simpa using h⟩

/-- The instructions of both layers. -/
structure Only2 (P1 P2 : LocalInstr → Prop) (l l' : Layers) : Prop where
  l1 : Only P1 l.l1 l'.l1
  l2 : Only P2 l.l2 l'.l2

section
variable {P1 P2 : LocalInstr → Prop}

theorem Only2.refl (l : Layers) : Only2 P1 P2 l l := ⟨.refl _, .refl _⟩

theorem Only2.trans {l l' l'' : Layers} (h : Only2 P1 P2 l l') (h' : Only2 P1 P2 l' l'') : Only2 P1 P2 l l'' := ⟨h.l1.trans h'.l1, h.l2.trans h'.l2⟩

theorem Only2.push1 {l : Layers} {i : LocalInstr} (h : P1 i) : Only2 P1 P2 l (l.push1 i) := ⟨.push h, .refl _⟩

theorem Only2.push2 {l : Layers} {i : LocalInstr} (h : P2 i) : Only2 P1 P2 l (l.push2 i) := ⟨.refl _, .push h⟩

end

theorem cellAt_some {route : List Cell} {k : Nat} {c : Cell} (h : cellAt route k = .ok c) : route[k]? = some c := by
  unfold cellAt at h
  split at h
  · rename_i e; cases h; exact e
  · cases h

theorem two_some {route : List Cell} {i j : Nat} {f : Cell → Cell → LocalInstr} {x : LocalInstr}
    (h : (do let a ← cellAt route i; let b ← cellAt route j; .ok (f a b) : Outcome LocalInstr) = .ok x) : ∃ a b, route[i]? = some a ∧ route[j]? = some b ∧ x = f a b := by
  obtain ⟨a, h1, h⟩ := Outcome.bind_eq_ok.1 h
  obtain ⟨b, h2, h⟩ := Outcome.bind_eq_ok.1 h
  cases h
  exact ⟨a, b, cellAt_some h1, cellAt_some h2, rfl⟩

section
variable {route : List Cell} {i j : Nat} {x : LocalInstr}

theorem mkMove_some (h : mkMove route i j = .ok x) : ∃ a b, route[i]? = some a ∧ route[j]? = some b ∧ x = .move a b none := two_some h
theorem mkExtend_some (h : mkExtend route i j = .ok x) : ∃ a b, route[i]? = some a ∧ route[j]? = some b ∧ x = .extendSplit none a b := two_some h
theorem mkMeasure_some (h : mkMeasure route i j = .ok x) : ∃ a b, route[i]? = some a ∧ route[j]? = some b ∧ x = .bellMeasure a b := two_some h
theorem mkContract_some (h : mkContract route i j = .ok x) : ∃ a b, route[i]? = some a ∧ route[j]? = some b ∧ x = .mergeContract a b := two_some h
theorem mkPrepare_some {p q : Option Nat} (h : mkPrepare route p q i j = .ok x) : ∃ a b, route[i]? = some a ∧ route[j]? = some b ∧ x = .bellPrepare p q a b := two_some h

end

/-- A layer of a part of the route. -/
def InPart (route : List Cell) (ty : LongRange) (a e : Nat) (rev : Bool) (r : Role) (i : LocalInstr) : Prop :=
  ∃ k, a ≤ k ∧ k < e ∧ Fits route (loAt ty rev a r) (hiAt ty rev e r) k i

abbrev Part (route : List Cell) (ty : LongRange) (a e : Nat) (rev : Bool) : Layers → Layers → Prop :=
  Only2 (InPart route ty a e rev .made) (InPart route ty a e rev .gone)

theorem inPart {route : List Cell} {ty : LongRange} {a e : Nat} {rev : Bool} {r r1 r2 : Role} {i : LocalInstr} (k : Nat) {u v : Cell} (h1 : a ≤ k) (h2 : k < e)
    (hu : route[k]? = some u) (hv : route[k + 1]? = some v) (hr1 : (if k = a then roleA ty rev else r) = r1) (hr2 : (if k + 1 = e then roleE ty rev else r) = r2)
    (h : HasRoles u v i r1 r2) : InPart route ty a e rev r i := by
  subst hr1; subst hr2
  exact ⟨k, h1, h2, u, v, hu, hv, h⟩

section
variable {route : List Cell} {ty : LongRange} {a e : Nat} {rev : Bool} {l l' : Layers}

theorem compileMove_part (h1 : a + 2 ≤ e) (h : compileMove ty route a e rev l = .ok l') : Part route ty a e rev l l' := by
  unfold compileMove at h
  split at h
  · rename_i ht
    obtain ⟨i, hi, h⟩ : ∃ i, (if rev then mkMove route (e - 1) e else mkMove route (a + 1) a) = .ok i ∧ (.ok (l.push2 i) : Outcome _) = .ok l' := by cases rev <;> exact Outcome.bind_eq_ok.1 h
    cases h
    apply Only2.push2
    cases rev
    · rw [if_neg (by decide)] at hi
      obtain ⟨x, y, g1, g2, rfl⟩ := mkMove_some hi
      refine inPart a (by omega) (by omega) g2 g1 (r1 := .made) (r2 := .gone) ?_ (by rw [if_neg (by omega)]) ⟨_, rfl⟩
      rw [if_pos rfl]
      rcases ht with rfl | rfl <;> rfl
    · rw [if_pos rfl] at hi
      obtain ⟨x, y, g1, g2, rfl⟩ := mkMove_some hi
      refine inPart (e - 1) (by omega) (by omega) g1 (by rw [Nat.sub_add_cancel (by omega)]; exact g2) (r1 := .gone) (r2 := .made) (by rw [if_neg (by omega)]) ?_ ⟨_, rfl⟩
      rw [if_pos (by omega)]
      rcases ht with rfl | rfl <;> rfl
  · rename_i ht
    obtain ⟨i, hi, h⟩ : ∃ i, (if rev then mkMove route e (e - 1) else mkMove route a (a + 1)) = .ok i ∧ (.ok (l.push1 i) : Outcome _) = .ok l' := by cases rev <;> exact Outcome.bind_eq_ok.1 h
    cases h
    apply Only2.push1
    cases rev
    · rw [if_neg (by decide)] at hi
      obtain ⟨x, y, g1, g2, rfl⟩ := mkMove_some hi
      refine inPart a (by omega) (by omega) g1 g2 (r1 := .gone) (r2 := .made) ?_ (by rw [if_neg (by omega)]) ⟨_, rfl⟩
      rw [if_pos rfl]
      cases ty <;> simp at ht <;> rfl
    · rw [if_pos rfl] at hi
      obtain ⟨x, y, g1, g2, rfl⟩ := mkMove_some hi
      refine inPart (e - 1) (by omega) (by omega) g2 (by rw [Nat.sub_add_cancel (by omega)]; exact g1) (r1 := .made) (r2 := .gone) (by rw [if_neg (by omega)]) ?_ ⟨_, rfl⟩
      rw [if_pos (by omega)]
      cases ty <;> simp at ht <;> rfl

theorem compilePairs_part {s' e' off back : Nat} {p q : Option Nat} (hA : ∀ r, (ty = .prep ∨ ty = .split → r = .made) → (ty = .measure ∨ ty = .merge → r = .gone) →
      (s' = a → roleA ty rev = r) ∧ (e' = e → roleE ty rev = r)) (ha : a ≤ s') (he : e' ≤ e) :
    ∀ {js : List Nat} {l l' : Layers}, (∀ j ∈ js, s' ≤ j ∧ j < e') → compilePairs ty route s' e' off back p q js l = .ok l' → Part route ty a e rev l l'
  | [], l, l', _, h => by cases h; exact .refl _
  | j :: js, l, l', hj, h => by
    obtain ⟨j1, j2⟩ := hj j (by simp)
    rw [compilePairs] at h
    split at h
    · rename_i ht
      obtain ⟨i, hi, h⟩ := Outcome.bind_eq_ok.1 h
      refine Only2.trans ?_ (compilePairs_part hA ha he (fun j hj' => hj j (List.mem_cons_of_mem _ hj')) h)
      obtain ⟨x, y, g1, g2, rfl⟩ := mkPrepare_some hi
      have := hA .made (fun _ => rfl) (by rcases ht with rfl | rfl <;> simp)
      exact .push1 (inPart j (by omega) (by omega) g1 g2 (r1 := .made) (r2 := .made) (by split; exacts [this.1 (by omega), rfl]) (by split; exacts [this.2 (by omega), rfl]) ⟨_, _, .inl rfl⟩)
    · rename_i ht
      obtain ⟨i, hi, h⟩ := Outcome.bind_eq_ok.1 h
      refine Only2.trans ?_ (compilePairs_part hA ha he (fun j hj' => hj j (List.mem_cons_of_mem _ hj')) h)
      obtain ⟨x, y, g1, g2, rfl⟩ := mkMeasure_some hi
      have := hA .gone (fun h => absurd h ht) (fun _ => rfl)
      exact .push2 (inPart j (by omega) (by omega) g1 g2 (r1 := .gone) (r2 := .gone) (by split; exacts [this.1 (by omega), rfl]) (by split; exacts [this.2 (by omega), rfl]) (.inl rfl))

theorem compileBetween_part {s' e' off odd : Nat} {p q : Option Nat} : ∀ {js : List Nat} {l l' : Layers}, (∀ j ∈ js, a + 2 ≤ j ∧ j < e) →
    compileBetween ty route s' e' off odd rev p q js l = .ok l' → Part route ty a e rev l l'
  | [], l, l', _, h => by cases h; exact .refl _
  | j :: js, l, l', hj, h => by
    obtain ⟨j1, j2⟩ := hj j (by simp)
    obtain ⟨j, rfl⟩ : ∃ j', j = j' + 1 := ⟨j - 1, by omega⟩
    rw [compileBetween] at h
    simp only [Nat.add_sub_cancel] at h
    split at h
    · obtain ⟨i, hi, h⟩ := Outcome.bind_eq_ok.1 h
      refine Only2.trans ?_ (compileBetween_part (fun j hj' => hj j (List.mem_cons_of_mem _ hj')) h)
      obtain ⟨x, y, g1, g2, rfl⟩ := mkMeasure_some hi
      exact .push2 (inPart j (by omega) (by omega) g1 g2 (r1 := .gone) (r2 := .gone) (by rw [if_neg (by omega)]) (by rw [if_neg (by omega)]) (.inl rfl))
    · obtain ⟨i, hi, h⟩ := Outcome.bind_eq_ok.1 h
      refine Only2.trans ?_ (compileBetween_part (fun j hj' => hj j (List.mem_cons_of_mem _ hj')) h)
      obtain ⟨x, y, g1, g2, rfl⟩ := mkPrepare_some hi
      exact .push1 (inPart j (by omega) (by omega) g1 g2 (r1 := .made) (r2 := .made) (by rw [if_neg (by omega)]) (by rw [if_neg (by omega)]) ⟨_, _, .inl rfl⟩)

/-- What remains after the special treatment of a split or merge. -/
def Left (ty : LongRange) (a e : Nat) (rev : Bool) (s' e' : Nat) : Prop :=
  (ty = .prep ∨ ty = .measure) ∧ s' = a ∧ e' = e ∨ (ty = .split ∨ ty = .merge) ∧ (rev = true ∧ s' = a + 2 ∧ e' = e ∨ rev = false ∧ s' = a ∧ e' + 2 = e)

theorem compileSplit_part (h1 : a < e) {o : Option (Nat × Nat)} (h : compileSplit route a e (e - a + 1) rev l = .ok (l', o)) :
    Part route .split a e rev l l' ∧ ∀ s' e', o = some (s', e') → Left .split a e rev s' e' := by
  unfold compileSplit at h
  split at h
  · obtain ⟨i, hi, h⟩ : ∃ i, (if rev then mkExtend route a (a + 1) else mkExtend route e (e - 1)) = .ok i ∧ (.ok (l.push1 i, none) : Outcome _) = .ok (l', o) := by cases rev <;> exact Outcome.bind_eq_ok.1 h
    cases h
    refine ⟨.push1 ?_, by simp⟩
    cases rev
    · rw [if_neg (by decide)] at hi
      obtain ⟨x, y, g1, g2, rfl⟩ := mkExtend_some hi
      exact inPart (e - 1) (by omega) (by omega) g2 (by rw [Nat.sub_add_cancel (by omega)]; exact g1) (r1 := .made) (r2 := .kept) (by split <;> rfl) (by rw [if_pos (by omega)]; rfl) ⟨_, rfl⟩
    · rw [if_pos rfl] at hi
      obtain ⟨x, y, g1, g2, rfl⟩ := mkExtend_some hi
      exact inPart a (by omega) (by omega) g1 g2 (r1 := .kept) (r2 := .made) (by rw [if_pos rfl]; rfl) (by split <;> rfl) ⟨_, rfl⟩
  · rename_i hs
    split at h
    · rename_i hr; subst hr
      obtain ⟨i, hi, h⟩ := Outcome.bind_eq_ok.1 h
      obtain ⟨j, hj, h⟩ := Outcome.bind_eq_ok.1 h
      cases h
      obtain ⟨x, y, g1, g2, rfl⟩ := mkExtend_some hi
      obtain ⟨x', y', g3, g4, rfl⟩ := mkMeasure_some hj
      refine ⟨(Only2.push1 ?_).trans (.push2 ?_), ?_⟩
      · exact inPart a (by omega) (by omega) g1 g2 (r1 := .kept) (r2 := .made) (by rw [if_pos rfl]; rfl) (by split <;> rfl) ⟨_, rfl⟩
      · exact inPart (a + 1) (by omega) (by omega) g3 g4 (r1 := .gone) (r2 := .gone) (by rw [if_neg (by omega)]) (by rw [if_neg (by omega)]) (.inl rfl)
      · intro s' e' ho; cases ho; exact .inr ⟨.inl rfl, .inl ⟨rfl, rfl, rfl⟩⟩
    · rename_i hr
      obtain rfl : rev = false := by simpa using hr
      obtain ⟨i, hi, h⟩ := Outcome.bind_eq_ok.1 h
      obtain ⟨j, hj, h⟩ := Outcome.bind_eq_ok.1 h
      cases h
      obtain ⟨x, y, g1, g2, rfl⟩ := mkExtend_some hi
      obtain ⟨x', y', g3, g4, rfl⟩ := mkMeasure_some hj
      refine ⟨(Only2.push1 ?_).trans (.push2 ?_), ?_⟩
      · exact inPart (e - 1) (by omega) (by omega) g2 (by rw [Nat.sub_add_cancel (by omega)]; exact g1) (r1 := .made) (r2 := .kept) (by split <;> rfl) (by rw [if_pos (by omega)]; rfl) ⟨_, rfl⟩
      · exact inPart (e - 2) (by omega) (by omega) g4 (by rw [show e - 2 + 1 = e - 1 by omega]; exact g3) (r1 := .gone) (r2 := .gone) (by rw [if_neg (by omega)]) (by rw [if_neg (by omega)]) (.inr rfl)
      · intro s' e' ho; cases ho; exact .inr ⟨.inl rfl, .inr ⟨rfl, rfl, by omega⟩⟩

theorem compileMerge_part (h1 : a < e) {o : Option (Nat × Nat)} {p q : Option Nat} (h : compileMerge route a e (e - a + 1) rev p q l = .ok (l', o)) :
    Part route .merge a e rev l l' ∧ ∀ s' e', o = some (s', e') → Left .merge a e rev s' e' := by
  unfold compileMerge at h
  split at h
  · obtain ⟨i, hi, h⟩ : ∃ i, (if rev then mkContract route a (a + 1) else mkContract route e (e - 1)) = .ok i ∧ (.ok (l.push2 i, none) : Outcome _) = .ok (l', o) := by cases rev <;> exact Outcome.bind_eq_ok.1 h
    cases h
    refine ⟨.push2 ?_, by simp⟩
    cases rev
    · rw [if_neg (by decide)] at hi
      obtain ⟨x, y, g1, g2, rfl⟩ := mkContract_some hi
      exact inPart (e - 1) (by omega) (by omega) g2 (by rw [Nat.sub_add_cancel (by omega)]; exact g1) (r1 := .gone) (r2 := .kept) (by split <;> rfl) (by rw [if_pos (by omega)]; rfl) rfl
    · rw [if_pos rfl] at hi
      obtain ⟨x, y, g1, g2, rfl⟩ := mkContract_some hi
      exact inPart a (by omega) (by omega) g1 g2 (r1 := .kept) (r2 := .gone) (by rw [if_pos rfl]; rfl) (by split <;> rfl) rfl
  · rename_i hs
    split at h
    · rename_i hr; subst hr
      obtain ⟨i, hi, h⟩ := Outcome.bind_eq_ok.1 h
      obtain ⟨j, hj, h⟩ := Outcome.bind_eq_ok.1 h
      cases h
      obtain ⟨x, y, g1, g2, rfl⟩ := mkPrepare_some hi
      obtain ⟨x', y', g3, g4, rfl⟩ := mkContract_some hj
      refine ⟨(Only2.push1 ?_).trans (.push2 ?_), ?_⟩
      · exact inPart (a + 1) (by omega) (by omega) g1 g2 (r1 := .made) (r2 := .made) (by rw [if_neg (by omega)]) (by rw [if_neg (by omega)]) ⟨_, _, .inl rfl⟩
      · exact inPart a (by omega) (by omega) g3 g4 (r1 := .kept) (r2 := .gone) (by rw [if_pos rfl]; rfl) (by split <;> rfl) rfl
      · intro s' e' ho; cases ho; exact .inr ⟨.inr rfl, .inl ⟨rfl, rfl, rfl⟩⟩
    · rename_i hr
      obtain rfl : rev = false := by simpa using hr
      obtain ⟨i, hi, h⟩ := Outcome.bind_eq_ok.1 h
      obtain ⟨j, hj, h⟩ := Outcome.bind_eq_ok.1 h
      cases h
      obtain ⟨x, y, g1, g2, rfl⟩ := mkPrepare_some hi
      obtain ⟨x', y', g3, g4, rfl⟩ := mkContract_some hj
      refine ⟨(Only2.push1 ?_).trans (.push2 ?_), ?_⟩
      · exact inPart (e - 2) (by omega) (by omega) g2 (by rw [show e - 2 + 1 = e - 1 by omega]; exact g1) (r1 := .made) (r2 := .made) (by rw [if_neg (by omega)]) (by rw [if_neg (by omega)]) ⟨_, _, .inr rfl⟩
      · exact inPart (e - 1) (by omega) (by omega) g4 (by rw [Nat.sub_add_cancel (by omega)]; exact g3) (r1 := .gone) (r2 := .kept) (by split <;> rfl) (by rw [if_pos (by omega)]; rfl) rfl
      · intro s' e' ho; cases ho; exact .inr ⟨.inr rfl, .inr ⟨rfl, rfl, by omega⟩⟩

theorem compileEnd_part (h1 : a < e) {x : Layers × Option (Nat × Nat)} {p q : Option Nat} (h : compileEnd ty route a e (e - a + 1) rev p q l = .ok x) :
    Part route ty a e rev l x.1 ∧ ∀ s' e', x.2 = some (s', e') → Left ty a e rev s' e' := by
  obtain ⟨l', o⟩ := x
  cases ty with
  | prep => cases h; exact ⟨.refl _, fun _ _ e => by cases e; exact .inl ⟨.inl rfl, rfl, rfl⟩⟩
  | measure => cases h; exact ⟨.refl _, fun _ _ e => by cases e; exact .inl ⟨.inr rfl, rfl, rfl⟩⟩
  | split => exact compileSplit_part h1 h
  | merge => exact compileMerge_part h1 h

theorem compileRest_part (h1 : a < e) {p q : Option Nat} (h : compileRest ty route a e (e - a + 1) rev p q l = .ok l') : Part route ty a e rev l l' := by
  unfold compileRest at h
  dsimp only at h
  obtain ⟨x, hx, h⟩ := Outcome.bind_eq_ok.1 h
  obtain ⟨g1, g2⟩ := compileEnd_part h1 hx
  split at h
  · cases h; exact g1
  · rename_i s' e' ho
    have hl := g2 s' e' ho
    obtain ⟨l2, h3, h4⟩ := Outcome.bind_eq_ok.1 h
    have hle : a ≤ s' ∧ e' ≤ e := by
      rcases hl with ⟨-, rfl, rfl⟩ | ⟨-, ⟨-, rfl, rfl⟩ | ⟨-, rfl, e2⟩⟩ <;> omega
    refine (g1.trans (compilePairs_part ?_ hle.1 hle.2 ?_ h3)).trans (compileBetween_part ?_ h4)
    · intro r r1 r2
      rcases hl with ⟨rfl | rfl, rfl, rfl⟩ | ⟨rfl | rfl, ⟨rfl, rfl, rfl⟩ | ⟨rfl, rfl, e2⟩⟩
      · rw [r1 (.inl rfl)]; exact ⟨fun _ => rfl, fun _ => rfl⟩
      · rw [r2 (.inl rfl)]; exact ⟨fun _ => rfl, fun _ => rfl⟩
      · rw [r1 (.inr rfl)]; exact ⟨fun h => by omega, fun _ => rfl⟩
      · rw [r1 (.inr rfl)]; exact ⟨fun _ => rfl, fun h => by omega⟩
      · rw [r2 (.inr rfl)]; exact ⟨fun h => by omega, fun _ => rfl⟩
      · rw [r2 (.inr rfl)]; exact ⟨fun _ => rfl, fun h => by omega⟩
    · intro j hj
      have := mem_byTwo.1 hj
      omega
    · intro j hj
      have := mem_byTwo.1 hj
      omega

theorem compile_part (h1 : a < e) {p q : Option Nat} (h : compile ty route a e rev p q l = .ok l') : Part route ty a e rev l l' := by
  unfold compile at h
  split at h
  · cases h
  · split at h
    · obtain ⟨l1, h2, h3⟩ := Outcome.bind_eq_ok.1 h
      exact (compileMove_part (by omega) h2).trans (compileRest_part h1 h3)
    · exact compileRest_part h1 h

end

/-! ### The order of the operations -/

theorem touched_of_roles {u v : Cell} {i : LocalInstr} {r1 r2 : Role} (h : HasRoles u v i r1 r2) : touched i = [u, v] ∨ touched i = [v, u] := by
  cases r1 <;> cases r2 <;> simp only [HasRoles] at h
  · obtain ⟨p, q, rfl | rfl⟩ := h <;> simp [touched]
  · obtain ⟨n, rfl⟩ := h; simp [touched]
  · obtain ⟨n, rfl⟩ := h; simp [touched]
  · obtain ⟨n, rfl⟩ := h; simp [touched]
  · rcases h with rfl | rfl <;> simp [touched]
  · subst h; simp [touched]
  · obtain ⟨n, rfl⟩ := h; simp [touched]
  · subst h; simp [touched]

open Verif.Slices.Spec (nodup_get) in
theorem uses_unique {route : List Cell} (hn : route.Nodup) {i : LocalInstr} {k k' : Nat} (h : Uses route k i) (h' : Uses route k' i) : k = k' := by
  obtain ⟨a, b, e1, e2, e3⟩ := h
  obtain ⟨a', b', e1', e2', e3'⟩ := h'
  have hs : (a = a' ∧ b = b') ∨ (a = b' ∧ b = a') := by
    rcases e3 with e3 | e3 <;> rcases e3' with e3' | e3' <;> rw [e3] at e3' <;> simp at e3' <;> simp [e3']
  rcases hs with ⟨rfl, rfl⟩ | ⟨rfl, rfl⟩
  · exact nodup_get hn e1 e1'
  · have := nodup_get hn e1 e2'
    have := nodup_get hn e2 e1'
    omega

/-- The instructions at the given positions, with their roles and the layer. -/
inductive Placed (route : List Cell) (F : Nat → Spot) (t : Nat) : List Nat → List LocalInstr → Prop
  | nil : Placed route F t [] []
  | cons {k i ks is} : Fits route (fun k => (F k).lo) (fun k => (F k).hi) k i → (F k).τ = t → Placed route F t ks is → Placed route F t (k :: ks) (i :: is)

theorem Placed.append {route : List Cell} {F : Nat → Spot} {t : Nat} {ks ks' : List Nat} {is is' : List LocalInstr} (h : Placed route F t ks is) (h' : Placed route F t ks' is') :
    Placed route F t (ks ++ ks') (is ++ is') := by
  induction h with
  | nil => exact h'
  | cons h1 h2 _ ih => exact .cons h1 h2 ih

theorem Placed.congr {route : List Cell} {F G : Nat → Spot} {t : Nat} {ks : List Nat} {is : List LocalInstr} (h : Placed route F t ks is) (hg : ∀ k ∈ ks, F k = G k) :
    Placed route G t ks is := by
  induction h with
  | nil => exact .nil
  | cons h1 h2 _ ih =>
    have e := hg _ (List.mem_cons_self ..)
    refine .cons ?_ (by rw [← e]; exact h2) (ih fun k hk => hg k (List.mem_cons_of_mem _ hk))
    obtain ⟨u, v, a1, a2, a3⟩ := h1
    exact ⟨u, v, a1, a2, by dsimp only; rw [← e]; exact a3⟩

theorem placed_of {route : List Cell} (hn : route.Nodup) {F : Nat → Spot} {t : Nat} {lo hi : Nat → Role} {ks : List Nat} {is : List LocalInstr} (h : Along route ks is)
    (hp : ∀ i ∈ is, ∃ k, Fits route lo hi k i) (hF : ∀ k ∈ ks, F k = ⟨lo k, hi k, t⟩) : Placed route F t ks is := by
  induction h with
  | nil => exact .nil
  | cons hu hrest ih =>
    rename_i k i ks is
    refine .cons ?_ (by rw [hF k (by simp)]) (ih (fun i hi => hp i (List.mem_cons_of_mem _ hi)) fun k hk => hF k (List.mem_cons_of_mem _ hk))
    obtain ⟨k', u, v, a1, a2, a3⟩ := hp i (by simp)
    obtain rfl := uses_unique hn hu ⟨u, v, a1, a2, touched_of_roles a3⟩
    exact ⟨u, v, a1, a2, by dsimp only; rw [hF k (by simp)]; exact a3⟩

/-- The roles and times in a part of the route. -/
def seg (ty : LongRange) (a e : Nat) (rev : Bool) (t k : Nat) : Spot :=
  if k % 2 = par ty a e rev % 2 then ⟨loAt ty rev a .made k, hiAt ty rev e .made k, t⟩ else ⟨loAt ty rev a .gone k, hiAt ty rev e .gone k, t + 1⟩

theorem seg_inner {ty : LongRange} {a e : Nat} {rev : Bool} {t j : Nat} (h1 : a ≤ j) (h2 : j + 1 < e) :
    (seg ty a e rev t j).hi = .made ∧ (seg ty a e rev t (j + 1)).lo = .gone ∧ (seg ty a e rev t j).τ < (seg ty a e rev t (j + 1)).τ ∨
    (seg ty a e rev t j).hi = .gone ∧ (seg ty a e rev t (j + 1)).lo = .made ∧ (seg ty a e rev t (j + 1)).τ < (seg ty a e rev t j).τ := by
  unfold seg loAt hiAt
  by_cases hp : j % 2 = par ty a e rev % 2
  · have hq : ¬ (j + 1) % 2 = par ty a e rev % 2 := by omega
    rw [if_pos hp, if_neg hq]
    exact .inl ⟨if_neg (by omega), if_neg (by omega), by simp⟩
  · have hq : (j + 1) % 2 = par ty a e rev % 2 := by omega
    rw [if_neg hp, if_pos hq]
    exact .inr ⟨if_neg (by omega), if_neg (by omega), by simp⟩

theorem seg_lo (ty : LongRange) (a e : Nat) (rev : Bool) (t : Nat) : (seg ty a e rev t a).lo = roleA ty rev := by
  unfold seg loAt; split <;> simp

theorem seg_hi (ty : LongRange) (a e k : Nat) (rev : Bool) (t : Nat) (h : k + 1 = e) : (seg ty a e rev t k).hi = roleE ty rev := by
  unfold seg hiAt; split <;> simp [h]

theorem seg_time (ty : LongRange) (a e k : Nat) (rev : Bool) (t : Nat) : (seg ty a e rev t k).τ = t ∨ (seg ty a e rev t k).τ = t + 1 := by
  unfold seg; split <;> simp

/-- The layers of a part of the route. -/
structure Lays (route : List Cell) (F : Nat → Spot) (t : Nat) (k1 k2 : List Nat) (l l' : Layers) : Prop where
  l1 : ∃ x, l'.l1 = l.l1 ++ x ∧ Placed route F t k1 x
  l2 : ∃ x, l'.l2 = l.l2 ++ x ∧ Placed route F (t + 1) k2 x

theorem Lays.trans {route : List Cell} {F : Nat → Spot} {t : Nat} {a1 a2 b1 b2 : List Nat} {l l' l'' : Layers} (h : Lays route F t a1 a2 l l') (h' : Lays route F t b1 b2 l' l'') :
    Lays route F t (a1 ++ b1) (a2 ++ b2) l l'' := by
  obtain ⟨⟨a, e1, h1⟩, ⟨b, e2, h2⟩⟩ := h
  obtain ⟨⟨a', e1', h1'⟩, ⟨b', e2', h2'⟩⟩ := h'
  exact ⟨⟨a ++ a', by rw [e1', e1, List.append_assoc], h1.append h1'⟩, ⟨b ++ b', by rw [e2', e2, List.append_assoc], h2.append h2'⟩⟩

theorem compile_lays {ty : LongRange} {route : List Cell} (hn : route.Nodup) {a e : Nat} {rev : Bool} {p q : Option Nat} {l : Layers} {F : Nat → Spot} (t : Nat) (h1 : a < e)
    (h2 : e < route.length) (hF : ∀ k, a ≤ k → k < e → F k = seg ty a e rev t k) :
    ∃ l' k1 k2, compile ty route a e rev p q l = .ok l' ∧ Lays route F t k1 k2 l l' ∧ Edges a e (par ty a e rev) k1 ∧ Edges a e (par ty a e rev + 1) k2 := by
  obtain ⟨l', k1, k2, g1, ⟨⟨x, x1, x2⟩, ⟨y, y1, y2⟩⟩, g3, g4⟩ := compile_ok (ty := ty) (rev := rev) (p := p) (q := q) (l := l) h1 h2
  obtain ⟨⟨x', x1', x3⟩, ⟨y', y1', y3⟩⟩ := compile_part h1 g1
  obtain rfl : x = x' := List.append_cancel_left (x1.symm.trans x1')
  obtain rfl : y = y' := List.append_cancel_left (y1.symm.trans y1')
  refine ⟨l', k1, k2, g1, ⟨⟨x, x1, placed_of (lo := loAt ty rev a .made) (hi := hiAt ty rev e .made) hn x2 (fun i hi => ?_) fun k hk => ?_⟩, ⟨y, y1, placed_of (lo := loAt ty rev a .gone) (hi := hiAt ty rev e .gone) hn y2 (fun i hi => ?_) fun k hk => ?_⟩⟩, g3, g4⟩
  · obtain ⟨k, -, -, hk⟩ := x3 i hi; exact ⟨k, hk⟩
  · obtain ⟨b1, b2, b3⟩ := (g3.2 k).1 hk
    rw [hF k b1 b2, seg, if_pos b3]
  · obtain ⟨k, -, -, hk⟩ := y3 i hi; exact ⟨k, hk⟩
  · obtain ⟨b1, b2, b3⟩ := (g4.2 k).1 hk
    rw [hF k b1 b2, seg, if_neg (by omega)]

/-- What the two links at a cell do to it. -/
def Join (F : Nat → Spot) (j : Nat) : Prop :=
  (F j).hi = .made ∧ (F (j + 1)).lo = .gone ∧ (F j).τ < (F (j + 1)).τ ∨ (F j).hi = .gone ∧ (F (j + 1)).lo = .made ∧ (F (j + 1)).τ < (F j).τ

/-- Two parts of the route. -/
def glue (n : Nat) (F G : Nat → Spot) (k : Nat) : Spot := if k < n then F k else G k

theorem glue_lt {n k : Nat} {F G : Nat → Spot} (h : k < n) : glue n F G k = F k := if_pos h
theorem glue_ge {n k : Nat} {F G : Nat → Spot} (h : n ≤ k) : glue n F G k = G k := if_neg (by omega)

theorem glue_inner {n m : Nat} {F G : Nat → Spot} (hF : ∀ j, j + 1 < n → Join F j) (hG : ∀ j, n ≤ j → j + 1 < m → Join G j)
    (hj : 0 < n → n < m → ((F (n - 1)).hi = .made ∧ (G n).lo = .gone ∧ (F (n - 1)).τ < (G n).τ ∨ (F (n - 1)).hi = .gone ∧ (G n).lo = .made ∧ (G n).τ < (F (n - 1)).τ)) :
    ∀ j, j + 1 < m → Join (glue n F G) j := by
  intro j hm
  unfold Join
  by_cases h1 : j + 1 < n
  · rw [glue_lt h1, glue_lt (by omega)]; exact hF j h1
  · rw [glue_ge (by omega : n ≤ j + 1)]
    by_cases h2 : j + 1 = n
    · have := hj (by omega) (by omega)
      rw [glue_lt (by omega), h2]
      rw [show n - 1 = j by omega] at this
      exact this
    · rw [glue_ge (by omega : n ≤ j)]
      exact hG j (by omega) hm

theorem Placed.time {route : List Cell} {F : Nat → Spot} {t : Nat} {ks : List Nat} {is : List LocalInstr} (h : Placed route F t ks is) : ∀ k ∈ ks, (F k).τ = t := by
  induction h with
  | nil => simp
  | cons h1 h2 _ ih =>
    intro k hk
    rcases List.mem_cons.1 hk with rfl | hk
    · exact h2
    · exact ih k hk

/-- The instructions at the given positions. -/
inductive Fit (route : List Cell) (F : Nat → Spot) : List Nat → List LocalInstr → Prop
  | nil : Fit route F [] []
  | cons {k i ks is} : Fits route (fun k => (F k).lo) (fun k => (F k).hi) k i → Fit route F ks is → Fit route F (k :: ks) (i :: is)

theorem Placed.fit {route : List Cell} {F : Nat → Spot} {t : Nat} {ks : List Nat} {is : List LocalInstr} (h : Placed route F t ks is) : Fit route F ks is := by
  induction h with
  | nil => exact .nil
  | cons h1 _ _ ih => exact .cons h1 ih

theorem Fit.append {route : List Cell} {F : Nat → Spot} {ks ks' : List Nat} {is is' : List LocalInstr} (h : Fit route F ks is) (h' : Fit route F ks' is') :
    Fit route F (ks ++ ks') (is ++ is') := by
  induction h with
  | nil => exact h'
  | cons h1 _ ih => exact .cons h1 ih

theorem Fit.func {route : List Cell} {F : Nat → Spot} {ks : List Nat} {is : List LocalInstr} (h : Fit route F ks is) (hn : ks.Nodup) :
    ∃ ι : Nat → LocalInstr, is = ks.map ι ∧ ∀ k ∈ ks, Fits route (fun k => (F k).lo) (fun k => (F k).hi) k (ι k) := by
  induction h with
  | nil => exact ⟨fun _ => .bellMeasure ⟨0, 0⟩ ⟨0, 0⟩, rfl, by simp⟩
  | cons h1 hrest ih =>
    rename_i k i ks is
    obtain ⟨n1, n2⟩ := List.nodup_cons.1 hn
    obtain ⟨ι, e1, e2⟩ := ih n2
    refine ⟨fun j => if j = k then i else ι j, ?_, fun j hj => ?_⟩
    · rw [List.map_cons, if_pos rfl, e1]
      congr 1
      refine List.map_congr_left fun j hj => ?_
      rw [if_neg]
      rintro rfl
      exact n1 hj
    · rcases List.mem_cons.1 hj with rfl | hj'
      · dsimp only; rw [if_pos rfl]; exact h1
      · have : j ≠ k := by rintro rfl; exact n1 hj'
        dsimp only; rw [if_neg this]; exact e2 j hj'

/-- Four layers one after the other. -/
structure Layered (route : List Cell) (F : Nat → Spot) (n : Nat) (p : Phases) (a b c d : List Nat) : Prop where
  pa : Placed route F 0 a p.p1.l1
  pb : Placed route F 1 b p.p1.l2
  pc : Placed route F 2 c p.p2.l1
  pd : Placed route F 3 d p.p2.l2
  count : ∀ k, (a ++ b ++ c ++ d).count k = if k < n then 1 else 0

def cellOf (route : List Cell) (k : Nat) : Cell := (route[k]?).getD ⟨0, 0⟩

theorem cellOf_some {route : List Cell} {k : Nat} {c : Cell} (h : route[k]? = some c) : cellOf route k = c := by unfold cellOf; rw [h]; rfl

theorem Layered.net {route : List Cell} {F : Nat → Spot} {p : Phases} {a b c d : List Nat} (h : Layered route F (route.length - 1) p a b c d) (hn : route.Nodup) (hl : 2 ≤ route.length)
    (hj : ∀ j, j + 1 < route.length - 1 → Join F j) :
    ∃ (ks : List Nat) (ι : Nat → LocalInstr), p.p1.l1 ++ p.p1.l2 ++ p.p2.l1 ++ p.p2.l2 = ks.map ι ∧ Net (route.length - 1) (cellOf route) ks F ∧
      ∀ k, k < route.length - 1 → HasRoles (cellOf route k) (cellOf route (k + 1)) (ι k) (F k).lo (F k).hi := by
  have hperm : (a ++ b ++ c ++ d).Perm (List.range (route.length - 1)) := by
    rw [List.perm_iff_count]
    intro k
    rw [h.count k, List.count_range]
  have hnd : (a ++ b ++ c ++ d).Nodup := hperm.nodup_iff.2 List.nodup_range
  obtain ⟨ι, e1, e2⟩ := (((h.pa.fit.append h.pb.fit).append h.pc.fit).append h.pd.fit).func hnd
  have ta := h.pa.time
  have tb := h.pb.time
  have tc := h.pc.time
  have td := h.pd.time
  refine ⟨_, ι, e1, ⟨hperm, ?_, ?_, hj⟩, fun k hk => ?_⟩
  · have same : ∀ {ks : List Nat} {t : Nat}, (∀ k ∈ ks, (F k).τ = t) → ks.Pairwise fun x y => (F x).τ ≤ (F y).τ := by
      intro ks t ht
      induction ks with
      | nil => exact .nil
      | cons x xs ih =>
        refine List.pairwise_cons.2 ⟨fun y hy => ?_, ih fun k hk => ht k (List.mem_cons_of_mem _ hk)⟩
        rw [ht x (by simp), ht y (List.mem_cons_of_mem _ hy)]
    refine List.pairwise_append.2 ⟨List.pairwise_append.2 ⟨List.pairwise_append.2 ⟨same ta, same tb, ?_⟩, same tc, ?_⟩, same td, ?_⟩
    · intro x hx y hy; rw [ta x hx, tb y hy]; omega
    · intro x hx y hy
      rw [tc y hy]
      rcases List.mem_append.1 hx with hx | hx
      · rw [ta x hx]; omega
      · rw [tb x hx]; omega
    · intro x hx y hy
      rw [td y hy]
      rcases List.mem_append.1 hx with hx | hx
      · rcases List.mem_append.1 hx with hx | hx
        · rw [ta x hx]; omega
        · rw [tb x hx]; omega
      · rw [tc x hx]; omega
  · intro i j hi hj' e
    have e3 : route[i]? = some route[i] := List.getElem?_eq_getElem (by omega)
    have e4 : route[j]? = some route[j] := List.getElem?_eq_getElem (by omega)
    rw [cellOf_some e3, cellOf_some e4] at e
    rw [e] at e3
    exact Verif.Slices.Spec.nodup_get hn e3 e4
  · obtain ⟨u, v, g1, g2, g3⟩ := e2 k (hperm.mem_iff.2 (List.mem_range.2 hk))
    rw [cellOf_some g1, cellOf_some g2]
    exact g3

/-! ### Whole routes and segments -/

theorem lays_empty {route : List Cell} {F : Nat → Spot} {t : Nat} {k1 k2 : List Nat} {l : Layers} (h : Lays route F t k1 k2 {} l) :
    Placed route F t k1 l.l1 ∧ Placed route F (t + 1) k2 l.l2 := by
  obtain ⟨⟨x, x1, x2⟩, ⟨y, y1, y2⟩⟩ := h
  rw [x1, y1]
  exact ⟨x2, y2⟩

/-- The roles on a whole route with `n` cells. -/
def wholeSpot (n t k : Nat) : Spot :=
  ⟨if k = 0 then .kept else if k % 2 = 1 then .made else .gone, if k + 1 = n - 1 then .kept else if k % 2 = 1 then .made else .gone, if k % 2 = 1 then t else t + 1⟩

theorem par_merge_last {n : Nat} (h : 2 ≤ n) : par .merge (n - 2) (n - 1) false % 2 = (n - 1) % 2 := by
  simp only [par, early, Bool.false_eq_true, if_false]; split <;> omega

theorem par_split_last {n : Nat} (h : 2 ≤ n) : par .split (n - 2) (n - 1) false % 2 = n % 2 := by
  simp only [par, early, Bool.false_eq_true, if_false, if_true]; split <;> omega

theorem par_prep_mid {n : Nat} (h : 4 ≤ n) (hn : n % 2 = 0) : par .prep 1 (n - 2) true % 2 = 1 := by
  simp only [par, early, if_true]; split <;> omega

theorem par_merge_most {n : Nat} (h : 4 ≤ n) (hn : n % 2 ≠ 0) : par .merge 0 (n - 2) true % 2 = 1 := by
  simp only [par, early, Bool.false_eq_true, if_false, if_true]; split <;> omega

theorem whole_roles {n t : Nat} (h : 4 ≤ n) : (∀ j, j + 1 < n - 1 → Join (wholeSpot n t) j) ∧ (wholeSpot n t 0).lo = .kept ∧ (wholeSpot n t (n - 2)).hi = .kept := by
  refine ⟨fun j hj => ?_, rfl, by unfold wholeSpot; dsimp only; rw [if_pos (by omega)]⟩
  unfold Join wholeSpot
  dsimp only
  rw [if_neg (by omega : ¬ j + 1 = n - 1), if_neg (by omega : ¬ j + 1 = 0)]
  by_cases hp : j % 2 = 1
  · rw [if_pos hp, if_neg (by omega : ¬ (j + 1) % 2 = 1), if_pos hp, if_neg (by omega : ¬ (j + 1) % 2 = 1)]
    exact .inl ⟨rfl, rfl, by omega⟩
  · rw [if_neg hp, if_pos (by omega : (j + 1) % 2 = 1), if_neg hp, if_pos (by omega : (j + 1) % 2 = 1)]
    exact .inr ⟨rfl, rfl, by omega⟩

theorem spot_eq {ty : LongRange} {a e : Nat} {rev : Bool} {n t k : Nat} (hp : par ty a e rev % 2 = 1)
    (hA : k = a → roleA ty rev = (wholeSpot n t k).lo) (hE : k + 1 = e → roleE ty rev = (wholeSpot n t k).hi) (h0 : k ≠ a → k ≠ 0) (hl : k + 1 ≠ e → k + 1 ≠ n - 1) :
    wholeSpot n t k = seg ty a e rev t k := by
  have key : ∀ r : Role, (r = if k % 2 = 1 then Role.made else Role.gone) → (wholeSpot n t k).lo = loAt ty rev a r k ∧ (wholeSpot n t k).hi = hiAt ty rev e r k := by
    intro r hr
    subst hr
    unfold loAt hiAt
    constructor
    · split
      · rename_i hk; exact (hA hk).symm
      · rename_i hk; exact if_neg (h0 hk)
    · split
      · rename_i hk; exact (hE hk).symm
      · rename_i hk; exact if_neg (hl hk)
  unfold seg
  rw [hp]
  split
  · rename_i hk
    obtain ⟨k1, k2⟩ := key .made (by rw [if_pos hk])
    rw [← k1, ← k2]
    unfold wholeSpot
    simp only [if_pos hk]
  · rename_i hk
    obtain ⟨k1, k2⟩ := key .gone (by rw [if_neg hk])
    rw [← k1, ← k2]
    unfold wholeSpot
    simp only [if_neg hk]

theorem compileWhole_lays {c : BellCNOT} {route : List Cell} {l : Layers} (hn : route.Nodup) (h : 4 ≤ route.length) (t : Nat) :
    ∃ l' k1 k2, compileWhole c route l = .ok l' ∧ Lays route (wholeSpot route.length t) t k1 k2 l l' ∧ Edges 0 (route.length - 1) 1 k1 ∧ Edges 0 (route.length - 1) 0 k2 := by
  unfold compileWhole
  dsimp only
  by_cases hp : route.length % 2 = 0
  · rw [if_pos hp]
    have e1 : par .merge (route.length - 2) (route.length - 1) false % 2 = 1 := by rw [par_merge_last (by omega)]; omega
    have e2 : par .merge 0 1 true % 2 = 1 := by decide
    have e3 := par_prep_mid h hp
    obtain ⟨l1, a1, b1, f1, f2, f3, f4⟩ := compile_lays (ty := .merge) hn (a := route.length - 2) (e := route.length - 1) (rev := false)
      (p := none) (q := none) (l := l) (F := wholeSpot route.length t) t (by omega) (by omega) fun k hk1 hk2 => by
        obtain rfl : k = route.length - 2 := by omega
        refine spot_eq e1 (fun _ => ?_) (fun _ => ?_) (by omega) (by omega)
        · simp only [wholeSpot]; rw [if_neg (by omega), if_neg (by omega)]; rfl
        · simp only [wholeSpot]; rw [if_pos (by omega)]; rfl
    rw [f1, Outcome.bind_ok]
    obtain ⟨l2, a2, b2, g1, g2, g3, g4⟩ := compile_lays (ty := .merge) hn (a := 0) (e := 1) (rev := true)
      (p := none) (q := none) (l := l1) (F := wholeSpot route.length t) t (by omega) (by omega) fun k hk1 hk2 => by
        obtain rfl : k = 0 := by omega
        refine spot_eq e2 (fun _ => rfl) (fun _ => ?_) (by omega) (by omega)
        simp only [wholeSpot]; rw [if_neg (by omega)]; rfl
    rw [g1, Outcome.bind_ok]
    obtain ⟨l3, a3, b3, r1, r2, r3, r4⟩ := compile_lays (ty := .prep) hn (a := 1) (e := route.length - 2) (rev := true)
      (p := some c.side1) (q := some c.side2) (l := l2) (F := wholeSpot route.length t) t (by omega) (by omega) fun k hk1 hk2 => by
        refine spot_eq e3 (fun hk => ?_) (fun hk => ?_) (by omega) (by omega)
        · simp only [wholeSpot]; rw [if_neg (by omega), if_pos (by omega)]; rfl
        · simp only [wholeSpot]; rw [if_neg (by omega), if_pos (by omega)]; rfl
    refine ⟨l3, _, _, r1, (f2.trans g2).trans r2, ?_, ?_⟩
    · refine edges_perm (ks' := a2 ++ a3 ++ a1) ?_ ?_
      · have : (a1 ++ (a2 ++ a3)).Perm ((a2 ++ a3) ++ a1) := List.perm_append_comm
        simpa using this
      · exact ((g3.congr (c' := 1) (by omega)).join (r3.congr (by omega)) (by omega) (by omega)).join (f3.congr (by omega)) (by omega) (by omega)
    · refine edges_perm (ks' := b2 ++ b3 ++ b1) ?_ ?_
      · have : (b1 ++ (b2 ++ b3)).Perm ((b2 ++ b3) ++ b1) := List.perm_append_comm
        simpa using this
      · exact ((g4.congr (c' := 0) (by omega)).join (r4.congr (by omega)) (by omega) (by omega)).join (f4.congr (by omega)) (by omega) (by omega)
  · rw [if_neg hp]
    have e1 : par .split (route.length - 2) (route.length - 1) false % 2 = 1 := by rw [par_split_last (by omega)]; omega
    have e2 := par_merge_most h hp
    obtain ⟨l1, a1, b1, f1, f2, f3, f4⟩ := compile_lays (ty := .split) hn (a := route.length - 2) (e := route.length - 1) (rev := false)
      (p := none) (q := none) (l := l) (F := wholeSpot route.length t) t (by omega) (by omega) fun k hk1 hk2 => by
        obtain rfl : k = route.length - 2 := by omega
        refine spot_eq e1 (fun _ => ?_) (fun _ => ?_) (by omega) (by omega)
        · simp only [wholeSpot]; rw [if_neg (by omega), if_pos (by omega)]; rfl
        · simp only [wholeSpot]; rw [if_pos (by omega)]; rfl
    rw [f1, Outcome.bind_ok]
    obtain ⟨l2, a2, b2, g1, g2, g3, g4⟩ := compile_lays (ty := .merge) hn (a := 0) (e := route.length - 2) (rev := true)
      (p := some c.side1) (q := some c.side2) (l := l1) (F := wholeSpot route.length t) t (by omega) (by omega) fun k hk1 hk2 => by
        refine spot_eq e2 (fun hk => ?_) (fun hk => ?_) (by omega) (by omega)
        · simp only [wholeSpot]; rw [if_pos hk]; rfl
        · simp only [wholeSpot]; rw [if_neg (by omega), if_neg (by omega)]; rfl
    refine ⟨l2, _, _, g1, f2.trans g2, ?_, ?_⟩
    · exact edges_perm List.perm_append_comm ((g3.congr (c' := 1) (by omega)).join (f3.congr (by omega)) (by omega) (by omega))
    · exact edges_perm List.perm_append_comm ((g4.congr (c' := 0) (by omega)).join (f4.congr (by omega)) (by omega) (by omega))

theorem whole_count {n : Nat} {k1 k2 : List Nat} (h1 : Edges 0 n 1 k1) (h2 : Edges 0 n 0 k2) (k : Nat) : (k1 ++ k2).count k = if k < n then 1 else 0 := by
  rw [List.count_append, h1.count, h2.count]
  by_cases hk : k < n
  · by_cases hp : k % 2 = 1
    · rw [if_pos (by omega), if_neg (by omega), if_pos hk]
    · rw [if_neg (by omega), if_pos (by omega), if_pos hk]
  · rw [if_neg (by omega), if_neg (by omega), if_neg hk]

/-- The part of the route compiled so far, up to the cell `n`. -/
structure Sofar (route : List Cell) (F : Nat → Spot) (n : Nat) (p : Phases) : Prop where
  lay : ∃ a b c d, Layered route F n p a b c d
  inner : ∀ j, j + 1 < n → Join F j
  first : 0 < n → (F 0).lo = .kept

theorem count_more {n m e : Nat} {a b c d k1 k2 : List Nat} (hc : ∀ k, (a ++ b ++ c ++ d).count k = if k < n then 1 else 0) (hm : n < m) (h2 : Edges n m e k1)
    (h3 : Edges n m (e + 1) k2) (k : Nat) : a.count k + b.count k + c.count k + d.count k + (k1.count k + k2.count k) = if k < m then 1 else 0 := by
  have i1 := hc k
  have i2 := (h2.splits h3).2.2 k
  simp only [List.count_append] at i1 i2
  by_cases hk : k < n
  · rw [if_pos hk] at i1; rw [if_neg (by omega)] at i2; rw [if_pos (by omega)]; omega
  · rw [if_neg hk] at i1
    by_cases hk2 : k < m
    · rw [if_pos ⟨by omega, hk2⟩] at i2; rw [if_pos hk2]; omega
    · rw [if_neg (by omega)] at i2; rw [if_neg hk2]; omega

theorem Layered.lt {route : List Cell} {F : Nat → Spot} {n : Nat} {p : Phases} {a b c d : List Nat} (h : Layered route F n p a b c d) :
    (∀ k ∈ a, k < n) ∧ (∀ k ∈ b, k < n) ∧ (∀ k ∈ c, k < n) ∧ (∀ k ∈ d, k < n) := by
  have : ∀ k ∈ a ++ b ++ c ++ d, k < n := fun k hk => mem_lt_of_count h.count hk
  refine ⟨?_, ?_, ?_, ?_⟩ <;> intro k hk <;> exact this k (by simp [hk])

section
variable {route : List Cell} (hn : route.Nodup) {F : Nat → Spot} {n m : Nat} {p : Phases} {ty : LongRange} {rev : Bool} {x y : Option Nat}
include hn

theorem sofar1 (h : Sofar route F n p) (hm : n < m) (hl : m < route.length) (h0 : n = 0 → roleA ty rev = .kept) (h1 : 0 < n → roleA ty rev = .made)
    (hg : 0 < n → (F (n - 1)).hi = .gone ∧ 2 ≤ (F (n - 1)).τ) :
    ∃ l F', compile ty route n m rev x y p.p1 = .ok l ∧ Sofar route F' m { p with p1 := l } ∧ (F' (m - 1)).hi = roleE ty rev ∧ (F' (m - 1)).τ ≤ 1 := by
  obtain ⟨a, b, c, d, hlay⟩ := h.lay
  obtain ⟨l, k1, k2, g1, ⟨⟨u, u1, u2⟩, ⟨v, v1, v2⟩⟩, g3, g4⟩ := compile_lays (ty := ty) hn (rev := rev) (p := x) (q := y) (l := p.p1) (F := glue n F (seg ty n m rev 0)) 0 hm hl
    fun k hk1 hk2 => glue_ge hk1
  obtain ⟨la, lb, lc, ld⟩ := hlay.lt
  have same : ∀ {ks : List Nat}, (∀ k ∈ ks, k < n) → ∀ k ∈ ks, F k = glue n F (seg ty n m rev 0) k := fun hk k hm => (glue_lt (hk k hm)).symm
  have tm := seg_time ty n m (m - 1) rev 0
  have tn := seg_time ty n m n rev 0
  refine ⟨l, _, g1, ⟨⟨a ++ k1, b ++ k2, c, d, ?_, ?_, hlay.pc.congr (same lc), hlay.pd.congr (same ld), fun k => ?_⟩, ?_, fun _ => ?_⟩, ?_, ?_⟩
  · dsimp only; rw [u1]; exact (hlay.pa.congr (same la)).append u2
  · dsimp only; rw [v1]; exact (hlay.pb.congr (same lb)).append v2
  · have := count_more hlay.count hm g3 g4 k
    simp only [List.count_append]
    rw [← this]; omega
  · refine glue_inner h.inner (fun j hj1 hj2 => seg_inner hj1 hj2) fun hn0 _ => .inr ?_
    obtain ⟨q1, q2⟩ := hg hn0
    exact ⟨q1, by rw [seg_lo, h1 hn0], by omega⟩
  · rcases Nat.eq_zero_or_pos n with e | e
    · subst e; rw [glue_ge (Nat.le_refl 0), seg_lo, h0 rfl]
    · rw [glue_lt e]; exact h.first e
  · rw [glue_ge (by omega), seg_hi _ _ _ _ _ _ (by omega)]
  · rw [glue_ge (by omega)]; omega

theorem sofar2 (h : Sofar route F n p) (hm : n < m) (hl : m < route.length) (h0 : n = 0 → roleA ty rev = .kept) (h1 : 0 < n → roleA ty rev = .gone)
    (hg : 0 < n → (F (n - 1)).hi = .made ∧ (F (n - 1)).τ ≤ 1) :
    ∃ l F', compile ty route n m rev x y p.p2 = .ok l ∧ Sofar route F' m { p with p2 := l } ∧ (F' (m - 1)).hi = roleE ty rev ∧ 2 ≤ (F' (m - 1)).τ := by
  obtain ⟨a, b, c, d, hlay⟩ := h.lay
  obtain ⟨l, k1, k2, g1, ⟨⟨u, u1, u2⟩, ⟨v, v1, v2⟩⟩, g3, g4⟩ := compile_lays (ty := ty) hn (rev := rev) (p := x) (q := y) (l := p.p2) (F := glue n F (seg ty n m rev 2)) 2 hm hl
    fun k hk1 hk2 => glue_ge hk1
  obtain ⟨la, lb, lc, ld⟩ := hlay.lt
  have same : ∀ {ks : List Nat}, (∀ k ∈ ks, k < n) → ∀ k ∈ ks, F k = glue n F (seg ty n m rev 2) k := fun hk k hm => (glue_lt (hk k hm)).symm
  have tm := seg_time ty n m (m - 1) rev 2
  have tn := seg_time ty n m n rev 2
  refine ⟨l, _, g1, ⟨⟨a, b, c ++ k1, d ++ k2, hlay.pa.congr (same la), hlay.pb.congr (same lb), ?_, ?_, fun k => ?_⟩, ?_, fun _ => ?_⟩, ?_, ?_⟩
  · dsimp only; rw [u1]; exact (hlay.pc.congr (same lc)).append u2
  · dsimp only; rw [v1]; exact (hlay.pd.congr (same ld)).append v2
  · have := count_more hlay.count hm g3 g4 k
    simp only [List.count_append]
    rw [← this]; omega
  · refine glue_inner h.inner (fun j hj1 hj2 => seg_inner hj1 hj2) fun hn0 _ => .inl ?_
    obtain ⟨q1, q2⟩ := hg hn0
    exact ⟨q1, by rw [seg_lo, h1 hn0], by omega⟩
  · rcases Nat.eq_zero_or_pos n with e | e
    · subst e; rw [glue_ge (Nat.le_refl 0), seg_lo, h0 rfl]
    · rw [glue_lt e]; exact h.first e
  · rw [glue_ge (by omega), seg_hi _ _ _ _ _ _ (by omega)]
  · rw [glue_ge (by omega)]; omega

/-- What must hold of the last link before a segment with the given label. -/
def Before (F : Nat → Spot) (n : Nat) (lab : BoundaryType) : Prop :=
  0 < n → (lab = .reserved1 → (F (n - 1)).hi = .gone ∧ 2 ≤ (F (n - 1)).τ) ∧ (lab = .reserved2 → (F (n - 1)).hi = .made ∧ (F (n - 1)).τ ≤ 1)

theorem compileSegment_sofar {cn : BellCNOT} {last k : Nat} {lab lab' lab2 : BoundaryType} (h : Sofar route F n p) (hb : Before F n lab) (hm : n < m) (hl : m < route.length)
    (hk : k = 0 ↔ n = 0) (hlast : 0 < last) (hlab : lab = .reserved1 ∨ lab = .reserved2) (hne : lab2 ≠ lab) :
    ∃ p' F', compileSegment cn route last k (n, lab) (m, lab') p = .ok p' ∧ Sofar route F' m p' ∧ (k = last → (F' (m - 1)).hi = .kept) ∧ (k ≠ last → Before F' m lab2) := by
  rcases hlab with rfl | rfl
  · simp only [compileSegment]
    have hg := fun h0 => (hb h0).1 rfl
    by_cases k0 : k = 0
    · obtain ⟨l, F', g1, g2, g3, g4⟩ := sofar1 (ty := .split) (rev := true) (x := none) (y := some cn.side2) hn h hm hl (fun _ => rfl) (fun h0 => by have := hk.1 k0; omega) hg
      rw [if_pos k0, g1, Outcome.bind_ok]
      refine ⟨_, F', rfl, g2, by omega, fun _ _ => ⟨fun e => absurd e hne, fun _ => ⟨g3, g4⟩⟩⟩
    · rw [if_neg k0]
      by_cases k1 : k = last
      · obtain ⟨l, F', g1, g2, g3, g4⟩ := sofar1 (ty := .split) (rev := false) (x := none) (y := some cn.side1) hn h hm hl (fun h0 => absurd (hk.2 h0) k0) (fun _ => rfl) hg
        rw [if_pos k1, g1, Outcome.bind_ok]
        exact ⟨_, F', rfl, g2, fun _ => g3, fun h => absurd k1 h⟩
      · obtain ⟨l, F', g1, g2, g3, g4⟩ := sofar1 (ty := .prep) (rev := false) (x := none) (y := none) hn h hm hl (fun h0 => absurd (hk.2 h0) k0) (fun _ => rfl) hg
        rw [if_neg k1, g1, Outcome.bind_ok]
        exact ⟨_, F', rfl, g2, fun h => absurd h k1, fun _ _ => ⟨fun e => absurd e hne, fun _ => ⟨g3, g4⟩⟩⟩
  · simp only [compileSegment]
    have hg := fun h0 => (hb h0).2 rfl
    by_cases k0 : k = 0
    · obtain ⟨l, F', g1, g2, g3, g4⟩ := sofar2 (ty := .merge) (rev := true) (x := none) (y := none) hn h hm hl (fun _ => rfl) (fun h0 => by have := hk.1 k0; omega) hg
      rw [if_pos k0, g1, Outcome.bind_ok]
      refine ⟨_, F', rfl, g2, by omega, fun _ _ => ⟨fun _ => ⟨g3, g4⟩, fun e => absurd e hne⟩⟩
    · rw [if_neg k0]
      by_cases k1 : k = last
      · obtain ⟨l, F', g1, g2, g3, g4⟩ := sofar2 (ty := .merge) (rev := false) (x := none) (y := none) hn h hm hl (fun h0 => absurd (hk.2 h0) k0) (fun _ => rfl) hg
        rw [if_pos k1, g1, Outcome.bind_ok]
        exact ⟨_, F', rfl, g2, fun _ => g3, fun h => absurd k1 h⟩
      · obtain ⟨l, F', g1, g2, g3, g4⟩ := sofar2 (ty := .measure) (rev := false) (x := none) (y := none) hn h hm hl (fun h0 => absurd (hk.2 h0) k0) (fun _ => rfl) hg
        rw [if_neg k1, g1, Outcome.bind_ok]
        exact ⟨_, F', rfl, g2, fun h => absurd h k1, fun _ _ => ⟨fun _ => ⟨g3, g4⟩, fun e => absurd e hne⟩⟩

omit hn in
theorem segs_ne {N : Nat} {z : Nat × BoundaryType} {es : List (Nat × BoundaryType)} (h : Segs N z es) : 0 < es.length := by cases h <;> simp

theorem compileSegments_sofar {cn : BellCNOT} {last N : Nat} (hN : N < route.length) (hlast : 0 < last) : ∀ {es : List (Nat × BoundaryType)} {z : Nat × BoundaryType} {k : Nat}
    {F : Nat → Spot} {p : Phases}, Segs N z es → k + es.length = last + 1 → Sofar route F z.1 p → Before F z.1 z.2 → (k = 0 ↔ z.1 = 0) →
    (∀ y ∈ z :: es, y.2 = .reserved1 ∨ y.2 = .reserved2) →
    ∃ p' F', compileSegments cn route last (z :: es) k p = .ok p' ∧ Sofar route F' N p' ∧ (F' (N - 1)).hi = .kept := by
  intro es z k F p hs
  induction hs generalizing k F p with
  | last h =>
    intro hlen h1 h2 hk hl
    simp only [List.length_cons, List.length_nil] at hlen
    obtain ⟨p', F', g1, g2, g3, -⟩ := compileSegment_sofar (cn := cn) (last := last) (k := k) (lab' := _) (lab2 := .none) hn h1 h2 h hN hk hlast (hl _ (by simp))
      (by intro e; have := hl _ (List.mem_cons_self ..); rw [← e] at this; simp at this)
    rw [compileSegments, g1, Outcome.bind_ok]
    exact ⟨p', F', rfl, g2, g3 (by omega)⟩
  | more ha hb hc ih =>
    intro hlen h1 h2 hk hl
    have hlt := hc.lt
    have hpos := segs_ne hc
    simp only [List.length_cons] at hlen
    obtain ⟨p', F', g1, g2, -, g4⟩ := compileSegment_sofar (cn := cn) (last := last) (k := k) (lab' := _) hn h1 h2 ha (by dsimp only at hlt; omega) hk hlast (hl _ (by simp)) hb
    rw [compileSegments, g1, Outcome.bind_ok]
    exact ih (by omega) g2 (g4 (by omega)) (by dsimp only at ha ⊢; omega) fun y hy => hl y (List.mem_cons_of_mem _ hy)

/-- The phases of an EDPC instruction. -/
theorem compileEdpc_sofar {cn : BellCNOT} {s : DSlice} {e : List (Nat × BoundaryType) × BoundaryType} {p : Phases} (h : endpoints s route = .ok e) (hlen : 4 ≤ route.length)
    (hp : compileEdpc cn route e.1 e.2 = .ok p) : ∃ F, Sofar route F (route.length - 1) p ∧ (F (route.length - 2)).hi = .kept := by
  have hl := compileEdpc_labels h hp
  obtain ⟨ty, es, e1, e2, -⟩ := endpoints_ok h
  have whole : ∀ t, t = 0 ∨ t = 2 → ∃ l k1 k2, compileWhole cn route {} = .ok l ∧ Placed route (wholeSpot route.length t) t k1 l.l1 ∧ Placed route (wholeSpot route.length t) (t + 1) k2 l.l2 ∧
      ∀ k, (k1 ++ k2).count k = if k < route.length - 1 then 1 else 0 := by
    intro t _
    obtain ⟨l, k1, k2, g1, g2, g3, g4⟩ := compileWhole_lays (c := cn) (l := {}) hn hlen t
    obtain ⟨i1, i2⟩ := lays_empty g2
    exact ⟨l, k1, k2, g1, i1, i2, fun k => whole_count g3 g4 k⟩
  unfold compileEdpc at hp
  split at hp
  · obtain ⟨l, k1, k2, g1, g2, g3, g4⟩ := whole 0 (.inl rfl)
    obtain ⟨w1, w2, w3⟩ := whole_roles (t := 0) hlen
    rw [g1, Outcome.bind_ok] at hp
    cases hp
    exact ⟨_, ⟨⟨k1, k2, [], [], g2, g3, .nil, .nil, fun k => by simpa using g4 k⟩, w1, fun _ => w2⟩, w3⟩
  · split at hp
    · obtain ⟨l, k1, k2, g1, g2, g3, g4⟩ := whole 2 (.inr rfl)
      obtain ⟨w1, w2, w3⟩ := whole_roles (t := 2) hlen
      rw [g1, Outcome.bind_ok] at hp
      cases hp
      exact ⟨_, ⟨⟨[], [], k1, k2, .nil, .nil, g2, g3, fun k => by simpa using g4 k⟩, w1, fun _ => w2⟩, w3⟩
    · rename_i c1 c2
      rw [e1] at hp hl
      have hes : 2 ≤ es.length := by
        cases es with
        | nil => cases e2
        | cons y ys =>
          cases ys with
          | nil =>
            exfalso
            cases e2 with
            | last h0 =>
              match route, h with
              | a :: b :: rest, h =>
                rw [endpoints] at h
                obtain ⟨ty', q1, h⟩ := Outcome.bind_eq_ok.1 h
                obtain ⟨z, q2, h⟩ := Outcome.bind_eq_ok.1 h
                simp only [Outcome.ok.injEq] at h
                subst h
                simp only [List.cons_append, List.cons.injEq] at e1
                obtain ⟨e3, e4⟩ := e1
                have : z.1 = [] := by
                  cases hz : z.1 with
                  | nil => rfl
                  | cons q r => rw [hz] at e4; simp at e4
                rw [this] at e4
                simp only [List.nil_append, List.cons.injEq, Prod.mk.injEq, and_true] at e4
                have hlen2 : ((0, ty') :: z.1 ++ [((a :: b :: rest).length - 1, z.2)]).length = 2 := by rw [this]; rfl
                rcases hl (0, ty) (by simp) with h' | h'
                · exact c1 ⟨hlen2, by rw [e4.2]; exact h'⟩
                · exact c2 ⟨hlen2, by rw [e4.2]; exact h'⟩
            | more _ _ h3 => cases h3
          | cons _ _ => simp
      have hel : e.1.length - 2 = es.length - 1 := by rw [e1]; simp
      obtain ⟨p', F', g1, g2, g3⟩ := compileSegments_sofar (cn := cn) (last := e.1.length - 2) (k := 0) (F := fun _ => ⟨.kept, .kept, 0⟩) (p := {}) hn (by omega : route.length - 1 < route.length)
        (by omega) e2 (by omega) ⟨⟨[], [], [], [], .nil, .nil, .nil, .nil, by simp⟩, by simp, by simp⟩ (by intro h0; simp at h0) (by simp) hl
      rw [e1] at g1
      rw [g1] at hp
      cases hp
      exact ⟨F', g2, by rw [show route.length - 2 = route.length - 1 - 1 by omega]; exact g3⟩

end

end Verif.Apply
