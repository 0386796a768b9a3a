import Verif.SliceIds

/-!
# Long-range Bell operations: lemmas

`compile` uses each pair of consecutive cells of its part of the route exactly once, in one layer the pairs of one
parity and in the other layer those of the other.
-/

namespace Verif.Apply

open Verif

/-- The cells a local instruction acts on. -/
def touched : LocalInstr → List Cell
  | .prepareY _ c => [c]
  | .bellPrepare _ _ a b => [a, b]
  | .bellMeasure a b => [a, b]
  | .move a b _ => [a, b]
  | .twoPatchMeasure a b => [a, b]
  | .extendSplit _ a b => [a, b]
  | .mergeContract a b => [a, b]

/-- The instruction acts on the cells at positions `k` and `k + 1`. -/
def Uses (route : List Cell) (k : Nat) (i : LocalInstr) : Prop :=
  ∃ a b, route[k]? = some a ∧ route[k + 1]? = some b ∧ (touched i = [a, b] ∨ touched i = [b, a])

/-- The instructions act on the pairs at the given positions. -/
inductive Along (route : List Cell) : List Nat → List LocalInstr → Prop
  | nil : Along route [] []
  | cons {k i ks is} : Uses route k i → Along route ks is → Along route (k :: ks) (i :: is)

theorem Along.append {route : List Cell} {ks ks' : List Nat} {is is' : List LocalInstr} (h : Along route ks is) (h' : Along route ks' is') :
    Along route (ks ++ ks') (is ++ is') := by
  induction h with
  | nil => exact h'
  | cons h0 _ ih => exact .cons h0 ih

theorem Along.single {route : List Cell} {k : Nat} {i : LocalInstr} (h : Uses route k i) : Along route [k] [i] := .cons h .nil

theorem cellAt_ok {route : List Cell} {k : Nat} (h : k < route.length) : cellAt route k = .ok route[k] := by
  unfold cellAt
  rw [List.getElem?_eq_getElem h]

theorem two_ok {route : List Cell} {k : Nat} (h : k + 1 < route.length) (f : Cell → Cell → LocalInstr) (hf : ∀ a b, touched (f a b) = [a, b]) :
    (∃ i, (do let a ← cellAt route k; let b ← cellAt route (k + 1); .ok (f a b) : Outcome LocalInstr) = .ok i ∧ Uses route k i) ∧
    (∃ i, (do let a ← cellAt route (k + 1); let b ← cellAt route k; .ok (f a b) : Outcome LocalInstr) = .ok i ∧ Uses route k i) := by
  rw [cellAt_ok h, cellAt_ok (by omega : k < route.length)]
  simp only [Outcome.bind_ok]
  have e1 : route[k]? = some route[k] := List.getElem?_eq_getElem (by omega)
  have e2 : route[k + 1]? = some route[k + 1] := List.getElem?_eq_getElem h
  exact ⟨⟨_, rfl, _, _, e1, e2, .inl (hf _ _)⟩, ⟨_, rfl, _, _, e1, e2, .inr (hf _ _)⟩⟩

theorem mkMove_ok {route : List Cell} {k : Nat} (h : k + 1 < route.length) :
    (∃ i, mkMove route k (k + 1) = .ok i ∧ Uses route k i) ∧ (∃ i, mkMove route (k + 1) k = .ok i ∧ Uses route k i) :=
  two_ok h (fun a b => .move a b none) fun _ _ => rfl

theorem mkExtend_ok {route : List Cell} {k : Nat} (h : k + 1 < route.length) :
    (∃ i, mkExtend route k (k + 1) = .ok i ∧ Uses route k i) ∧ (∃ i, mkExtend route (k + 1) k = .ok i ∧ Uses route k i) :=
  two_ok h (fun a b => .extendSplit none a b) fun _ _ => rfl

theorem mkMeasure_ok {route : List Cell} {k : Nat} (h : k + 1 < route.length) :
    (∃ i, mkMeasure route k (k + 1) = .ok i ∧ Uses route k i) ∧ (∃ i, mkMeasure route (k + 1) k = .ok i ∧ Uses route k i) :=
  two_ok h (fun a b => .bellMeasure a b) fun _ _ => rfl

theorem mkContract_ok {route : List Cell} {k : Nat} (h : k + 1 < route.length) :
    (∃ i, mkContract route k (k + 1) = .ok i ∧ Uses route k i) ∧ (∃ i, mkContract route (k + 1) k = .ok i ∧ Uses route k i) :=
  two_ok h (fun a b => .mergeContract a b) fun _ _ => rfl

theorem mkPrepare_ok {route : List Cell} {k : Nat} (h : k + 1 < route.length) (p q : Option Nat) :
    (∃ i, mkPrepare route p q k (k + 1) = .ok i ∧ Uses route k i) ∧ (∃ i, mkPrepare route p q (k + 1) k = .ok i ∧ Uses route k i) :=
  two_ok h (fun a b => .bellPrepare p q a b) fun _ _ => rfl

/-- What is added to the two layers: pairs at the positions `k1` and `k2`. -/
structure Adds (route : List Cell) (k1 k2 : List Nat) (l l' : Layers) : Prop where
  l1 : ∃ a, l'.l1 = l.l1 ++ a ∧ Along route k1 a
  l2 : ∃ b, l'.l2 = l.l2 ++ b ∧ Along route k2 b

theorem Adds.refl (route : List Cell) (l : Layers) : Adds route [] [] l l := ⟨⟨[], by simp, .nil⟩, ⟨[], by simp, .nil⟩⟩

theorem Adds.trans {route : List Cell} {a1 a2 b1 b2 : List Nat} {l l' l'' : Layers} (h : Adds route a1 a2 l l') (h' : Adds route b1 b2 l' l'') :
    Adds route (a1 ++ b1) (a2 ++ b2) l l'' := by
  obtain ⟨⟨a, e1, h1⟩, ⟨b, e2, h2⟩⟩ := h
  obtain ⟨⟨a', e1', h1'⟩, ⟨b', e2', h2'⟩⟩ := h'
  exact ⟨⟨a ++ a', by rw [e1', e1, List.append_assoc], h1.append h1'⟩, ⟨b ++ b', by rw [e2', e2, List.append_assoc], h2.append h2'⟩⟩

theorem adds_push1 {route : List Cell} {k : Nat} {i : LocalInstr} (h : Uses route k i) (l : Layers) : Adds route [k] [] l (l.push1 i) :=
  ⟨⟨[i], rfl, .single h⟩, ⟨[], by simp [Layers.push1], .nil⟩⟩

theorem adds_push2 {route : List Cell} {k : Nat} {i : LocalInstr} (h : Uses route k i) (l : Layers) : Adds route [] [k] l (l.push2 i) :=
  ⟨⟨[], by simp [Layers.push2], .nil⟩, ⟨[i], rfl, .single h⟩⟩

theorem mem_byTwo {a e j : Nat} : j ∈ byTwo a e ↔ a ≤ j ∧ j < e ∧ (j - a) % 2 = 0 := by
  unfold byTwo
  simp only [List.mem_map, List.mem_range]
  constructor
  · rintro ⟨i, hi, rfl⟩; omega
  · rintro ⟨h1, h2, h3⟩; exact ⟨(j - a) / 2, by omega, by omega⟩

/-- The two kinds: in one the pairs of a Bell pair chain are prepared first, in the other they are measured last. -/
def early : LongRange → Bool
  | .prep => true
  | .split => true
  | _ => false

theorem early_iff (ty : LongRange) : (ty = .prep ∨ ty = .split) ↔ early ty = true := by cases ty <;> simp [early]

theorem compilePairs_ok {ty : LongRange} {route : List Cell} {a e off back : Nat} {p q : Option Nat} : ∀ {js : List Nat} {l : Layers},
    (∀ j ∈ js, j + 1 < route.length) → ∃ l', compilePairs ty route a e off back p q js l = .ok l' ∧
      Adds route (if early ty then js else []) (if early ty then [] else js) l l'
  | [], l, _ => ⟨l, rfl, by split <;> exact .refl _ _⟩
  | j :: js, l, h => by
    rw [compilePairs]
    by_cases ht : ty = .prep ∨ ty = .split
    · rw [if_pos ht]
      have he := (early_iff ty).1 ht
      obtain ⟨⟨i, h1, h2⟩, -⟩ := mkPrepare_ok (h j (by simp)) (if j = a + off then q else none) (if j = e - 1 - back then p else none)
      rw [h1, Outcome.bind_ok]
      obtain ⟨l', h3, h4⟩ := compilePairs_ok (l := l.push1 i) fun j hj => h j (List.mem_cons_of_mem _ hj)
      refine ⟨l', h3, ?_⟩
      have := (adds_push1 h2 l).trans h4
      simpa [he] using this
    · rw [if_neg ht]
      have he : early ty = false := by rw [early_iff] at ht; simpa using ht
      obtain ⟨⟨i, h1, h2⟩, -⟩ := mkMeasure_ok (h j (by simp))
      rw [h1, Outcome.bind_ok]
      obtain ⟨l', h3, h4⟩ := compilePairs_ok (l := l.push2 i) fun j hj => h j (List.mem_cons_of_mem _ hj)
      refine ⟨l', h3, ?_⟩
      have := (adds_push2 h2 l).trans h4
      simpa [he] using this

theorem compileBetween_ok {ty : LongRange} {route : List Cell} {a e off odd : Nat} {rev : Bool} {p q : Option Nat} : ∀ {js : List Nat} {l : Layers},
    (∀ j ∈ js, 1 ≤ j ∧ j < route.length) → ∃ l', compileBetween ty route a e off odd rev p q js l = .ok l' ∧
      Adds route (if early ty then [] else js.map (· - 1)) (if early ty then js.map (· - 1) else []) l l'
  | [], l, _ => ⟨l, rfl, by split <;> exact .refl _ _⟩
  | j :: js, l, h => by
    rw [compileBetween]
    obtain ⟨hj1, hj2⟩ := h j (by simp)
    obtain ⟨j', rfl⟩ : ∃ j', j = j' + 1 := ⟨j - 1, by omega⟩
    simp only [Nat.add_sub_cancel]
    by_cases ht : ty = .prep ∨ ty = .split
    · rw [if_pos ht]
      have he := (early_iff ty).1 ht
      obtain ⟨⟨i, h1, h2⟩, -⟩ := mkMeasure_ok (k := j') hj2
      rw [h1, Outcome.bind_ok]
      obtain ⟨l', h3, h4⟩ := compileBetween_ok (l := l.push2 i) fun j hj => h j (List.mem_cons_of_mem _ hj)
      refine ⟨l', h3, ?_⟩
      have := (adds_push2 h2 l).trans h4
      simpa [he] using this
    · rw [if_neg ht]
      have he : early ty = false := by rw [early_iff] at ht; simpa using ht
      obtain ⟨⟨i, h1, h2⟩, -⟩ := mkPrepare_ok (k := j') hj2 (if rev = false ∧ j' + 1 = a + 2 + off then q else none) (if rev = true ∧ j' + 1 = e - 1 - odd then p else none)
      rw [h1, Outcome.bind_ok]
      obtain ⟨l', h3, h4⟩ := compileBetween_ok (l := l.push1 i) fun j hj => h j (List.mem_cons_of_mem _ hj)
      refine ⟨l', h3, ?_⟩
      have := (adds_push1 h2 l).trans h4
      simpa [he] using this

theorem compileMove_ok {ty : LongRange} {route : List Cell} {a e : Nat} {rev : Bool} {l : Layers} (h1 : a < e) (h2 : e < route.length) :
    ∃ l', compileMove ty route a e rev l = .ok l' ∧
      Adds route (if early ty then [] else [if rev then e - 1 else a]) (if early ty then [if rev then e - 1 else a] else []) l l' := by
  obtain ⟨e', rfl⟩ : ∃ e', e = e' + 1 := ⟨e - 1, by omega⟩
  unfold compileMove
  simp only [Nat.add_sub_cancel]
  by_cases ht : ty = .prep ∨ ty = .split
  · rw [if_pos ht]
    have he := (early_iff ty).1 ht
    cases rev
    · obtain ⟨-, ⟨i, g1, g2⟩⟩ := mkMove_ok (route := route) (k := a) (by omega)
      simp only [g1, he, Outcome.bind_ok, Bool.false_eq_true, if_false, if_true]
      exact ⟨_, rfl, adds_push2 g2 l⟩
    · obtain ⟨⟨i, g1, g2⟩, -⟩ := mkMove_ok (route := route) (k := e') (by omega)
      simp only [g1, he, Outcome.bind_ok, if_true]
      exact ⟨_, rfl, adds_push2 g2 l⟩
  · rw [if_neg ht]
    have he : early ty = false := by rw [early_iff] at ht; simpa using ht
    cases rev
    · obtain ⟨⟨i, g1, g2⟩, -⟩ := mkMove_ok (route := route) (k := a) (by omega)
      simp only [g1, he, Outcome.bind_ok, Bool.false_eq_true, if_false]
      exact ⟨_, rfl, adds_push1 g2 l⟩
    · obtain ⟨-, ⟨i, g1, g2⟩⟩ := mkMove_ok (route := route) (k := e') (by omega)
      simp only [g1, he, Outcome.bind_ok, if_true, Bool.false_eq_true, if_false]
      exact ⟨_, rfl, adds_push1 g2 l⟩

/-- The positions used by the special treatment of a split or merge, and the rest of the range. -/
theorem compileEnd_ok {ty : LongRange} {route : List Cell} {a e : Nat} {rev : Bool} {p q : Option Nat} {l : Layers} (h1 : a < e) (h2 : e < route.length) :
    ∃ l' k1 k2 o, compileEnd ty route a e (e - a + 1) rev p q l = .ok (l', o) ∧ Adds route k1 k2 l l' ∧
      ((ty = .prep ∨ ty = .measure) ∧ k1 = [] ∧ k2 = [] ∧ o = some (a, e) ∨
       ty = .split ∧ (e = a + 1 ∨ e = a + 2) ∧ k1 = [if rev then a else e - 1] ∧ k2 = [] ∧ o = none ∨
       ty = .merge ∧ (e = a + 1 ∨ e = a + 2) ∧ k1 = [] ∧ k2 = [if rev then a else e - 1] ∧ o = none ∨
       ty = .split ∧ a + 3 ≤ e ∧ k1 = [if rev then a else e - 1] ∧ k2 = [if rev then a + 1 else e - 2] ∧ o = some (if rev then (a + 2, e) else (a, e - 2)) ∨
       ty = .merge ∧ a + 3 ≤ e ∧ k1 = [if rev then a + 1 else e - 2] ∧ k2 = [if rev then a else e - 1] ∧ o = some (if rev then (a + 2, e) else (a, e - 2))) := by
  cases ty with
  | prep => exact ⟨l, [], [], _, rfl, .refl _ _, .inl ⟨by simp, rfl, rfl, rfl⟩⟩
  | measure => exact ⟨l, [], [], _, rfl, .refl _ _, .inl ⟨by simp, rfl, rfl, rfl⟩⟩
  | split =>
    simp only [compileEnd, compileSplit]
    by_cases hs : e - a + 1 = 2 ∨ e - a + 1 = 3
    · rw [if_pos hs]
      obtain ⟨e', rfl⟩ : ∃ e', e = e' + 1 := ⟨e - 1, by omega⟩
      simp only [Nat.add_sub_cancel]
      cases rev
      · obtain ⟨-, ⟨i, g1, g2⟩⟩ := mkExtend_ok (route := route) (k := e') (by omega)
        simp only [g1, Outcome.bind_ok, Bool.false_eq_true, if_false]
        exact ⟨_, _, _, _, rfl, adds_push1 g2 l, .inr (.inl ⟨trivial, by omega, rfl, rfl, rfl⟩)⟩
      · obtain ⟨⟨i, g1, g2⟩, -⟩ := mkExtend_ok (route := route) (k := a) (by omega)
        simp only [g1, Outcome.bind_ok, if_true]
        exact ⟨_, _, _, _, rfl, adds_push1 g2 l, .inr (.inl ⟨trivial, by omega, rfl, rfl, rfl⟩)⟩
    · rw [if_neg hs]
      cases rev
      · obtain ⟨e', rfl⟩ : ∃ e', e = e' + 2 := ⟨e - 2, by omega⟩
        obtain ⟨-, ⟨i, g1, g2⟩⟩ := mkExtend_ok (route := route) (k := e' + 1) (by omega)
        obtain ⟨-, ⟨j, f1, f2⟩⟩ := mkMeasure_ok (route := route) (k := e') (by omega)
        have e1 : e' + 2 - 1 = e' + 1 := by omega
        have e2 : e' + 2 - 2 = e' := by omega
        simp only [e1, e2, g1, f1, Outcome.bind_ok, Bool.false_eq_true, if_false]
        exact ⟨_, _, _, _, rfl, (adds_push1 g2 l).trans (adds_push2 f2 _), .inr (.inr (.inr (.inl ⟨trivial, by omega, rfl, rfl, rfl⟩)))⟩
      · obtain ⟨⟨i, g1, g2⟩, -⟩ := mkExtend_ok (route := route) (k := a) (by omega)
        obtain ⟨⟨j, f1, f2⟩, -⟩ := mkMeasure_ok (route := route) (k := a + 1) (by omega)
        simp only [g1, f1, Outcome.bind_ok, if_true]
        exact ⟨_, _, _, _, rfl, (adds_push1 g2 l).trans (adds_push2 f2 _), .inr (.inr (.inr (.inl ⟨trivial, by omega, rfl, rfl, rfl⟩)))⟩
  | merge =>
    simp only [compileEnd, compileMerge]
    by_cases hs : e - a + 1 = 2 ∨ e - a + 1 = 3
    · rw [if_pos hs]
      obtain ⟨e', rfl⟩ : ∃ e', e = e' + 1 := ⟨e - 1, by omega⟩
      simp only [Nat.add_sub_cancel]
      cases rev
      · obtain ⟨-, ⟨i, g1, g2⟩⟩ := mkContract_ok (route := route) (k := e') (by omega)
        simp only [g1, Outcome.bind_ok, Bool.false_eq_true, if_false]
        exact ⟨_, _, _, _, rfl, adds_push2 g2 l, .inr (.inr (.inl ⟨trivial, by omega, rfl, rfl, rfl⟩))⟩
      · obtain ⟨⟨i, g1, g2⟩, -⟩ := mkContract_ok (route := route) (k := a) (by omega)
        simp only [g1, Outcome.bind_ok, if_true]
        exact ⟨_, _, _, _, rfl, adds_push2 g2 l, .inr (.inr (.inl ⟨trivial, by omega, rfl, rfl, rfl⟩))⟩
    · rw [if_neg hs]
      cases rev
      · obtain ⟨e', rfl⟩ : ∃ e', e = e' + 2 := ⟨e - 2, by omega⟩
        obtain ⟨-, ⟨i, g1, g2⟩⟩ := mkPrepare_ok (route := route) (k := e') (by omega) p none
        obtain ⟨-, ⟨j, f1, f2⟩⟩ := mkContract_ok (route := route) (k := e' + 1) (by omega)
        have e1 : e' + 2 - 1 = e' + 1 := by omega
        have e2 : e' + 2 - 2 = e' := by omega
        simp only [e1, e2, g1, f1, Outcome.bind_ok, Bool.false_eq_true, if_false]
        exact ⟨_, _, _, _, rfl, (adds_push1 g2 l).trans (adds_push2 f2 _), .inr (.inr (.inr (.inr ⟨trivial, by omega, rfl, rfl, rfl⟩)))⟩
      · obtain ⟨⟨i, g1, g2⟩, -⟩ := mkPrepare_ok (route := route) (k := a + 1) (by omega) q none
        obtain ⟨⟨j, f1, f2⟩, -⟩ := mkContract_ok (route := route) (k := a) (by omega)
        simp only [g1, f1, Outcome.bind_ok, if_true]
        exact ⟨_, _, _, _, rfl, (adds_push1 g2 l).trans (adds_push2 f2 _), .inr (.inr (.inr (.inr ⟨trivial, by omega, rfl, rfl, rfl⟩)))⟩

/-- The positions from `a` to `e - 1` of one parity. -/
def Edges (a e p : Nat) (ks : List Nat) : Prop := ks.Nodup ∧ ∀ k, k ∈ ks ↔ a ≤ k ∧ k < e ∧ k % 2 = p % 2

theorem nodup_between (a e : Nat) (h : 1 ≤ a) : ((byTwo a e).map (· - 1)).Nodup := by
  refine List.Pairwise.map _ ?_ (List.Pairwise.and_mem.1 (DSlice.nodup_byTwo a e))
  rintro x y ⟨hx, hy, hne⟩ e
  have := (mem_byTwo.1 hx).1
  have := (mem_byTwo.1 hy).1
  omega

theorem mem_between {a e j : Nat} (h : 1 ≤ a) : j ∈ (byTwo a e).map (· - 1) ↔ a ≤ j + 1 ∧ j + 1 < e ∧ (j + 1 - a) % 2 = 0 := by
  simp only [List.mem_map, mem_byTwo]
  constructor
  · rintro ⟨i, hi, rfl⟩; omega
  · intro hj; exact ⟨j + 1, hj, by omega⟩

theorem compileRest_ok {ty : LongRange} {route : List Cell} {a e : Nat} {rev : Bool} {p q : Option Nat} {l : Layers} (h1 : a < e) (h2 : e < route.length) :
    ∃ l' k1 k2 d1 d2 o, compileRest ty route a e (e - a + 1) rev p q l = .ok l' ∧ Adds route (k1 ++ d1) (k2 ++ d2) l l' ∧
      ((ty = .prep ∨ ty = .measure) ∧ k1 = [] ∧ k2 = [] ∧ o = some (a, e) ∨
       ty = .split ∧ (e = a + 1 ∨ e = a + 2) ∧ k1 = [if rev then a else e - 1] ∧ k2 = [] ∧ o = none ∨
       ty = .merge ∧ (e = a + 1 ∨ e = a + 2) ∧ k1 = [] ∧ k2 = [if rev then a else e - 1] ∧ o = none ∨
       ty = .split ∧ a + 3 ≤ e ∧ k1 = [if rev then a else e - 1] ∧ k2 = [if rev then a + 1 else e - 2] ∧ o = some (if rev then (a + 2, e) else (a, e - 2)) ∨
       ty = .merge ∧ a + 3 ≤ e ∧ k1 = [if rev then a + 1 else e - 2] ∧ k2 = [if rev then a else e - 1] ∧ o = some (if rev then (a + 2, e) else (a, e - 2))) ∧
      (o = none ∧ d1 = [] ∧ d2 = [] ∨ ∃ a' e', o = some (a', e') ∧
        d1 = (if early ty then byTwo (a' + if rev then 0 else (e - a + 1) % 2) e' else (byTwo (a' + 2 + if rev then 0 else (e - a + 1) % 2) e').map (· - 1)) ∧
        d2 = (if early ty then (byTwo (a' + 2 + if rev then 0 else (e - a + 1) % 2) e').map (· - 1) else byTwo (a' + if rev then 0 else (e - a + 1) % 2) e')) := by
  obtain ⟨l', k1, k2, o, g1, g2, g3⟩ := compileEnd_ok (ty := ty) (rev := rev) (p := p) (q := q) (l := l) h1 h2
  unfold compileRest
  rw [g1, Outcome.bind_ok]
  rcases o with _ | ⟨a', e'⟩
  · exact ⟨l', k1, k2, [], [], none, rfl, by simpa using g2, g3, .inl ⟨rfl, rfl, rfl⟩⟩
  · have he : e' < route.length := by
      rcases g3 with ⟨-, -, -, g⟩ | ⟨-, -, -, -, g⟩ | ⟨-, -, -, -, g⟩ | ⟨-, -, -, -, g⟩ | ⟨-, -, -, -, g⟩
      · simp only [Option.some.injEq, Prod.mk.injEq] at g; omega
      · cases g
      · cases g
      all_goals
        cases rev <;> simp only [Option.some.injEq, Prod.mk.injEq, Bool.false_eq_true, if_false, if_true] at g <;> omega
    dsimp only
    obtain ⟨l2, f1, f2⟩ := compilePairs_ok (ty := ty) (route := route) (a := a') (e := e') (off := if rev then 0 else (e - a + 1) % 2)
      (back := if rev then (e - a + 1) % 2 else 0) (p := p) (q := q) (js := byTwo (a' + if rev then 0 else (e - a + 1) % 2) e') (l := l') (by
        intro j hj; have := mem_byTwo.1 hj; omega)
    rw [f1, Outcome.bind_ok]
    obtain ⟨l3, r1, r2⟩ := compileBetween_ok (ty := ty) (route := route) (a := a') (e := e') (off := if rev then 0 else (e - a + 1) % 2)
      (odd := (e - a + 1) % 2) (rev := rev) (p := p) (q := q) (js := byTwo (a' + 2 + if rev then 0 else (e - a + 1) % 2) e') (l := l2) (by
        intro j hj; have := mem_byTwo.1 hj; omega)
    refine ⟨l3, k1, k2, _, _, _, r1, g2.trans (f2.trans r2), g3, .inr ⟨a', e', rfl, ?_, ?_⟩⟩ <;> cases early ty <;> simp

theorem nodup_between2 (a e : Nat) : ((byTwo (a + 2) e).map (· - 1)).Nodup := nodup_between _ _ (by omega)
theorem nodup_between3 (a e : Nat) : ((byTwo (a + 2 + 1) e).map (· - 1)).Nodup := nodup_between _ _ (by omega)

theorem mem_between2 {a e j : Nat} : j ∈ (byTwo (a + 2) e).map (· - 1) ↔ a + 2 ≤ j + 1 ∧ j + 1 < e ∧ (j + 1 - (a + 2)) % 2 = 0 := mem_between (by omega)
theorem mem_between3 {a e j : Nat} : j ∈ (byTwo (a + 2 + 1) e).map (· - 1) ↔ a + 2 + 1 ≤ j + 1 ∧ j + 1 < e ∧ (j + 1 - (a + 2 + 1)) % 2 = 0 :=
  mem_between (by omega)

theorem edges_intro {a e c : Nat} {ks : List Nat} (h1 : ks.Nodup) (h2 : ∀ k, k ∈ ks ↔ a ≤ k ∧ k < e ∧ k % 2 = c % 2) : Edges a e c ks := ⟨h1, h2⟩

local macro "edges" : tactic => `(tactic| (
  refine ⟨edges_intro ?_ ?_, edges_intro ?_ ?_⟩
  all_goals
    simp only [List.nil_append, List.append_nil, List.nodup_append, List.nodup_cons, List.not_mem_nil, not_false_eq_true, List.nodup_nil, and_self,
      DSlice.nodup_byTwo, nodup_between2, nodup_between3, List.mem_append, List.mem_singleton, List.mem_cons, or_false, mem_byTwo, mem_between2, mem_between3, true_and,
      false_or, forall_eq, ne_eq, and_true]
  all_goals first
    | done
    | (intros; omega)
    | (refine ⟨?_, ?_⟩ <;> (intros; omega))
    | (intro k; constructor <;> intro hk <;> first | exact hk.elim | omega)))

/-- The parity of the positions in the first layer. -/
def par (ty : LongRange) (a e : Nat) (rev : Bool) : Nat :=
  if (e - a + 1) % 2 = 1 then (if early ty then (if rev then a else a + 1) else (if rev then a + 1 else a))
  else if early ty then a else a + 1

/-- `compile` on a proper range of the route. -/
theorem compile_ok {ty : LongRange} {route : List Cell} {a e : Nat} {rev : Bool} {p q : Option Nat} {l : Layers} (h1 : a < e) (h2 : e < route.length) :
    ∃ l' k1 k2, compile ty route a e rev p q l = .ok l' ∧ Adds route k1 k2 l l' ∧ Edges a e (par ty a e rev) k1 ∧ Edges a e (par ty a e rev + 1) k2 := by
  unfold compile
  rw [if_neg (by omega)]
  unfold par
  by_cases ho : (e - a + 1) % 2 = 1
  · rw [if_pos ho]
    obtain ⟨l1, g1, g2⟩ := compileMove_ok (ty := ty) (rev := rev) (l := l) h1 h2
    rw [g1, Outcome.bind_ok]
    obtain ⟨l2, k1, k2, d1, d2, o, f1, f2, f3, f4⟩ := compileRest_ok (ty := ty) (rev := rev) (p := p) (q := q) (l := l1) h1 h2
    refine ⟨l2, _, _, f1, g2.trans f2, ?_⟩
    rw [if_pos ho]
    rw [ho] at f4
    cases ty <;> cases rev <;>
      simp only [early, reduceCtorEq, false_and, true_and, or_false, false_or, or_self, Bool.false_eq_true, if_false, if_true, Nat.add_zero, and_self] at f3 f4 ⊢
    all_goals
      first
        | (obtain ⟨rfl, rfl, rfl⟩ := f3
           rcases f4 with ⟨h, -, -⟩ | ⟨_, _, h, rfl, rfl⟩
           · cases h
           · simp only [Option.some.injEq, Prod.mk.injEq] at h
             obtain ⟨rfl, rfl⟩ := h
             edges)
        | (rcases f3 with ⟨hs, rfl, rfl, rfl⟩ | ⟨hs, rfl, rfl, rfl⟩
           · rcases f4 with ⟨-, rfl, rfl⟩ | ⟨_, _, h, -, -⟩
             · edges
             · cases h
           · rcases f4 with ⟨h, -, -⟩ | ⟨_, _, h, rfl, rfl⟩
             · cases h
             · simp only [Option.some.injEq, Prod.mk.injEq] at h
               obtain ⟨rfl, rfl⟩ := h
               edges)
  · rw [if_neg ho]
    obtain ⟨l2, k1, k2, d1, d2, o, f1, f2, f3, f4⟩ := compileRest_ok (ty := ty) (rev := rev) (p := p) (q := q) (l := l) h1 h2
    refine ⟨l2, _, _, f1, f2, ?_⟩
    rw [if_neg ho]
    rw [show (e - a + 1) % 2 = 0 by omega] at f4
    cases ty <;> cases rev <;>
      simp only [early, reduceCtorEq, false_and, true_and, or_false, false_or, or_self, Bool.false_eq_true, if_false, if_true, Nat.add_zero, and_self] at f3 f4 ⊢
    all_goals
      first
        | (obtain ⟨rfl, rfl, rfl⟩ := f3
           rcases f4 with ⟨h, -, -⟩ | ⟨_, _, h, rfl, rfl⟩
           · cases h
           · simp only [Option.some.injEq, Prod.mk.injEq] at h
             obtain ⟨rfl, rfl⟩ := h
             edges)
        | (rcases f3 with ⟨hs, rfl, rfl, rfl⟩ | ⟨hs, rfl, rfl, rfl⟩
           · rcases f4 with ⟨-, rfl, rfl⟩ | ⟨_, _, h, -, -⟩
             · edges
             · cases h
           · rcases f4 with ⟨h, -, -⟩ | ⟨_, _, h, rfl, rfl⟩
             · cases h
             · simp only [Option.some.injEq, Prod.mk.injEq] at h
               obtain ⟨rfl, rfl⟩ := h
               edges)

/-! ### Whole routes -/

/-- Positions no two of which have a cell in common. -/
def Apart (ks : List Nat) : Prop := ks.Pairwise fun a b => a + 2 ≤ b ∨ b + 2 ≤ a

/-- Two lists of positions that together are the positions from `a` to `e - 1`, each once. -/
def Splits (a e : Nat) (k1 k2 : List Nat) : Prop := Apart k1 ∧ Apart k2 ∧ ∀ k, (k1 ++ k2).count k = if a ≤ k ∧ k < e then 1 else 0

theorem Edges.apart {a e c : Nat} {ks : List Nat} (h : Edges a e c ks) : Apart ks := by
  refine (List.Pairwise.and_mem.1 h.1).imp ?_
  rintro x y ⟨hx, hy, hn⟩
  have := (h.2 x).1 hx
  have := (h.2 y).1 hy
  omega

theorem Edges.count {a e c : Nat} {ks : List Nat} (h : Edges a e c ks) (k : Nat) : ks.count k = if a ≤ k ∧ k < e ∧ k % 2 = c % 2 then 1 else 0 := by
  split
  · rename_i hk
    have h1 := List.nodup_iff_count.1 h.1 k
    have h2 := List.count_pos_iff.2 ((h.2 k).2 hk)
    omega
  · rename_i hk
    exact List.count_eq_zero.2 fun hm => hk ((h.2 k).1 hm)

theorem Edges.splits {a e c : Nat} {k1 k2 : List Nat} (h1 : Edges a e c k1) (h2 : Edges a e (c + 1) k2) : Splits a e k1 k2 := by
  refine ⟨h1.apart, h2.apart, fun k => ?_⟩
  rw [List.count_append, h1.count, h2.count]
  by_cases hk : a ≤ k ∧ k < e
  · by_cases hp : k % 2 = c % 2
    · rw [if_pos ⟨hk.1, hk.2, hp⟩, if_neg (by omega), if_pos hk]
    · rw [if_neg (by omega), if_pos ⟨hk.1, hk.2, by omega⟩, if_pos hk]
  · rw [if_neg (by omega), if_neg (by omega), if_neg hk]

theorem edges_perm {a e c : Nat} {ks ks' : List Nat} (h : ks.Perm ks') (h' : Edges a e c ks') : Edges a e c ks :=
  ⟨h.nodup_iff.2 h'.1, fun k => by rw [h.mem_iff]; exact h'.2 k⟩

theorem edges_single {a e c k : Nat} (h1 : a ≤ k) (h2 : k < e) (h3 : k % 2 = c % 2) (h4 : e = a + 1) : Edges a e c [k] :=
  ⟨by simp, fun j => by simp only [List.mem_singleton]; omega⟩

theorem Edges.join {a e b c : Nat} {ks ks' : List Nat} (h : Edges a b c ks) (h' : Edges b e c ks') (h1 : a ≤ b) (h2 : b ≤ e) : Edges a e c (ks ++ ks') := by
  refine ⟨List.nodup_append.2 ⟨h.1, h'.1, fun x hx y hy => ?_⟩, fun k => ?_⟩
  · have := (h.2 x).1 hx; have := (h'.2 y).1 hy; omega
  · rw [List.mem_append, h.2, h'.2]; omega

theorem Edges.congr {a e c c' : Nat} {ks : List Nat} (h : Edges a e c ks) (hc : c % 2 = c' % 2) : Edges a e c' ks :=
  ⟨h.1, fun k => by rw [h.2 k, hc]⟩

theorem compileWhole_ok {c : BellCNOT} {route : List Cell} {l : Layers} (h : 4 ≤ route.length) :
    ∃ l' k1 k2, compileWhole c route l = .ok l' ∧ Adds route k1 k2 l l' ∧ Edges 0 (route.length - 1) 1 k1 ∧ Edges 0 (route.length - 1) 0 k2 := by
  unfold compileWhole
  dsimp only
  by_cases hn : route.length % 2 = 0
  · rw [if_pos hn]
    obtain ⟨l1, a1, b1, f1, f2, f3, f4⟩ := compile_ok (ty := .merge) (route := route) (a := route.length - 2) (e := route.length - 1) (rev := false)
      (p := none) (q := none) (l := l) (by omega) (by omega)
    rw [f1, Outcome.bind_ok]
    obtain ⟨l2, a2, b2, g1, g2, g3, g4⟩ := compile_ok (ty := .merge) (route := route) (a := 0) (e := 1) (rev := true)
      (p := none) (q := none) (l := l1) (by omega) (by omega)
    rw [g1, Outcome.bind_ok]
    obtain ⟨l3, a3, b3, r1, r2, r3, r4⟩ := compile_ok (ty := .prep) (route := route) (a := 1) (e := route.length - 2) (rev := true)
      (p := some c.side1) (q := some c.side2) (l := l2) (by omega) (by omega)
    have e1 : par .merge (route.length - 2) (route.length - 1) false % 2 = 1 := by
      simp only [par, early, Bool.false_eq_true, if_false]; split <;> omega
    have e2 : par .merge 0 1 true % 2 = 1 := by decide
    have e3 : par .prep 1 (route.length - 2) true % 2 = 1 := by
      simp only [par, early, if_true]; split <;> omega
    refine ⟨l3, _, _, r1, (f2.trans g2).trans r2, ?_, ?_⟩
    · refine edges_perm (ks' := a2 ++ a3 ++ a1) ?_ ?_
      · have : (a1 ++ (a2 ++ a3)).Perm ((a2 ++ a3) ++ a1) := List.perm_append_comm
        simpa using this
      · exact ((g3.congr (c' := 1) (by omega)).join (r3.congr (by omega)) (by omega) (by omega)).join (f3.congr (by omega)) (by omega) (by omega)
    · refine edges_perm (ks' := b2 ++ b3 ++ b1) ?_ ?_
      · have : (b1 ++ (b2 ++ b3)).Perm ((b2 ++ b3) ++ b1) := List.perm_append_comm
        simpa using this
      · exact ((g4.congr (c' := 0) (by omega)).join (r4.congr (by omega)) (by omega) (by omega)).join (f4.congr (by omega)) (by omega) (by omega)
  · rw [if_neg hn]
    obtain ⟨l1, a1, b1, f1, f2, f3, f4⟩ := compile_ok (ty := .split) (route := route) (a := route.length - 2) (e := route.length - 1) (rev := false)
      (p := none) (q := none) (l := l) (by omega) (by omega)
    rw [f1, Outcome.bind_ok]
    obtain ⟨l2, a2, b2, g1, g2, g3, g4⟩ := compile_ok (ty := .merge) (route := route) (a := 0) (e := route.length - 2) (rev := true)
      (p := some c.side1) (q := some c.side2) (l := l1) (by omega) (by omega)
    have e1 : par .split (route.length - 2) (route.length - 1) false % 2 = 1 := by
      simp only [par, early, Bool.false_eq_true, if_false, if_true]; split <;> omega
    have e2 : par .merge 0 (route.length - 2) true % 2 = 1 := by
      simp only [par, early, Bool.false_eq_true, if_false, if_true]; split <;> omega
    refine ⟨l2, _, _, g1, f2.trans g2, ?_, ?_⟩
    · exact edges_perm List.perm_append_comm ((g3.congr (c' := 1) (by omega)).join (f3.congr (by omega)) (by omega) (by omega))
    · exact edges_perm List.perm_append_comm ((g4.congr (c' := 0) (by omega)).join (f4.congr (by omega)) (by omega) (by omega))

/-! ### Routes in segments -/

/-- The segments after position `a` with label `ty`, up to position `n`. -/
inductive Segs (n : Nat) : Nat × BoundaryType → List (Nat × BoundaryType) → Prop
  | last {a ty} : a < n → Segs n (a, ty) [(n, ty)]
  | more {a ty b ty' rest} : a < b → ty' ≠ ty → Segs n (b, ty') rest → Segs n (a, ty) ((b, ty') :: rest)

theorem Segs.lt {n : Nat} {a : Nat × BoundaryType} {es : List (Nat × BoundaryType)} (h : Segs n a es) : a.1 < n := by
  induction h with
  | last h => exact h
  | more h _ _ ih => exact Nat.lt_trans h ih

theorem segs_later {n : Nat} {a b : Nat} {ty : BoundaryType} {es : List (Nat × BoundaryType)} (h : Segs n (a, ty) es) (hb : b ≤ a) : Segs n (b, ty) es := by
  cases h with
  | last h => exact .last (by omega)
  | more h1 h2 h3 => exact .more (by omega) h2 h3

theorem endpointsGo_ok {s : DSlice} : ∀ {rest : List Cell} {c : Cell} {k : Nat} {cur : BoundaryType} {x : List (Nat × BoundaryType) × BoundaryType},
    endpointsGo s (c :: rest) (k + 1) cur = .ok x → Segs (k + 1 + rest.length) (k, cur) (x.1 ++ [(k + 1 + rest.length, x.2)])
  | [], c, k, cur, x, h => by
    simp only [endpointsGo, Outcome.ok.injEq] at h
    subst h
    exact .last (by simp)
  | d :: rest, c, k, cur, x, h => by
    rw [endpointsGo] at h
    obtain ⟨ty, h1, h⟩ := Outcome.bind_eq_ok.1 h
    obtain ⟨y, h2, h⟩ := Outcome.bind_eq_ok.1 h
    have ih := endpointsGo_ok h2
    simp only [Outcome.ok.injEq] at h
    rw [show k + 1 + 1 + rest.length = k + 1 + (d :: rest).length by simp; omega] at ih
    by_cases ht : ty = cur
    · subst ht
      rw [if_neg (by simp)] at h
      subst h
      exact segs_later ih (by omega)
    · rw [if_pos ht] at h
      subst h
      exact .more (by omega) ht ih

theorem endpoints_ok {s : DSlice} {route : List Cell} {x : List (Nat × BoundaryType) × BoundaryType} (h : endpoints s route = .ok x) :
    ∃ ty es, x.1 = (0, ty) :: es ∧ Segs (route.length - 1) (0, ty) es ∧ 2 ≤ route.length := by
  match route, h with
  | a :: b :: rest, h =>
    rw [endpoints] at h
    obtain ⟨ty, h1, h⟩ := Outcome.bind_eq_ok.1 h
    obtain ⟨y, h2, h⟩ := Outcome.bind_eq_ok.1 h
    have := endpointsGo_ok (k := 0) h2
    simp only [Outcome.ok.injEq] at h
    subst h
    rw [show 0 + 1 + rest.length = (a :: b :: rest).length - 1 by simp; omega] at this
    exact ⟨ty, _, rfl, this, by simp⟩

/-- The four layers of the two phases, and the positions they use. -/
structure Phased (route : List Cell) (p : Phases) (a b c d : List Nat) : Prop where
  a : Along route a p.p1.l1
  b : Along route b p.p1.l2
  c : Along route c p.p2.l1
  d : Along route d p.p2.l2

/-- State of the loop over the segments before the segment at `x`. -/
structure Upto (route : List Cell) (p : Phases) (n : Nat) (ty : BoundaryType) (a b c d : List Nat) : Prop where
  ph : Phased route p a b c d
  apart : Apart a ∧ Apart b ∧ Apart c ∧ Apart d
  count : ∀ k, (a ++ b ++ c ++ d).count k = if k < n then 1 else 0
  gap1 : ty = .reserved1 → ∀ k ∈ a ++ b, k + 2 ≤ n
  gap2 : ty = .reserved2 → ∀ k ∈ c ++ d, k + 2 ≤ n

theorem mem_lt_of_count {ks : List Nat} {n k : Nat} (h : ∀ k, ks.count k = if k < n then 1 else 0) (hk : k ∈ ks) : k < n := by
  have := h k
  have hp := List.count_pos_iff.2 hk
  by_cases hn : k < n
  · exact hn
  · rw [if_neg hn] at this; omega

theorem apart_append {ks ks' : List Nat} {n : Nat} (h1 : Apart ks) (h2 : Apart ks') (h3 : ∀ k ∈ ks, k + 2 ≤ n) (h4 : ∀ k ∈ ks', n ≤ k) : Apart (ks ++ ks') := by
  refine List.pairwise_append.2 ⟨h1, h2, fun x hx y hy => ?_⟩
  have := h3 x hx
  have := h4 y hy
  omega

theorem segment1 {route : List Cell} {p : Phases} {n m : Nat} {a b c d k1 k2 : List Nat} {l : Layers} {e : Nat} (hu : Upto route p n .reserved1 a b c d) (hm : n < m)
    (h1 : Adds route k1 k2 p.p1 l) (h2 : Edges n m e k1) (h3 : Edges n m (e + 1) k2) {ty : BoundaryType} (ht : ty ≠ .reserved1) :
    Upto route { p with p1 := l } m ty (a ++ k1) (b ++ k2) c d := by
  obtain ⟨⟨x, x1, x2⟩, ⟨y, y1, y2⟩⟩ := h1
  have hs := h2.splits h3
  have hg := hu.gap1 rfl
  refine ⟨⟨?_, ?_, hu.ph.c, hu.ph.d⟩, ⟨?_, ?_, hu.apart.2.2.1, hu.apart.2.2.2⟩, fun k => ?_, fun h => absurd h ht, fun _ k hk => ?_⟩
  · dsimp only; rw [x1]; exact hu.ph.a.append x2
  · dsimp only; rw [y1]; exact hu.ph.b.append y2
  · exact apart_append hu.apart.1 hs.1 (fun k hk => hg k (List.mem_append_left _ hk)) fun k hk => ((h2.2 k).1 hk).1
  · exact apart_append hu.apart.2.1 hs.2.1 (fun k hk => hg k (List.mem_append_right _ hk)) fun k hk => ((h3.2 k).1 hk).1
  · have i1 := hu.count k
    have i2 := hs.2.2 k
    simp only [List.count_append] at i1 i2 ⊢
    by_cases hk : k < n
    · rw [if_pos hk] at i1; rw [if_neg (by omega)] at i2; rw [if_pos (by omega)]; omega
    · rw [if_neg hk] at i1
      by_cases hk2 : k < m
      · rw [if_pos ⟨by omega, hk2⟩] at i2; rw [if_pos hk2]; omega
      · rw [if_neg (by omega)] at i2; rw [if_neg hk2]; omega
  · have : k ∈ a ++ b ++ c ++ d := by simp only [List.mem_append] at hk ⊢; rcases hk with hk | hk <;> simp [hk]
    have := mem_lt_of_count hu.count this
    omega

theorem segment2 {route : List Cell} {p : Phases} {n m : Nat} {a b c d k1 k2 : List Nat} {l : Layers} {e : Nat} (hu : Upto route p n .reserved2 a b c d) (hm : n < m)
    (h1 : Adds route k1 k2 p.p2 l) (h2 : Edges n m e k1) (h3 : Edges n m (e + 1) k2) {ty : BoundaryType} (ht : ty ≠ .reserved2) :
    Upto route { p with p2 := l } m ty a b (c ++ k1) (d ++ k2) := by
  obtain ⟨⟨x, x1, x2⟩, ⟨y, y1, y2⟩⟩ := h1
  have hs := h2.splits h3
  have hg := hu.gap2 rfl
  refine ⟨⟨hu.ph.a, hu.ph.b, ?_, ?_⟩, ⟨hu.apart.1, hu.apart.2.1, ?_, ?_⟩, fun k => ?_, fun _ k hk => ?_, fun h => absurd h ht⟩
  · dsimp only; rw [x1]; exact hu.ph.c.append x2
  · dsimp only; rw [y1]; exact hu.ph.d.append y2
  · exact apart_append hu.apart.2.2.1 hs.1 (fun k hk => hg k (List.mem_append_left _ hk)) fun k hk => ((h2.2 k).1 hk).1
  · exact apart_append hu.apart.2.2.2 hs.2.1 (fun k hk => hg k (List.mem_append_right _ hk)) fun k hk => ((h3.2 k).1 hk).1
  · have i1 := hu.count k
    have i2 := hs.2.2 k
    simp only [List.count_append] at i1 i2 ⊢
    by_cases hk : k < n
    · rw [if_pos hk] at i1; rw [if_neg (by omega)] at i2; rw [if_pos (by omega)]; omega
    · rw [if_neg hk] at i1
      by_cases hk2 : k < m
      · rw [if_pos ⟨by omega, hk2⟩] at i2; rw [if_pos hk2]; omega
      · rw [if_neg (by omega)] at i2; rw [if_neg hk2]; omega
  · have : k ∈ a ++ b ++ c ++ d := by simp only [List.mem_append] at hk ⊢; rcases hk with hk | hk <;> simp [hk]
    have := mem_lt_of_count hu.count this
    omega

theorem compileSegment_ok {cn : BellCNOT} {route : List Cell} {last k n m : Nat} {ty ty' ty2 : BoundaryType} {p : Phases} {a b c d : List Nat}
    (hu : Upto route p n ty a b c d) (h1 : n < m) (h2 : m < route.length) (hl : ty = .reserved1 ∨ ty = .reserved2) (ht : ty2 ≠ ty) :
    ∃ p' a' b' c' d', compileSegment cn route last k (n, ty) (m, ty') p = .ok p' ∧ Upto route p' m ty2 a' b' c' d' := by
  rcases hl with rfl | rfl
  · simp only [compileSegment]
    by_cases hk : k = 0
    · obtain ⟨l, k1, k2, g1, g2, g3, g4⟩ := compile_ok (ty := .split) (rev := true) (p := none) (q := some cn.side2) (l := p.p1) h1 h2
      rw [if_pos hk, g1, Outcome.bind_ok]
      exact ⟨_, _, _, _, _, rfl, segment1 hu h1 g2 g3 g4 ht⟩
    · rw [if_neg hk]
      by_cases hk : k = last
      · obtain ⟨l, k1, k2, g1, g2, g3, g4⟩ := compile_ok (ty := .split) (rev := false) (p := none) (q := some cn.side1) (l := p.p1) h1 h2
        rw [if_pos hk, g1, Outcome.bind_ok]
        exact ⟨_, _, _, _, _, rfl, segment1 hu h1 g2 g3 g4 ht⟩
      · obtain ⟨l, k1, k2, g1, g2, g3, g4⟩ := compile_ok (ty := .prep) (rev := false) (p := none) (q := none) (l := p.p1) h1 h2
        rw [if_neg hk, g1, Outcome.bind_ok]
        exact ⟨_, _, _, _, _, rfl, segment1 hu h1 g2 g3 g4 ht⟩
  · simp only [compileSegment]
    by_cases hk : k = 0
    · obtain ⟨l, k1, k2, g1, g2, g3, g4⟩ := compile_ok (ty := .merge) (rev := true) (p := none) (q := none) (l := p.p2) h1 h2
      rw [if_pos hk, g1, Outcome.bind_ok]
      exact ⟨_, _, _, _, _, rfl, segment2 hu h1 g2 g3 g4 ht⟩
    · rw [if_neg hk]
      by_cases hk : k = last
      · obtain ⟨l, k1, k2, g1, g2, g3, g4⟩ := compile_ok (ty := .merge) (rev := false) (p := none) (q := none) (l := p.p2) h1 h2
        rw [if_pos hk, g1, Outcome.bind_ok]
        exact ⟨_, _, _, _, _, rfl, segment2 hu h1 g2 g3 g4 ht⟩
      · obtain ⟨l, k1, k2, g1, g2, g3, g4⟩ := compile_ok (ty := .measure) (rev := false) (p := none) (q := none) (l := p.p2) h1 h2
        rw [if_neg hk, g1, Outcome.bind_ok]
        exact ⟨_, _, _, _, _, rfl, segment2 hu h1 g2 g3 g4 ht⟩

theorem compileSegments_ok {cn : BellCNOT} {route : List Cell} {last n : Nat} (hn : n < route.length) : ∀ {es : List (Nat × BoundaryType)} {x : Nat × BoundaryType} {k : Nat}
    {p : Phases} {a b c d : List Nat}, Segs n x es → Upto route p x.1 x.2 a b c d → (∀ y ∈ x :: es, y.2 = .reserved1 ∨ y.2 = .reserved2) →
    ∃ p' a' b' c' d', compileSegments cn route last (x :: es) k p = .ok p' ∧ Upto route p' n .none a' b' c' d' := by
  intro es x k p a b c d hs
  induction hs generalizing k p a b c d with
  | last h =>
    intro hu hl
    obtain ⟨p', a', b', c', d', g1, g2⟩ := compileSegment_ok (cn := cn) (last := last) (k := k) (ty' := _) (ty2 := .none) hu h hn (hl _ (by simp)) (by
      intro e; have := hl _ (List.mem_cons_self ..); rw [← e] at this; simp at this)
    rw [compileSegments, g1, Outcome.bind_ok]
    exact ⟨p', a', b', c', d', rfl, g2⟩
  | more h1 h2 h3 ih =>
    intro hu hl
    have := h3.lt
    obtain ⟨p', a', b', c', d', g1, g2⟩ := compileSegment_ok (cn := cn) (last := last) (k := k) (ty' := _) hu h1 (by dsimp only at this; omega) (hl _ (by simp)) h2
    rw [compileSegments, g1, Outcome.bind_ok]
    exact ih g2 fun y hy => hl y (List.mem_cons_of_mem _ hy)

theorem Adds.phased1 {route : List Cell} {k1 k2 : List Nat} {l : Layers} (h : Adds route k1 k2 {} l) : Along route k1 l.l1 ∧ Along route k2 l.l2 := by
  obtain ⟨⟨x, x1, x2⟩, ⟨y, y1, y2⟩⟩ := h
  rw [x1, y1]
  exact ⟨x2, y2⟩

theorem compileSegments_labels {cn : BellCNOT} {route : List Cell} {last n : Nat} {es : List (Nat × BoundaryType)} {x : Nat × BoundaryType} {k : Nat}
    {p p' : Phases} (hs : Segs n x es) (h : compileSegments cn route last (x :: es) k p = .ok p') : ∀ y ∈ x :: es, y.2 = .reserved1 ∨ y.2 = .reserved2 := by
  have one : ∀ {a b : Nat × BoundaryType} {k : Nat} {p p' : Phases}, compileSegment cn route last k a b p = .ok p' → a.2 = .reserved1 ∨ a.2 = .reserved2 := by
    intro a b k p p' h
    unfold compileSegment at h
    split at h
    · rename_i e; exact .inl e
    · rename_i e; exact .inr e
    · cases h
  induction hs generalizing k p with
  | last h0 =>
    rw [compileSegments] at h
    obtain ⟨p1, h1, h⟩ := Outcome.bind_eq_ok.1 h
    intro y hy
    simp only [List.mem_cons, List.not_mem_nil, or_false] at hy
    have hr := one h1
    rcases hy with rfl | rfl <;> exact hr
  | more h1 h2 h3 ih =>
    rw [compileSegments] at h
    obtain ⟨p1, h4, h⟩ := Outcome.bind_eq_ok.1 h
    intro y hy
    rcases List.mem_cons.1 hy with rfl | hy
    · exact one h4
    · exact ih h y hy

theorem compileEdpc_labels {cn : BellCNOT} {route : List Cell} {s : DSlice} {e : List (Nat × BoundaryType) × BoundaryType} {p : Phases} (h : endpoints s route = .ok e)
    (hp : compileEdpc cn route e.1 e.2 = .ok p) : ∀ y ∈ e.1, y.2 = .reserved1 ∨ y.2 = .reserved2 := by
  have hlast : e.1.length = 2 → ∀ y ∈ e.1, y.2 = e.2 := by
    match route, h with
    | a :: b :: rest, h =>
      rw [endpoints] at h
      obtain ⟨ty, h1, h⟩ := Outcome.bind_eq_ok.1 h
      obtain ⟨y, h2, h⟩ := Outcome.bind_eq_ok.1 h
      have hsg := endpointsGo_ok (k := 0) h2
      simp only [Outcome.ok.injEq] at h
      subst h
      intro hl y' hy
      have : y.1 = [] := by
        cases hy1 : y.1 with
        | nil => rfl
        | cons u v => rw [hy1] at hl; simp at hl
      rw [this] at hsg hy
      simp only [List.nil_append] at hsg
      cases hsg with
      | last _ =>
        simp only [List.cons_append, List.nil_append, List.mem_cons, List.not_mem_nil, or_false] at hy
        rcases hy with rfl | rfl <;> rfl
      | more _ _ h3 => cases h3
  unfold compileEdpc at hp
  split at hp
  · rename_i c; intro y hy; rw [hlast c.1 y hy]; exact .inl c.2
  · split at hp
    · rename_i c; intro y hy; rw [hlast c.1 y hy]; exact .inr c.2
    · obtain ⟨ty, es, e1, e2, -⟩ := endpoints_ok h
      rw [e1] at hp ⊢
      exact compileSegments_labels e2 hp

/-- `compileEdpc` on the segments found by `endpoints`. -/
theorem compileEdpc_ok {cn : BellCNOT} {route : List Cell} {s : DSlice} {e : List (Nat × BoundaryType) × BoundaryType} (h : endpoints s route = .ok e)
    (hn : 4 ≤ route.length) (hl : ∀ y ∈ e.1, y.2 = .reserved1 ∨ y.2 = .reserved2) :
    ∃ p a b c d, compileEdpc cn route e.1 e.2 = .ok p ∧ Upto route p (route.length - 1) .none a b c d := by
  obtain ⟨ty, es, e1, e2, -⟩ := endpoints_ok h
  have hw := compileWhole_ok (c := cn) (route := route) (l := {}) hn
  obtain ⟨l, k1, k2, g1, g2, g3, g4⟩ := hw
  have hsp := g4.splits (g3.congr (c' := 0 + 1) rfl)
  obtain ⟨i1, i2⟩ := g2.phased1
  have hc : ∀ k, k2.count k + k1.count k = if k < route.length - 1 then 1 else 0 := by
    intro k
    have := hsp.2.2 k
    rw [List.count_append] at this
    rw [this]
    simp
  unfold compileEdpc
  by_cases c1 : e.1.length = 2 ∧ e.2 = .reserved1
  · rw [if_pos c1, g1, Outcome.bind_ok]
    refine ⟨_, k1, k2, [], [], rfl, ⟨⟨i1, i2, .nil, .nil⟩, ⟨hsp.2.1, hsp.1, List.Pairwise.nil, List.Pairwise.nil⟩, fun k => ?_, by simp, by simp⟩⟩
    simp only [List.append_nil, List.count_append, ← hc]; omega
  · rw [if_neg c1]
    by_cases c2 : e.1.length = 2 ∧ e.2 = .reserved2
    · rw [if_pos c2, g1, Outcome.bind_ok]
      refine ⟨_, [], [], k1, k2, rfl, ⟨⟨.nil, .nil, i1, i2⟩, ⟨List.Pairwise.nil, List.Pairwise.nil, hsp.2.1, hsp.1⟩, fun k => ?_, by simp, by simp⟩⟩
      simp only [List.nil_append, List.count_append, ← hc]; omega
    · rw [if_neg c2, e1]
      rw [e1] at hl
      exact compileSegments_ok (a := []) (b := []) (c := []) (d := []) (by omega) e2 ⟨⟨.nil, .nil, .nil, .nil⟩, ⟨.nil, .nil, .nil, .nil⟩, by simp, by simp, by simp⟩ hl

end Verif.Apply
