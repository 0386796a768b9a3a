import Verif.Search

/-!
# Facts about the frontier search
-/

namespace Verif.Search

/-- `next` leads from `u` to `v`. -/
def E (g : Graph) (u v : Nat) : Prop := ∃ ns, g.next u = .ok ns ∧ v ∈ ns

/-- What holds of the predecessor map at every moment. -/
structure Inv (g : Graph) (root : Nat) (st : State) : Prop where
  root_lt : root < g.total
  rootNode : st.pm root = ⟨some 0, root⟩
  unseen : ∀ v, (st.pm v).dist = none → (st.pm v).pred = v
  step : ∀ v d, v ≠ root → (st.pm v).dist = some d →
    v < g.total ∧ ∃ d', (st.pm (st.pm v).pred).dist = some d' ∧ d' + 1 ≤ d ∧ E g (st.pm v).pred v
  fr : ∀ v ∈ st.fr, (st.pm v).dist ≠ none

theorem mem_eraseIdx' : ∀ (l : List Nat) (i : Nat) (h : i < l.length) (u : Nat), u ∈ l ↔ u = l[i] ∨ u ∈ l.eraseIdx i
  | [], _, h, _ => absurd h (Nat.not_lt_zero _)
  | x :: xs, 0, _, u => by simp
  | x :: xs, i + 1, h, u => by
    have := mem_eraseIdx' xs i (by simpa using h) u
    simp only [List.mem_cons, List.getElem_cons_succ, List.eraseIdx_cons_succ, this]
    constructor
    · rintro (h | h | h) <;> simp [h]
    · rintro (h | h | h) <;> simp [h]

theorem popAt_spec {l : List Nat} {i v : Nat} {rest : List Nat} (h : popAt l i = some (v, rest)) :
    v ∈ l ∧ (∀ u, u ∈ l ↔ u = v ∨ u ∈ rest) ∧ l.length = rest.length + 1 := by
  cases l with
  | nil => simp [popAt] at h
  | cons x xs =>
    simp only [popAt] at h
    split at h
    next w hw =>
      have hlt : i < (x :: xs).length := by
        rcases List.getElem?_eq_some_iff.1 hw with ⟨h', _⟩; exact h'
      simp only [Option.some.injEq, Prod.mk.injEq] at h
      obtain ⟨rfl, rfl⟩ := h
      rw [List.getElem?_eq_getElem hlt] at hw
      cases hw
      refine ⟨List.getElem_mem _, ?_, ?_⟩
      · intro u
        exact mem_eraseIdx' _ _ hlt u
      · have := List.length_eraseIdx_of_lt hlt
        simp only [List.length_cons] at *; omega
    next => simp only [Option.some.injEq, Prod.mk.injEq] at h; obtain ⟨rfl, rfl⟩ := h; simp

theorem popAt_none {l : List Nat} {i : Nat} (h : popAt l i = none) : l = [] := by
  cases l with
  | nil => rfl
  | cons x xs => simp only [popAt] at h; split at h <;> simp at h

theorem popAt_get {l : List Nat} {i v : Nat} (h : l[i]? = some v) : ∃ rest, popAt l i = some (v, rest) := by
  cases l with
  | nil => simp at h
  | cons x xs => simp only [popAt, h]; exact ⟨_, rfl⟩

/-- The number of vertices below `n` without a distance. -/
def unseen (pm : Nat → Node) : Nat → Nat
  | 0 => 0
  | n + 1 => unseen pm n + if (pm n).dist = none then 1 else 0

theorem unseen_upd_ge (pm : Nat → Node) (w : Nat) (x : Node) : ∀ n, n ≤ w → unseen (upd pm w x) n = unseen pm n
  | 0, _ => rfl
  | n + 1, h => by simp only [unseen]; rw [unseen_upd_ge pm w x n (by omega), upd_other _ _ (by omega)]

theorem unseen_upd {pm : Nat → Node} {w : Nat} {x : Node} (hw : (pm w).dist = none) (hx : x.dist ≠ none) :
    ∀ n, w < n → unseen (upd pm w x) n + 1 = unseen pm n
  | 0, h => absurd h (Nat.not_lt_zero _)
  | n + 1, h => by
    simp only [unseen]
    by_cases hn : n = w
    · subst hn; rw [unseen_upd_ge pm _ x _ (Nat.le_refl _), upd_same, if_neg hx, if_pos hw]
    · rw [upd_other _ _ hn]; have := unseen_upd hw hx n (by omega); omega

theorem unseen_upd_some {pm : Nat → Node} {w : Nat} {x : Node} (hw : (pm w).dist ≠ none) (hx : x.dist ≠ none) (n : Nat) :
    unseen (upd pm w x) n = unseen pm n := by
  induction n with
  | zero => rfl
  | succ n ih =>
    simp only [unseen, ih]
    by_cases hn : n = w
    · subst hn; rw [upd_same, if_neg hx, if_neg hw]
    · rw [upd_other _ _ hn]

theorem unseen_le (pm : Nat → Node) (n : Nat) : unseen pm n ≤ n := by
  induction n with
  | zero => exact Nat.le_refl _
  | succ n ih => simp only [unseen]; split <;> omega

/-- The number of vertices still to be taken from the queue. -/
def left (g : Graph) (st : State) : Nat := unseen st.pm g.total + st.fr.length

/-- How one neighbour changes the state. -/
structure Step (d : Nat) (ws : List Nat) (st st' : State) : Prop where
  keep : ∀ u, (st'.pm u).dist = (st.pm u).dist ∨
    ((st'.pm u).dist = some (d + 1) ∧ ((st.pm u).dist = none ∨ ∃ a, (st.pm u).dist = some a ∧ d + 1 < a))
  near : ∀ w ∈ ws, ∃ e, (st'.pm w).dist = some e ∧ e ≤ d + 1
  old : ∀ u ∈ st.fr, u ∈ st'.fr
  new : ∀ u ∈ st'.fr, u ∈ st.fr ∨ (st'.pm u).dist = some (d + 1)
  fresh : ∀ u, (st.pm u).dist = none → (st'.pm u).dist ≠ none → u ∈ st'.fr

theorem Step.mono {d ws st st'} (h : Step d ws st st') {u a : Nat} (hu : (st.pm u).dist = some a) :
    ∃ b, (st'.pm u).dist = some b ∧ b ≤ a := by
  rcases h.keep u with e | ⟨e, h1 | ⟨a', h1, h2⟩⟩
  · exact ⟨a, by rw [e, hu], Nat.le_refl _⟩
  · rw [hu] at h1; cases h1
  · rw [hu] at h1; cases h1; exact ⟨_, e, by omega⟩

theorem relax1_spec {g root st st' d curr w} (hi : Inv g root st) (hd : (st.pm curr).dist = some d) (he : E g curr w)
    (h : relax1 g d curr w st = .ok st') :
    Inv g root st' ∧ Step d [w] st st' ∧ (st'.pm curr).dist = some d ∧ left g st' = left g st := by
  unfold relax1 at h
  split at h
  case isFalse => cases h
  case isTrue hw =>
  have main : ∀ fr', ((st.pm w).dist = none ∨ ∃ a, (st.pm w).dist = some a ∧ d + 1 < a) → (∀ u ∈ fr', u ∈ st.fr ∨ u = w) →
      Inv g root { pm := upd st.pm w ⟨some (d + 1), curr⟩, fr := fr' } ∧ w ≠ curr := by
    intro fr' hn hfr
    have hwr : w ≠ root := by
      rintro rfl; rw [hi.rootNode] at hn; rcases hn with hn | ⟨a, hn, h2⟩
      · cases hn
      · cases hn; omega
    have hwc : w ≠ curr := by
      rintro rfl; rw [hd] at hn; rcases hn with hn | ⟨a, hn, h2⟩
      · cases hn
      · cases hn; omega
    refine ⟨⟨hi.root_lt, ?_, ?_, ?_, ?_⟩, hwc⟩
    · show upd _ _ _ _ = _; rw [upd_other _ _ (Ne.symm hwr)]; exact hi.rootNode
    · intro v hv
      by_cases hvw : v = w
      · subst hvw; simp only [upd_same] at hv; cases hv
      · simp only [upd_other _ _ hvw] at hv ⊢; exact hi.unseen v hv
    · intro v e hvr hv
      by_cases hvw : v = w
      · subst hvw; simp only [upd_same] at hv ⊢; cases hv
        refine ⟨hw, d, ?_, Nat.le_refl _, he⟩
        rw [upd_other _ _ (Ne.symm hwc)]; exact hd
      · simp only [upd_other _ _ hvw] at hv ⊢
        obtain ⟨h1, d', h2, h3, h4⟩ := hi.step v e hvr hv
        refine ⟨h1, ?_⟩
        by_cases hp : (st.pm v).pred = w
        · rw [hp] at h2 h4 ⊢
          rcases hn with hn | ⟨a, hn, h5⟩
          · rw [hn] at h2; cases h2
          · rw [hn] at h2; cases h2
            exact ⟨d + 1, by simp only [upd_same], by omega, h4⟩
        · exact ⟨d', by rw [upd_other _ _ hp]; exact h2, h3, h4⟩
    · intro v hv
      by_cases hvw : v = w
      · subst hvw; simp [upd_same]
      · simp only [upd_other _ _ hvw]
        rcases hfr v hv with h' | h'
        · exact hi.fr v h'
        · exact absurd h' hvw
  split at h
  next hn =>
    cases h
    obtain ⟨h1, h2⟩ := main (st.fr ++ [w]) (.inl hn) (by intro u hu; simpa using hu)
    refine ⟨h1, ⟨?_, ?_, ?_, ?_, ?_⟩, ?_, ?_⟩
    · intro u
      by_cases hu : u = w
      · subst hu; right; simp [upd_same, hn]
      · left; simp only [upd_other _ _ hu]
    · intro u hu; simp at hu; subst hu; exact ⟨d + 1, by simp only [upd_same], Nat.le_refl _⟩
    · intro u hu; simp [hu]
    · intro u hu; simp only [List.mem_append, List.mem_singleton] at hu
      rcases hu with hu | rfl
      · exact .inl hu
      · right; simp only [upd_same]
    · intro u hu hu'
      by_cases h' : u = w
      · simp [h']
      · simp only [upd_other _ _ h'] at hu'; exact absurd hu hu'
    · simp only [upd_other _ _ (Ne.symm h2)]; exact hd
    · simp only [left, List.length_append, List.length_singleton]
      have := unseen_upd (x := ⟨some (d + 1), curr⟩) hn (by simp) g.total hw; omega
  next e hn =>
    split at h
    next hlt =>
      cases h
      obtain ⟨h1, h2⟩ := main st.fr (.inr ⟨e, hn, hlt⟩) (by intro u hu; exact .inl hu)
      refine ⟨h1, ⟨?_, ?_, ?_, ?_, ?_⟩, ?_, ?_⟩
      · intro u
        by_cases hu : u = w
        · subst hu; right; simp only [upd_same]; exact ⟨trivial, .inr ⟨e, hn, hlt⟩⟩
        · left; simp only [upd_other _ _ hu]
      · intro u hu; simp at hu; subst hu; exact ⟨d + 1, by simp only [upd_same], Nat.le_refl _⟩
      · intro u hu; exact hu
      · intro u hu; exact .inl hu
      · intro u hu hu'
        by_cases h' : u = w
        · subst h'; rw [hn] at hu; cases hu
        · simp only [upd_other _ _ h'] at hu'; exact absurd hu hu'
      · simp only [upd_other _ _ (Ne.symm h2)]; exact hd
      · simp only [left]; rw [unseen_upd_some (by rw [hn]; simp) (by simp)]
    next hge =>
      cases h
      refine ⟨hi, ⟨fun _ => .inl rfl, ?_, fun _ h => h, fun _ h => .inl h, fun u h h' => absurd h h'⟩, hd, rfl⟩
      intro u hu; simp at hu; subst hu; exact ⟨e, hn, by omega⟩

theorem Step.refl (d : Nat) (st : State) : Step d [] st st :=
  ⟨fun _ => .inl rfl, by simp, fun _ h => h, fun _ h => .inl h, fun _ h h' => absurd h h'⟩

theorem Step.trans {d a b st st' st''} (h1 : Step d a st st') (h2 : Step d b st' st'') : Step d (a ++ b) st st'' := by
  refine ⟨?_, ?_, fun u hu => h2.old u (h1.old u hu), ?_, ?_⟩
  · intro u
    rcases h2.keep u with e | ⟨e, he⟩
    · rw [e]; exact h1.keep u
    · rcases h1.keep u with e' | ⟨e', he'⟩
      · rw [e'] at he; exact .inr ⟨e, he⟩
      · exact .inr ⟨e, he'⟩
  · intro w hw
    rcases List.mem_append.1 hw with hw | hw
    · obtain ⟨e, he, hle⟩ := h1.near w hw
      obtain ⟨b, hb, hle'⟩ := h2.mono he
      exact ⟨b, hb, by omega⟩
    · exact h2.near w hw
  · intro u hu
    rcases h2.new u hu with hu | hu
    · rcases h1.new u hu with hu | hu
      · exact .inl hu
      · right
        rcases h2.keep u with e | ⟨e, _⟩
        · rw [e]; exact hu
        · exact e
    · exact .inr hu
  · intro u hu hu'
    by_cases hm : (st'.pm u).dist = none
    · exact h2.fresh u hm hu'
    · exact h2.old u (h1.fresh u hu hm)

theorem relax_spec {g root d curr} : ∀ {ws st st'}, Inv g root st → (st.pm curr).dist = some d → (∀ w ∈ ws, E g curr w) →
    relax g d curr ws st = .ok st' →
    Inv g root st' ∧ Step d ws st st' ∧ (st'.pm curr).dist = some d ∧ left g st' = left g st
  | [], st, st', hi, hd, _, h => by cases h; exact ⟨hi, Step.refl _ _, hd, rfl⟩
  | w :: ws, st, st', hi, hd, he, h => by
    simp only [relax] at h
    obtain ⟨s1, h1, h2⟩ := Outcome.bind_eq_ok.1 h
    obtain ⟨i1, p1, d1, l1⟩ := relax1_spec hi hd (he w (by simp)) h1
    obtain ⟨i2, p2, d2, l2⟩ := relax_spec i1 d1 (fun x hx => he x (by simp [hx])) h2
    exact ⟨i2, p1.trans p2, d2, l2.trans l1⟩

/-- Taking a vertex from the queue keeps the invariant. -/
theorem Inv.pop {g root st v rest i} (hi : Inv g root st) (h : popAt st.fr i = some (v, rest)) :
    Inv g root { st with fr := rest } :=
  ⟨hi.root_lt, hi.rootNode, hi.unseen, hi.step, fun u hu => hi.fr u (((popAt_spec h).2.1 u).2 (.inr hu))⟩

/-- Every vertex that was reached and is not queued has all its successors reached. -/
def Closed (g : Graph) (st : State) : Prop :=
  ∀ u, (st.pm u).dist ≠ none → u ∈ st.fr ∨ ∀ w, E g u w → (st.pm w).dist ≠ none

/-- Vertices taken from the queue are no farther than the queued ones, and their successors are at most one step
farther. -/
def Ordered (g : Graph) (st : State) : Prop :=
  ∀ u d, (st.pm u).dist = some d → u ∈ st.fr ∨
    ((∀ w, E g u w → ∃ e, (st.pm w).dist = some e ∧ e ≤ d + 1) ∧ (∀ x ∈ st.fr, ∃ e, (st.pm x).dist = some e ∧ d ≤ e))

/-- The queue hands out a vertex whose distance is least (the comparator without heuristic, lines 37-41). -/
def MinFirst (pick : Pick) : Prop :=
  ∀ k pm fr, fr ≠ [] → ∃ v, fr[pick k pm fr]? = some v ∧
    ∀ u ∈ fr, ∀ d e, (pm u).dist = some d → (pm v).dist = some e → e ≤ d

/-- One round. -/
theorem round_spec {g root st v rest i d ns st'} (hi : Inv g root st) (hp : popAt st.fr i = some (v, rest))
    (hd : (st.pm v).dist = some d) (hn : g.next v = .ok ns) (hr : relax g d v ns { st with fr := rest } = .ok st') :
    Inv g root st' ∧ Step d ns { st with fr := rest } st' ∧ (st'.pm v).dist = some d ∧ left g st' + 1 = left g st := by
  obtain ⟨i1, p1, d1, l1⟩ := relax_spec (hi.pop hp) hd (fun w hw => ⟨ns, hn, hw⟩) hr
  refine ⟨i1, p1, d1, ?_⟩
  have := (popAt_spec hp).2.2
  simp only [left] at *; omega

theorem closed_round {g st v rest i d ns st'} (hc : Closed g st) (hp : popAt st.fr i = some (v, rest))
    (hn : g.next v = .ok ns) (p : Step d ns { st with fr := rest } st') : Closed g st' := by
  intro u hu
  by_cases huv : u = v
  · subst huv
    right
    rintro w ⟨ns', h1, h2⟩
    rw [hn] at h1; cases h1
    obtain ⟨e, he, _⟩ := p.near w h2
    rw [he]; simp
  · by_cases hu0 : (st.pm u).dist = none
    · exact .inl (p.fresh u hu0 hu)
    · rcases hc u hu0 with h | h
      · rcases ((popAt_spec hp).2.1 u).1 h with h | h
        · exact absurd h huv
        · exact .inl (p.old u h)
      · right
        intro w hw
        cases hw' : (st.pm w).dist with
        | none => exact absurd hw' (h w hw)
        | some a =>
          obtain ⟨b, hb, _⟩ := p.mono (u := w) hw'
          rw [hb]; simp

theorem ordered_round {g root st v rest i d ns st'} (hi : Inv g root st) (hc : Ordered g st) (hp : popAt st.fr i = some (v, rest))
    (hd : (st.pm v).dist = some d) (hmin : ∀ u ∈ st.fr, ∀ e, (st.pm u).dist = some e → d ≤ e) (hn : g.next v = .ok ns)
    (p : Step d ns { st with fr := rest } st') (hd' : (st'.pm v).dist = some d) : Ordered g st' := by
  have hq : ∀ x ∈ st'.fr, ∃ e, (st'.pm x).dist = some e ∧ d ≤ e := by
    intro x hx
    rcases p.new x hx with hx | hx
    · have hx' : x ∈ st.fr := ((popAt_spec hp).2.1 x).2 (.inr hx)
      cases hxd : (st.pm x).dist with
      | none => exact absurd hxd (hi.fr x hx')
      | some e =>
        rcases p.keep x with e' | ⟨e', _⟩
        · exact ⟨e, by rw [e']; exact hxd, hmin x hx' e hxd⟩
        · exact ⟨_, e', by omega⟩
    · exact ⟨_, hx, by omega⟩
  intro u a hu
  by_cases huv : u = v
  · subst huv
    rw [hd'] at hu; cases hu
    right
    refine ⟨?_, hq⟩
    rintro w ⟨ns', h1, h2⟩
    rw [hn] at h1; cases h1
    exact p.near w h2
  · cases hu0 : (st.pm u).dist with
    | none => exact .inl (p.fresh u hu0 (by rw [hu]; simp))
    | some b =>
      rcases hc u b hu0 with h | ⟨h1, h2⟩
      · rcases ((popAt_spec hp).2.1 u).1 h with h | h
        · exact absurd h huv
        · exact .inl (p.old u h)
      · right
        obtain ⟨e, he, hbe⟩ := h2 v (popAt_spec hp).1
        rw [hd] at he; cases he
        have hab : a = b := by
          rcases p.keep u with e' | ⟨e', e2 | ⟨c, e2, e3⟩⟩
          · rw [hu] at e'; simp only [hu0] at e'; exact Option.some.inj e'
          · simp only [hu0] at e2; cases e2
          · simp only [hu0] at e2; cases e2; omega
        subst hab
        refine ⟨?_, ?_⟩
        · intro w hw
          obtain ⟨e, he, hle⟩ := h1 w hw
          obtain ⟨b, hb, hle'⟩ := p.mono (u := w) he
          exact ⟨b, hb, by omega⟩
        · intro x hx
          obtain ⟨e, he, hle⟩ := hq x hx
          exact ⟨e, he, by omega⟩

/-- A finished search: the invariant holds, the queue is empty or the target was reached. -/
theorem loop_spec {g root pick early} : ∀ {fuel st st'}, Inv g root st → Closed g st → loop g pick early fuel st = .ok st' →
    Inv g root st' ∧ ((st'.fr = [] ∧ Closed g st') ∨ ∃ v, early = some v ∧ (st'.pm v).dist ≠ none)
  | 0, st, st', hi, hc, h => by
    simp only [loop] at h
    split at h
    next hf => cases h; exact ⟨hi, .inl ⟨hf, hc⟩⟩
    next => cases h
  | fuel + 1, st, st', hi, hc, h => by
    simp only [loop] at h
    split at h
    next hp => cases h; exact ⟨hi, .inl ⟨popAt_none hp, hc⟩⟩
    next v rest hp =>
      split at h
      next => cases h
      next d hd =>
        split at h
        next he => cases h; exact ⟨hi.pop hp, .inr ⟨v, he, by rw [hd]; simp⟩⟩
        next =>
          obtain ⟨ns, hn, h⟩ := Outcome.bind_eq_ok.1 h
          obtain ⟨s1, hr, h⟩ := Outcome.bind_eq_ok.1 h
          obtain ⟨i1, p1, _, _⟩ := round_spec hi hp hd hn hr
          exact loop_spec i1 (closed_round hc hp hn p1) h

/-- The search without heuristic. -/
theorem loop_min {g root pick} (hpick : MinFirst pick) : ∀ {fuel st st'}, Inv g root st → Ordered g st →
    loop g pick none fuel st = .ok st' → Inv g root st' ∧ st'.fr = [] ∧ Ordered g st'
  | 0, st, st', hi, hc, h => by
    simp only [loop] at h
    split at h
    next hf => cases h; exact ⟨hi, hf, hc⟩
    next => cases h
  | fuel + 1, st, st', hi, hc, h => by
    simp only [loop] at h
    split at h
    next hp => cases h; exact ⟨hi, popAt_none hp, hc⟩
    next v rest hp =>
      split at h
      next => cases h
      next d hd =>
        simp only [reduceCtorEq, if_false] at h
        obtain ⟨ns, hn, h⟩ := Outcome.bind_eq_ok.1 h
        obtain ⟨s1, hr, h⟩ := Outcome.bind_eq_ok.1 h
        obtain ⟨i1, p1, d1, _⟩ := round_spec hi hp hd hn hr
        have hne : st.fr ≠ [] := by intro h0; rw [h0] at hp; simp [popAt] at hp
        obtain ⟨v', hv', hmin⟩ := hpick fuel st.pm st.fr hne
        obtain ⟨r', hr'⟩ := popAt_get hv'
        rw [hp] at hr'
        simp only [Option.some.injEq, Prod.mk.injEq] at hr'
        obtain ⟨rfl, rfl⟩ := hr'
        exact loop_min hpick i1 (ordered_round hi hc hp hd (fun u hu e he => hmin u hu e d he hd) hn p1 d1) h

/-- Enough rounds: the search returns if `next` does. -/
theorem loop_ok {g root pick early} (hnext : ∀ v st, Inv g root st → (st.pm v).dist ≠ none → v ∈ st.fr → ∃ ns, g.next v = .ok ns ∧ ∀ w ∈ ns, w < g.total) :
    ∀ {fuel st}, Inv g root st → left g st ≤ fuel → ∃ st', loop g pick early fuel st = .ok st'
  | 0, st, hi, hl => by
    have : st.fr = [] := by
      simp only [left] at hl
      cases hf : st.fr with
      | nil => rfl
      | cons x xs => rw [hf] at hl; simp at hl
    simp only [loop]; rw [if_pos this]; exact ⟨_, rfl⟩
  | fuel + 1, st, hi, hl => by
    simp only [loop]
    cases hp : popAt st.fr (pick fuel st.pm st.fr) with
    | none => exact ⟨_, rfl⟩
    | some vr =>
      obtain ⟨v, rest⟩ := vr
      have hv := (popAt_spec hp).1
      cases hd : (st.pm v).dist with
      | none => exact absurd hd (hi.fr v hv)
      | some d =>
        dsimp only
        rw [hd]
        dsimp only
        split
        · exact ⟨_, rfl⟩
        · obtain ⟨ns, hn, hlt⟩ := hnext v st hi (by rw [hd]; simp) hv
          have hrelax : ∀ (ws : List Nat) (s : State), (∀ w ∈ ws, w < g.total) → ∃ s', relax g d v ws s = .ok s' := by
            intro ws
            induction ws with
            | nil => intro s _; exact ⟨s, rfl⟩
            | cons w ws ih =>
              intro s hw
              simp only [relax]
              have : ∃ s1, relax1 g d v w s = .ok s1 := by
                unfold relax1
                rw [if_pos (hw w (by simp))]
                split
                · exact ⟨_, rfl⟩
                · split
                  · exact ⟨_, rfl⟩
                  · exact ⟨_, rfl⟩
              obtain ⟨s1, h1⟩ := this
              rw [h1, Outcome.bind_ok]
              exact ih s1 (fun x hx => hw x (by simp [hx]))
          obtain ⟨s1, hr⟩ := hrelax ns { st with fr := rest } hlt
          obtain ⟨i1, _, _, l1⟩ := round_spec hi hp hd hn hr
          rw [hn, Outcome.bind_ok, hr, Outcome.bind_ok]
          exact loop_ok hnext i1 (by omega)

/-- The middle vertices of the triples of a walk; they are consistent with their neighbours. -/
def Triples : Nat → List (Nat × Nat × Nat) → Nat → Prop
  | _, [], _ => True
  | prec, (a, b, c) :: l, root => a = prec ∧ (match l with | [] => c = root | (_, b', _) :: _ => c = b') ∧ Triples b l root

/-- What a walk finds: starting from a reached vertex other than the root it ends in the root, every vertex leads to
the one before it, and the distances fall by at least one at every step. -/
theorem walk_spec {g root st} (hi : Inv g root st) : ∀ {fuel prec curr r e}, walk g st.pm fuel prec curr = .ok (r, e) →
    (st.pm curr).dist ≠ none →
    e = root ∧ Triples prec r root ∧
    (∀ d, (st.pm curr).dist = some d → r.length ≤ d) ∧
    (∀ t ∈ r, ∃ x d, (st.pm t.2.1).dist = some x ∧ (st.pm curr).dist = some d ∧ x ≤ d ∧ t.2.1 ≠ root) ∧
    (r = [] → curr = root) ∧ (∀ t l, r = t :: l → t.2.1 = curr) ∧
    (∀ t ∈ r, E g t.2.2 t.2.1) ∧ (r.map (·.2.1)).Nodup
  | 0, _, _, _, _, h, _ => by simp [walk] at h
  | fuel + 1, prec, curr, r, e, h, hc => by
    simp only [walk] at h
    split at h
    case isFalse => cases h
    case isTrue hlt =>
    by_cases hroot : curr = root
    · subst hroot
      rw [hi.rootNode] at h
      simp only [if_true] at h
      cases h
      exact ⟨rfl, trivial, fun _ _ => Nat.zero_le _, by simp, fun _ => rfl, by simp, by simp, by simp⟩
    · cases hd : (st.pm curr).dist with
      | none => exact absurd hd hc
      | some d =>
        obtain ⟨h1, d', h2, h3, h4⟩ := hi.step curr d hroot hd
        have hne : curr ≠ (st.pm curr).pred := by
          intro h'; rw [← h', hd] at h2; cases h2; omega
        rw [if_neg hne] at h
        obtain ⟨⟨r1, e1⟩, hw, h⟩ := Outcome.bind_eq_ok.1 h
        cases h
        obtain ⟨he, ht, hlen, hmem, hnil, hhead, hedge, hnd⟩ := walk_spec hi hw (by rw [h2]; simp)
        have hlow : ∀ t ∈ r1, ∃ x, (st.pm t.2.1).dist = some x ∧ x < d := by
          intro t htm
          obtain ⟨x, dd, hx, hdd, hle, _⟩ := hmem t htm
          rw [h2] at hdd; cases hdd
          exact ⟨x, hx, by omega⟩
        refine ⟨he, ⟨rfl, ?_, ht⟩, ?_, ?_, by simp, ?_, ?_, ?_⟩
        · cases r1 with
          | nil => exact hnil rfl
          | cons t l => exact (hhead t l rfl).symm
        · intro x hx; cases hx
          have := hlen d' h2
          simp only [List.length_cons]; omega
        · intro t htm
          rcases List.mem_cons.1 htm with rfl | htm
          · exact ⟨d, d, hd, rfl, Nat.le_refl _, hroot⟩
          · obtain ⟨x, _, hx, _, _, hr⟩ := hmem t htm
            obtain ⟨x', hx', hlt'⟩ := hlow t htm
            rw [hx] at hx'; cases hx'
            exact ⟨x, d, hx, rfl, by omega, hr⟩
        · intro t l htl; cases htl; rfl
        · intro t htm
          rcases List.mem_cons.1 htm with rfl | htm
          · exact h4
          · exact hedge t htm
        · simp only [List.map_cons, List.nodup_cons]
          refine ⟨?_, hnd⟩
          intro hm
          obtain ⟨t, htm, hte⟩ := List.mem_map.1 hm
          obtain ⟨x, hx, hlt'⟩ := hlow t htm
          rw [hte, hd] at hx; cases hx; omega

/-- A walk from an unreached vertex stops at once. -/
theorem walk_unseen {g root st} (hi : Inv g root st) {fuel prec curr r e} (h : walk g st.pm fuel prec curr = .ok (r, e))
    (hc : (st.pm curr).dist = none) : r = [] ∧ e = curr := by
  cases fuel with
  | zero => simp [walk] at h
  | succ fuel =>
    simp only [walk] at h
    split at h
    case isFalse => cases h
    case isTrue =>
    rw [if_pos (hi.unseen curr hc).symm] at h
    cases h; exact ⟨rfl, rfl⟩

/-- Enough rounds for the walk: the distance of the start bounds them. -/
theorem walk_ok {g root st} (hi : Inv g root st) : ∀ {fuel prec curr d}, (st.pm curr).dist = some d → d < fuel →
    ∃ r, walk g st.pm fuel prec curr = .ok r
  | 0, _, _, _, _, h => absurd h (Nat.not_lt_zero _)
  | fuel + 1, prec, curr, d, hd, hf => by
    simp only [walk]
    by_cases hroot : curr = root
    · subst hroot
      rw [if_pos hi.root_lt, hi.rootNode, if_pos rfl]; exact ⟨_, rfl⟩
    · obtain ⟨h1, d', h2, h3, _⟩ := hi.step curr d hroot hd
      rw [if_pos h1]
      split
      · exact ⟨_, rfl⟩
      · obtain ⟨r, hr⟩ := walk_ok hi (fuel := fuel) (prec := curr) h2 (by omega)
        rw [hr]; exact ⟨_, rfl⟩

/-- Distances are smaller than the number of vertices reached. -/
def Bounded (g : Graph) (st : State) : Prop := ∀ v d, (st.pm v).dist = some d → d + unseen st.pm g.total < g.total

theorem relax1_bounded {g st st' d curr w} (hb : Bounded g st) (hd : (st.pm curr).dist = some d) (h : relax1 g d curr w st = .ok st') :
    Bounded g st' := by
  unfold relax1 at h
  split at h
  case isFalse => cases h
  case isTrue hw =>
  have hc := hb curr d hd
  split at h
  next hn =>
    cases h
    have hu := unseen_upd (x := ⟨some (d + 1), curr⟩) hn (by simp) g.total hw
    intro v e hv
    by_cases hvw : v = w
    · subst hvw; simp only [upd_same] at hv ⊢; cases hv; omega
    · simp only [upd_other _ _ hvw] at hv ⊢; have := hb v e hv; omega
  next e hn =>
    split at h
    next hlt =>
      cases h
      have hu := unseen_upd_some (x := ⟨some (d + 1), curr⟩) (by rw [hn]; simp) (by simp) g.total
      intro v e' hv
      by_cases hvw : v = w
      · subst hvw; simp only [upd_same] at hv ⊢; cases hv; have := hb v e hn; omega
      · simp only [upd_other _ _ hvw] at hv ⊢; have := hb v e' hv; omega
    next => cases h; exact hb

theorem relax_bounded {g root d curr} : ∀ {ws st st'}, Inv g root st → Bounded g st → (st.pm curr).dist = some d → (∀ w ∈ ws, E g curr w) →
    relax g d curr ws st = .ok st' → Bounded g st'
  | [], st, st', _, hb, _, _, h => by cases h; exact hb
  | w :: ws, st, st', hi, hb, hd, he, h => by
    simp only [relax] at h
    obtain ⟨s1, h1, h2⟩ := Outcome.bind_eq_ok.1 h
    obtain ⟨i1, p1, d1, l1⟩ := relax1_spec hi hd (he w (by simp)) h1
    exact relax_bounded i1 (relax1_bounded hb hd h1) d1 (fun x hx => he x (by simp [hx])) h2

theorem loop_bounded {g root pick early} : ∀ {fuel st st'}, Inv g root st → Bounded g st → loop g pick early fuel st = .ok st' →
    Bounded g st'
  | 0, st, st', hi, hc, h => by
    simp only [loop] at h
    split at h
    next hf => cases h; exact hc
    next => cases h
  | fuel + 1, st, st', hi, hc, h => by
    simp only [loop] at h
    split at h
    next hp => cases h; exact hc
    next v rest hp =>
      split at h
      next => cases h
      next d hd =>
        split at h
        next he => cases h; exact hc
        next =>
          obtain ⟨ns, hn, h⟩ := Outcome.bind_eq_ok.1 h
          obtain ⟨s1, hr, h⟩ := Outcome.bind_eq_ok.1 h
          obtain ⟨i1, p1, _, _⟩ := round_spec hi hp hd hn hr
          exact loop_bounded i1 (relax_bounded (hi.pop hp) (show Bounded g { st with fr := rest } from hc) hd (fun w hw => ⟨ns, hn, hw⟩) hr) h

/-- A path in the graph with its number of steps. -/
inductive Path (g : Graph) : Nat → Nat → Nat → Prop where
  | refl (v) : Path g v v 0
  | snoc {u v w n} : Path g u v n → E g v w → Path g u w (n + 1)

theorem closed_path {g root st} (hi : Inv g root st) (hf : st.fr = []) (hc : Closed g st) {v n} (h : Path g root v n) :
    (st.pm v).dist ≠ none := by
  induction h with
  | refl => rw [hi.rootNode]; simp
  | snoc _ he ih =>
    rcases hc _ ih with h | h
    · rw [hf] at h; cases h
    · exact h _ he

theorem ordered_path {g root st} (hi : Inv g root st) (hf : st.fr = []) (hc : Ordered g st) {v n} (h : Path g root v n) :
    ∃ d, (st.pm v).dist = some d ∧ d ≤ n := by
  induction h with
  | refl => rw [hi.rootNode]; exact ⟨0, rfl, Nat.le_refl _⟩
  | snoc _ he ih =>
    obtain ⟨d, hd, hle⟩ := ih
    rcases hc _ d hd with h | ⟨h, _⟩
    · rw [hf] at h; cases h
    · obtain ⟨e, h1, h2⟩ := h _ he
      exact ⟨e, h1, by omega⟩

/-- One round of the loop. -/
inductive Round (g : Graph) (pick : Pick) : State → State → Prop where
  | mk {fuel st v rest d ns st'} : popAt st.fr (pick fuel st.pm st.fr) = some (v, rest) → (st.pm v).dist = some d → g.next v = .ok ns →
      relax g d v ns { st with fr := rest } = .ok st' → Round g pick st st'

/-- Any number of rounds. -/
inductive Rounds (g : Graph) (pick : Pick) : State → State → Prop where
  | refl (st) : Rounds g pick st st
  | more {st st' st''} : Rounds g pick st st' → Round g pick st' st'' → Rounds g pick st st''

/-- No vertex is more than one step farther than a queued one. -/
def Spread (st : State) : Prop := ∀ x ∈ st.fr, ∀ y d e, (st.pm x).dist = some d → (st.pm y).dist = some e → e ≤ d + 1

theorem round_keeps {g root pick st st'} (hpick : MinFirst pick) (hi : Inv g root st) (ho : Ordered g st) (hs : Spread st)
    (h : Round g pick st st') :
    (Inv g root st' ∧ Ordered g st' ∧ Spread st') ∧ ∀ u d, (st.pm u).dist = some d → (st'.pm u).dist = some d := by
  cases h with
  | mk hp hd hn hr =>
    rename_i fuel v rest d ns
    obtain ⟨i1, p1, d1, _⟩ := round_spec hi hp hd hn hr
    have hne : st.fr ≠ [] := by intro h0; rw [h0] at hp; simp [popAt] at hp
    obtain ⟨v', hv', hmin⟩ := hpick fuel st.pm st.fr hne
    obtain ⟨r', hr'⟩ := popAt_get hv'
    rw [hp] at hr'
    simp only [Option.some.injEq, Prod.mk.injEq] at hr'
    obtain ⟨rfl, rfl⟩ := hr'
    have hmin' : ∀ u ∈ st.fr, ∀ e, (st.pm u).dist = some e → d ≤ e := fun u hu e he => hmin u hu e d he hd
    have hkeep : ∀ u e, (st.pm u).dist = some e → (st'.pm u).dist = some e := by
      intro u e hu
      have hle := hs v (popAt_spec hp).1 u d e hd hu
      rcases p1.keep u with h1 | ⟨_, h2 | ⟨a, h2, h3⟩⟩
      · rw [h1]; exact hu
      · simp only [hu] at h2; cases h2
      · simp only [hu] at h2; cases h2; omega
    refine ⟨⟨i1, ordered_round hi ho hp hd hmin' hn p1 d1, ?_⟩, hkeep⟩
    have hall : ∀ y e, (st'.pm y).dist = some e → e ≤ d + 1 := by
      intro y e hy
      cases hy0 : (st.pm y).dist with
      | none =>
        rcases p1.keep y with h1 | ⟨h1, _⟩
        · rw [h1] at hy; simp only [hy0] at hy; cases hy
        · rw [h1] at hy; cases hy; omega
      | some a =>
        rw [hkeep y a hy0] at hy; cases hy
        exact hs v (popAt_spec hp).1 y d _ hd hy0
    intro x hx y dx dy hdx hdy
    have h1 : d ≤ dx := by
      rcases p1.new x hx with hx | hx
      · have hx' : x ∈ st.fr := ((popAt_spec hp).2.1 x).2 (.inr hx)
        cases hxd : (st.pm x).dist with
        | none => exact absurd hxd (hi.fr x hx')
        | some e => rw [hkeep x e hxd] at hdx; cases hdx; exact hmin' x hx' _ hxd
      · rw [hx] at hdx; cases hdx; omega
    have := hall y dy hdy
    omega

theorem rounds_keep {g root pick st st'} (hpick : MinFirst pick) (hi : Inv g root st) (ho : Ordered g st) (hs : Spread st)
    (h : Rounds g pick st st') : Inv g root st' ∧ Ordered g st' ∧ Spread st' := by
  induction h with
  | refl => exact ⟨hi, ho, hs⟩
  | more _ hr ih => obtain ⟨h1, h2, h3⟩ := ih; exact (round_keeps hpick h1 h2 h3 hr).1

end Verif.Search
