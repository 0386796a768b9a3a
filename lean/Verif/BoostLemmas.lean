import Verif.Boost
import Verif.RouterRun

/-! # Facts about the search based on Boost -/

namespace Verif.Boost

open Verif Search Router Router.Spec

theorem isFree_of {L s c} (hf : Fits L s) (h : OnGrid L c) : s.isFree c = .ok (s.cells c).isNone := by
  unfold DSlice.isFree; rw [patchAt_of hf h]; rfl

theorem freeInto_eq {q : Query} (hf : Fits q.layout q.slice) (c : Cell) : ∀ (ns : List Cell), (∀ n ∈ ns, OnGrid q.layout n) →
    ∃ e, freeInto q c ns = .ok e ∧ ∀ x, x ∈ e ↔ ∃ n ∈ ns, q.slice.cells n = none ∧ x = (q.vertex n, q.vertex c)
  | [], _ => ⟨[], rfl, by simp⟩
  | n :: ns, h => by
    obtain ⟨e, h1, h2⟩ := freeInto_eq hf c ns (fun m hm => h m (List.mem_cons_of_mem _ hm))
    rw [freeInto, isFree_of hf (h n List.mem_cons_self), h1, Outcome.bind_ok, Outcome.bind_ok]
    refine ⟨_, rfl, fun x => ?_⟩
    cases hc : q.slice.cells n with
    | none => simp [h2, hc]
    | some p => simp [h2, hc]

theorem fromFree_eq {q : Query} (hf : Fits q.layout q.slice) : ∀ (cs : List Cell), (∀ n ∈ cs, OnGrid q.layout n) →
    ∃ e, fromFree q cs = .ok e ∧
      ∀ x, x ∈ e ↔ ∃ c ∈ cs, q.slice.cells c ≠ none ∧ ∃ n ∈ q.neighbours c, q.slice.cells n = none ∧ x = (q.vertex n, q.vertex c)
  | [], _ => ⟨[], rfl, by simp⟩
  | c :: cs, h => by
    obtain ⟨e, h1, h2⟩ := fromFree_eq hf cs (fun m hm => h m (List.mem_cons_of_mem _ hm))
    have hc := h c List.mem_cons_self
    obtain ⟨e', h3, h4⟩ := freeInto_eq hf c (q.neighbours c) (Query.neighbours_onGrid hc)
    rw [fromFree, isFree_of hf hc, Outcome.bind_ok]
    cases hp : q.slice.cells c with
    | none =>
      refine ⟨e, by rw [h1]; rfl, fun x => ?_⟩
      rw [h2]; simp [hp]
    | some p =>
      refine ⟨e' ++ e, by simp only [Option.isNone_some, Bool.not_false, if_true]; rw [h3, h1]; rfl, fun x => ?_⟩
      rw [List.mem_append, h2, h4]; simp [hp]

theorem lattice_mem {q : Query} (hf : Fits q.layout q.slice) (c : Cell) : c ∈ lattice q ↔ OnGrid q.layout c := by
  unfold lattice OnGrid
  unfold Fits at hf
  obtain ⟨r, k⟩ := c
  simp only [List.mem_flatMap, List.mem_range, List.mem_map, Cell.mk.injEq]
  constructor
  · rintro ⟨a, ha, b, hb, rfl, rfl⟩; omega
  · intro h; exact ⟨r.toNat, by omega, k.toNat, by omega, by omega, by omega⟩

theorem offered_eq {q : Query} (hg : q.Good) {c : Cell} (hc : OnGrid q.layout c) {op : Pauli} : ∀ {ns e : List Cell}, offered q c op ns = .ok e →
    ∀ n, n ∈ e ↔ n ∈ ns ∧ Offers q.slice c n op
  | [], e, h, n => by cases h; simp
  | m :: ms, e, h, n => by
    rw [offered] at h
    obtain ⟨b, h1, h⟩ := Outcome.bind_eq_ok.1 h
    obtain ⟨r, h2, h⟩ := Outcome.bind_eq_ok.1 h
    have h3 := Query.have_eq hg hc h1
    have h4 := offered_eq hg hc h2 n
    cases h
    cases b with
    | true =>
      rw [if_pos rfl, List.mem_cons, h4, List.mem_cons]
      constructor
      · rintro (rfl | ⟨h5, h6⟩)
        · exact ⟨.inl rfl, h3.1 rfl⟩
        · exact ⟨.inr h5, h6⟩
      · rintro ⟨h5 | h5, h6⟩
        · exact .inl h5
        · exact .inr ⟨h5, h6⟩
    | false =>
      rw [if_neg (by decide), h4, List.mem_cons]
      constructor
      · rintro ⟨h5, h6⟩; exact ⟨.inr h5, h6⟩
      · rintro ⟨rfl | h5, h6⟩
        · exact absurd (h3.2 h6) (by decide)
        · exact ⟨h5, h6⟩

theorem offered_ok {q : Query} (hg : q.Good) {c : Cell} (hc : OnGrid q.layout c) {op : Pauli} (hop : op = .X ∨ op = .Z) : ∀ (ns : List Cell), ∃ e, offered q c op ns = .ok e
  | [] => ⟨_, rfl⟩
  | m :: ms => by
    obtain ⟨b, h1⟩ := Query.have_ok hg (b := m) hc hop
    obtain ⟨r, h2⟩ := offered_ok hg hc hop ms
    exact ⟨_, by rw [offered, h1, h2]; rfl⟩

/-- The edges of the graph. -/
def Edge (q : Query) (u v : Nat) : Prop :=
  (∃ c n, OnGrid q.layout c ∧ OnGrid q.layout n ∧ Touching c n ∧ q.slice.cells c ≠ none ∧ q.slice.cells n = none ∧ u = q.vertex n ∧ v = q.vertex c) ∨
  (∃ n, OnGrid q.layout n ∧ Offers q.slice q.src n q.srcOp ∧ u = q.vertex q.src ∧ v = q.vertex n) ∨
  (∃ n, OnGrid q.layout n ∧ Offers q.slice q.tgt n q.tgtOp ∧ u = q.vertex n ∧ v = goal q)

theorem offers_touching {s a b op} (h : Offers s a b op) : Touching a b := by
  obtain ⟨p, d, _, hd, _⟩ := h; exact ⟨d, hd⟩

theorem edges_mem {q : Query} (hg : q.Good) {e : List (Nat × Nat)} (h : edges q = .ok e) (u v : Nat) : (u, v) ∈ e ↔ Edge q u v := by
  unfold edges at h
  obtain ⟨e1, h1, h2⟩ := fromFree_eq hg.fits (lattice q) (fun n hn => (lattice_mem hg.fits n).1 hn)
  rw [h1, Outcome.bind_ok] at h
  obtain ⟨s, h3, h⟩ := Outcome.bind_eq_ok.1 h
  obtain ⟨t, h4, h⟩ := Outcome.bind_eq_ok.1 h
  cases h
  have h5 := offered_eq hg hg.src h3
  have h6 := offered_eq hg hg.tgt h4
  rw [List.mem_append, List.mem_append, h2, List.mem_map, List.mem_map, or_assoc]
  unfold Edge
  refine or_congr ?_ (or_congr ?_ ?_)
  · constructor
    · rintro ⟨c, hc, hp, n, hn, hf, he⟩
      have hc := (lattice_mem hg.fits c).1 hc
      have hn := (mem_neighbours hc).1 hn
      cases he
      exact ⟨c, n, hc, hn.2, hn.1, hp, hf, rfl, rfl⟩
    · rintro ⟨c, n, hc, hn, ht, hp, hf, rfl, rfl⟩
      exact ⟨c, (lattice_mem hg.fits c).2 hc, hp, n, (mem_neighbours hc).2 ⟨ht, hn⟩, hf, rfl⟩
  · constructor
    · rintro ⟨n, hn, he⟩
      have hn := (h5 n).1 hn
      cases he
      exact ⟨n, ((mem_neighbours hg.src).1 hn.1).2, hn.2, rfl, rfl⟩
    · rintro ⟨n, hn, ho, rfl, rfl⟩
      exact ⟨n, (h5 n).2 ⟨(mem_neighbours hg.src).2 ⟨offers_touching ho, hn⟩, ho⟩, rfl⟩
  · constructor
    · rintro ⟨n, hn, he⟩
      have hn := (h6 n).1 hn
      cases he
      exact ⟨n, ((mem_neighbours hg.tgt).1 hn.1).2, hn.2, rfl, rfl⟩
    · rintro ⟨n, hn, ho, rfl, rfl⟩
      exact ⟨n, (h6 n).2 ⟨(mem_neighbours hg.tgt).2 ⟨offers_touching ho, hn⟩, ho⟩, rfl⟩

theorem edges_ok {q : Query} (hg : q.Good) (h1 : q.srcOp = .X ∨ q.srcOp = .Z) (h2 : q.tgtOp = .X ∨ q.tgtOp = .Z) : ∃ e, edges q = .ok e := by
  obtain ⟨e1, h3, _⟩ := fromFree_eq hg.fits (lattice q) (fun n hn => (lattice_mem hg.fits n).1 hn)
  obtain ⟨s, h4⟩ := offered_ok hg hg.src h1 (q.neighbours q.src)
  obtain ⟨t, h5⟩ := offered_ok hg hg.tgt h2 (q.neighbours q.tgt)
  exact ⟨_, by unfold edges; rw [h3, h4, h5]; rfl⟩

theorem total_ge (q : Query) (e : List (Nat × Nat)) : q.size ≤ total q e := by
  unfold total
  generalize q.size = n
  induction e generalizing n with
  | nil => exact Nat.le_refl _
  | cons x e ih => rw [List.foldl_cons]; have := ih (max n (max x.1 x.2 + 1)); omega

theorem total_mem {q : Query} {e : List (Nat × Nat)} {x : Nat × Nat} (h : x ∈ e) : x.1 < total q e ∧ x.2 < total q e := by
  unfold total
  generalize q.size = n
  induction e generalizing n with
  | nil => cases h
  | cons y e ih =>
    rw [List.foldl_cons]
    rcases List.mem_cons.1 h with rfl | h
    · have h1 : ∀ (l : List (Nat × Nat)) (k : Nat), k ≤ l.foldl (fun n x => max n (max x.1 x.2 + 1)) k := by
        intro l
        induction l with
        | nil => intro k; exact Nat.le_refl _
        | cons z l ih => intro k; rw [List.foldl_cons]; have := ih (max k (max z.1 z.2 + 1)); omega
      have := h1 e (max n (max x.1 x.2 + 1))
      omega
    · exact ih h _

/-! ### The exploration -/

/-- Predecessors are along edges, and lead back to vertices met. -/
structure Tree (E : Nat → Nat → Prop) (s : Nat) (st : St) : Prop where
  root : st.found s = some s
  edge : ∀ v u, v ≠ s → st.found v = some u → E u v ∧ st.found u ≠ none
  queued : ∀ v ∈ st.fr, st.found v ≠ none

theorem visit_tree {E : Nat → Nat → Prop} {s v : Nat} : ∀ {ws : List Nat} {st : St}, Tree E s st → st.found v ≠ none → (∀ w ∈ ws, E v w) → Tree E s (visit v ws st)
  | [], _, h, _, _ => h
  | w :: ws, st, h, hv, hw => by
    rw [visit]
    cases hf : st.found w with
    | some x => exact visit_tree h hv (fun x hx => hw x (List.mem_cons_of_mem _ hx))
    | none =>
      have hne : w ≠ v := by rintro rfl; exact hv hf
      have hs : s ≠ w := by rintro rfl; rw [h.root] at hf; cases hf
      have mono : ∀ {x}, st.found x ≠ none → upd st.found w (some v) x ≠ none := by
        intro x hx
        by_cases hxw : x = w
        · rw [hxw, upd_same]; simp
        · rw [upd_other _ _ hxw]; exact hx
      refine visit_tree (st := { found := upd st.found w (some v), fr := st.fr ++ [w] }) ?_ (mono hv) (fun x hx => hw x (List.mem_cons_of_mem _ hx))
      refine ⟨?_, ?_, ?_⟩ <;> dsimp only
      · rw [upd_other _ _ hs]; exact h.root
      · intro a b ha hb
        by_cases haw : a = w
        · rw [haw, upd_same] at hb
          cases hb
          rw [haw]
          exact ⟨hw w List.mem_cons_self, mono hv⟩
        · rw [upd_other _ _ haw] at hb
          obtain ⟨h1, h2⟩ := h.edge a b ha hb
          exact ⟨h1, mono h2⟩
      · intro x hx
        rcases List.mem_append.1 hx with hx | hx
        · exact mono (h.queued x hx)
        · rw [List.mem_singleton.1 hx, upd_same]; simp

theorem visit_found {v : Nat} : ∀ {ws : List Nat} {st : St}, (∀ x, st.found x ≠ none → (visit v ws st).found x ≠ none) ∧ (∀ w ∈ ws, (visit v ws st).found w ≠ none) ∧
    (∀ x, st.found x = none → (visit v ws st).found x ≠ none → x ∈ (visit v ws st).fr) ∧ (∀ x ∈ st.fr, x ∈ (visit v ws st).fr)
  | [], st => ⟨fun _ h => h, by simp, fun x h h' => absurd h h', fun _ h => h⟩
  | w :: ws, st => by
    rw [visit]
    cases hf : st.found w with
    | some y =>
      obtain ⟨h1, h2, h3, h4⟩ := visit_found (v := v) (ws := ws) (st := st)
      refine ⟨h1, fun x hx => ?_, h3, h4⟩
      rcases List.mem_cons.1 hx with rfl | hx
      · exact h1 _ (by rw [hf]; simp)
      · exact h2 x hx
    | none =>
      obtain ⟨h1, h2, h3, h4⟩ := visit_found (v := v) (ws := ws) (st := { found := upd st.found w (some v), fr := st.fr ++ [w] })
      refine ⟨fun x hx => h1 x ?_, fun x hx => ?_, fun x hx hx' => ?_, fun x hx => h4 x (List.mem_append_left _ hx)⟩
      · dsimp only
        by_cases hxw : x = w
        · rw [hxw, upd_same]; simp
        · rw [upd_other _ _ hxw]; exact hx
      · rcases List.mem_cons.1 hx with rfl | hx
        · exact h1 _ (by dsimp only; rw [upd_same]; simp)
        · exact h2 x hx
      · by_cases hxw : x = w
        · rw [hxw]; exact h4 w (List.mem_append_right _ List.mem_cons_self)
        · exact h3 x (by dsimp only; rw [upd_other _ _ hxw]; exact hx) hx'

theorem popAt_mem {fr : List Nat} {i v : Nat} {rest : List Nat} (h : popAt fr i = some (v, rest)) : v ∈ fr ∧ (∀ x ∈ rest, x ∈ fr) ∧ (∀ x ∈ fr, x = v ∨ x ∈ rest) ∧
    rest.length + 1 = fr.length := by
  obtain ⟨h1, h2, h3⟩ := popAt_spec h
  exact ⟨h1, fun x hx => (h2 x).2 (.inr hx), fun x hx => (h2 x).1 hx, h3.symm⟩

/-- What lies behind a vertex that has been handed out has been met. -/
def Done (e : List (Nat × Nat)) (st : St) : Prop := ∀ u, st.found u ≠ none → u ∈ st.fr ∨ ∀ v, (u, v) ∈ e → st.found v ≠ none

theorem explore_spec {e : List (Nat × Nat)} {pick : Pick} {E : Nat → Nat → Prop} (hE : ∀ u v, (u, v) ∈ e → E u v) {s : Nat} (fuel : Nat) : ∀ {st st' : St},
    Tree E s st → Done e st → explore e pick fuel st = .ok st' → Tree E s st' ∧ Done e st' ∧ st'.fr = [] := by
  induction fuel with
  | zero =>
    intro st st' h1 h2 h
    rw [explore] at h
    split at h
    · cases h; exact ⟨h1, h2, by assumption⟩
    · cases h
  | succ n ih =>
    intro st st' h1 h2 h
    rw [explore] at h
    split at h
    · rename_i hp
      cases h
      refine ⟨h1, h2, ?_⟩
      exact popAt_none hp
    · rename_i v rest hp
      obtain ⟨p1, p2, p3, p4⟩ := popAt_mem hp
      have hv := h1.queued v p1
      have hsub : ∀ w ∈ (e.filter (fun x => x.1 == v)).map (·.2), (v, w) ∈ e := by
        intro w hw
        obtain ⟨⟨a, b⟩, h3, rfl⟩ := List.mem_map.1 hw
        obtain ⟨h4, h5⟩ := List.mem_filter.1 h3
        have : a = v := by simpa using h5
        rw [← this]; exact h4
      have t1 : Tree E s { st with fr := rest } := ⟨h1.root, h1.edge, fun x hx => h1.queued x (p2 x hx)⟩
      refine ih (visit_tree t1 hv (fun w hw => hE v w (hsub w hw))) ?_ h
      obtain ⟨f1, f2, f3, f4⟩ := visit_found (v := v) (ws := (e.filter (fun x => x.1 == v)).map (·.2)) (st := { st with fr := rest })
      intro u hu
      by_cases hu' : st.found u = none
      · exact .inl (f3 u hu' hu)
      · by_cases huv : u = v
        · right
          intro w hw
          refine f2 w (List.mem_map.2 ⟨(u, w), List.mem_filter.2 ⟨hw, by simp [huv]⟩, rfl⟩)
        · rcases h2 u hu' with h3 | h3
          · rcases p3 u h3 with h4 | h4
            · exact absurd h4 huv
            · exact .inl (f4 u h4)
          · exact .inr (fun w hw => f1 w (h3 w hw))

/-- The number of vertices below `n` that have not been met. -/
def missing (found : Nat → Option Nat) : Nat → Nat
  | 0 => 0
  | n + 1 => missing found n + (if found n = none then 1 else 0)

theorem missing_upd {found : Nat → Option Nat} {w : Nat} {x : Option Nat} (hw : found w = none) (hx : x ≠ none) : ∀ (n : Nat),
    missing (upd found w x) n + (if w < n then 1 else 0) = missing found n
  | 0 => by simp [missing]
  | n + 1 => by
    have ih := missing_upd hw hx n
    rw [missing, missing]
    by_cases h : n = w
    · subst h
      rw [upd_same, if_neg hx, if_pos hw]
      rw [if_neg (by omega)] at ih
      rw [if_pos (by omega)]
      omega
    · rw [upd_other _ _ h]
      by_cases hl : w < n
      · rw [if_pos hl] at ih; rw [if_pos (show w < n + 1 by omega)]; omega
      · rw [if_neg hl] at ih; rw [if_neg (show ¬ w < n + 1 by omega)]; omega

theorem visit_cost {v n : Nat} : ∀ {ws : List Nat} {st : St}, (∀ w ∈ ws, w < n) → (visit v ws st).fr.length + missing (visit v ws st).found n = st.fr.length + missing st.found n
  | [], _, _ => rfl
  | w :: ws, st, h => by
    rw [visit]
    have h' : ∀ x ∈ ws, x < n := fun x hx => h x (List.mem_cons_of_mem _ hx)
    cases hf : st.found w with
    | some x => exact visit_cost h'
    | none =>
      dsimp only
      rw [visit_cost h']
      have := missing_upd (x := some v) hf (by simp) n
      rw [if_pos (h w List.mem_cons_self)] at this
      dsimp only
      rw [List.length_append, List.length_singleton]
      omega

theorem explore_ok {e : List (Nat × Nat)} {pick : Pick} {n : Nat} (he : ∀ x ∈ e, x.2 < n) (fuel : Nat) : ∀ {st : St}, st.fr.length + missing st.found n ≤ fuel →
    ∃ st', explore e pick fuel st = .ok st' := by
  induction fuel with
  | zero =>
    intro st h
    have : st.fr = [] := List.length_eq_zero_iff.1 (by omega)
    exact ⟨st, by rw [explore, if_pos this]⟩
  | succ k ih =>
    intro st h
    rw [explore]
    split
    · exact ⟨_, rfl⟩
    · rename_i v rest hp
      obtain ⟨-, -, -, p4⟩ := popAt_mem hp
      refine ih ?_
      rw [visit_cost]
      · dsimp only; omega
      · intro w hw
        obtain ⟨x, h3, rfl⟩ := List.mem_map.1 hw
        exact he x (List.mem_filter.1 h3).1

theorem missing_le (found : Nat → Option Nat) : ∀ n, missing found n ≤ n
  | 0 => Nat.le_refl _
  | n + 1 => by have := missing_le found n; rw [missing]; split <;> omega

end Verif.Boost
