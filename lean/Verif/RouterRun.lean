import Verif.RouterLemmas

/-!
# From the search to the route
-/

namespace Verif.Router

open Search Spec

/-! ## Consecutive elements -/

theorem linked_map {α β : Type} {R : α → α → Prop} {S : β → β → Prop} {f : α → β} :
    ∀ {l : List α}, (∀ x ∈ l, ∀ y ∈ l, R x y → S (f x) (f y)) → Linked R l → Linked S (l.map f)
  | [], _, _ => trivial
  | [_], _, _ => trivial
  | a :: b :: l, h, hl =>
    ⟨h a (by simp) b (by simp) hl.1, linked_map (l := b :: l) (fun x hx y hy => h x (by simp_all) y (by simp_all)) hl.2⟩

theorem linked_mono {α : Type} {R S : α → α → Prop} {l : List α} (h : ∀ x ∈ l, ∀ y ∈ l, R x y → S x y) (hl : Linked R l) : Linked S l := by
  have := linked_map (f := id) h hl
  simpa using this

theorem linked_tail {α : Type} {R : α → α → Prop} {a : α} {l : List α} (h : Linked R (a :: l)) : Linked R l := by
  cases l with
  | nil => trivial
  | cons b l => exact h.2

theorem linked_left {α : Type} {R : α → α → Prop} : ∀ {l m : List α}, Linked R (l ++ m) → Linked R l
  | [], _, _ => trivial
  | [_], _, _ => trivial
  | a :: b :: l, m, h => ⟨h.1, linked_left (l := b :: l) h.2⟩

theorem linked_last {α : Type} {R : α → α → Prop} {x c : α} : ∀ {l : List α}, Linked R (l ++ [x]) → l.getLast? = some c → R c x
  | [], _, h => by simp at h
  | [a], hl, h => by simp at h; subst h; exact hl.1
  | a :: b :: l, hl, h => linked_last (l := b :: l) hl.2 (by rw [List.getLast?_cons_cons] at h; exact h)

theorem linked_head {α : Type} {R : α → α → Prop} {x c : α} {l : List α} (hl : Linked R (x :: l)) (h : l.head? = some c) : R x c := by
  cases l with
  | nil => simp at h
  | cons a l => simp at h; subst h; exact hl.1

namespace Query

/-- The step of a route, from the cell nearer to the target to the one nearer to the source. -/
def Hop (q : Query) (x y : Cell) : Prop := Touching y x ∧ q.Link y x

theorem admissible_of {q} (h : Good q) {r : List Cell} (hin : ∀ c ∈ r, OnGrid q.layout c ∧ Passable q.edpc q.slice c)
    (hl : Linked q.Hop (q.tgt :: (r ++ [q.src]))) : Admissible q.layout q.slice q.edpc q.src q.srcOp q.tgt q.tgtOp r := by
  have hs := h.srcHeld
  have ht := h.tgtHeld
  refine ⟨?_, fun c hc => (hin c hc).1, fun c hc => (hin c hc).2, ?_, ?_, ?_⟩
  · exact linked_mono (fun x _ y _ hxy => faces_symm hxy.1) hl
  · intro he
    refine linked_mono ?_ (linked_left (linked_tail hl))
    intro x hx y hy hxy
    have hx' := (hin x hx).2
    have hy' := (hin y hy).2
    rcases hxy.2 with h1 | h1 | h1 | h1
    · exact fun hT => h1.2.2 ⟨he, hT⟩
    · rw [h1.1] at hy'; exact absurd hy' hs
    · rw [h1.1] at hy'; exact absurd hy' hs
    · rw [h1.2.1] at hx'; exact absurd hx' ht
  · intro c hc
    have := linked_last (l := q.tgt :: r) hl hc
    rcases this.2 with h1 | h1 | h1 | h1
    · exact absurd h1.1 hs
    · exact h1.2.2.1
    · exact h1.2.2
    · exact absurd h1.1 hs
  · intro c hc
    have := linked_head hl hc
    rcases this.2 with h1 | h1 | h1 | h1
    · exact absurd h1.2.1 ht
    · exact h1.2.2.2
    · exact absurd h1.2.1 ht
    · exact h1.2.2

theorem hops_inner {q : Query} : ∀ {r : List Cell}, Linked Touching (r ++ [q.src]) → (∀ c ∈ r, Passable q.edpc q.slice c) →
    (q.edpc = true → Linked (fun b a => ¬ Taken q.slice a b) r) → (∀ c, r.getLast? = some c → Offers q.slice q.src c q.srcOp) →
    Linked q.Hop (r ++ [q.src])
  | [], _, _, _, _ => trivial
  | [a], hc, hp, _, ho => ⟨⟨faces_symm hc.1, .inr (.inr (.inl ⟨rfl, hp a (by simp), ho a rfl⟩))⟩, trivial⟩
  | a :: b :: r, hc, hp, hu, ho => by
    refine ⟨⟨faces_symm hc.1, .inl ⟨hp b (by simp), hp a (by simp), fun hT => (hu hT.1).1 hT.2⟩⟩, ?_⟩
    exact hops_inner (r := b :: r) hc.2 (fun c hc => hp c (by simp_all)) (fun he => (hu he).2)
      (fun c hc => ho c (by rw [List.getLast?_cons_cons]; exact hc))

theorem hops_of {q : Query} {r : List Cell} (ha : Admissible q.layout q.slice q.edpc q.src q.srcOp q.tgt q.tgtOp r) :
    Linked q.Hop (q.tgt :: (r ++ [q.src])) := by
  cases r with
  | nil =>
    refine ⟨⟨faces_symm ha.chain.1, .inr (.inl ⟨rfl, rfl, ha.fromSrc _ rfl, ha.toTgt _ rfl⟩)⟩, trivial⟩
  | cons a r =>
    refine ⟨⟨faces_symm ha.chain.1, .inr (.inr (.inr ⟨ha.clear a (by simp), rfl, ha.toTgt _ rfl⟩))⟩, ?_⟩
    exact hops_inner (linked_tail ha.chain) ha.clear ha.untaken (fun c hc => ha.fromSrc c (by
      rw [List.getLast?_cons_cons]; exact hc))

theorem ops_of {q : Query} {r : List Cell} (ha : Admissible q.layout q.slice q.edpc q.src q.srcOp q.tgt q.tgtOp r) :
    (q.srcOp = .X ∨ q.srcOp = .Z) ∧ (q.tgtOp = .X ∨ q.tgtOp = .Z) := by
  have h1 : ∃ c, (q.tgt :: r).getLast? = some c := by
    cases h : (q.tgt :: r).getLast? with
    | none => simp at h
    | some c => exact ⟨c, rfl⟩
  have h2 : ∃ c, (r ++ [q.src]).head? = some c := by
    cases r with
    | nil => exact ⟨_, rfl⟩
    | cons a r => exact ⟨_, rfl⟩
  obtain ⟨c, hc⟩ := h1
  obtain ⟨d, hd⟩ := h2
  obtain ⟨_, _, _, _, h3⟩ := ha.fromSrc c hc
  obtain ⟨_, _, _, _, h4⟩ := ha.toTgt d hd
  exact ⟨by rcases h3 with h | h <;> simp [h.1], by rcases h4 with h | h <;> simp [h.1]⟩

theorem path_of {q} (h : Good q) (h1 : q.srcOp = .X ∨ q.srcOp = .Z) (h2 : q.tgtOp = .X ∨ q.tgtOp = .Z) :
    ∀ {r : List Cell} {x : Cell}, OnGrid q.layout x → (∀ c ∈ r, OnGrid q.layout c) → Linked q.Hop (x :: (r ++ [q.src])) →
    Path q.graph q.root (q.vertex x) (r.length + 1)
  | [], x, hx, _, hl => by
    have hh := hl.1
    refine .snoc (.refl _) (E_of h h1 h2 (root_lt h) hx ?_ ?_)
    · rw [cellOf_root h]; exact hh.1
    · rw [cellOf_root h]; exact hh.2
  | y :: r, x, hx, hr, hl => by
    have hy := hr y (by simp)
    have ih := path_of h h1 h2 hy (fun c hc => hr c (by simp [hc])) hl.2
    refine .snoc ih (E_of h h1 h2 (vertex_total h hy) hx ?_ ?_)
    · rw [cellOf_vertex h hy]; exact hl.1.1
    · rw [cellOf_vertex h hy]; exact hl.1.2

theorem admissible_path {q} (h : Good q) {r : List Cell} (ha : Admissible q.layout q.slice q.edpc q.src q.srcOp q.tgt q.tgtOp r) :
    Path q.graph q.root (q.vertex q.tgt) (r.length + 1) :=
  path_of h (ops_of ha).1 (ops_of ha).2 h.tgt ha.inside (hops_of ha)

/-! ## The walk back -/

theorem triples_linked {g : Graph} {root : Nat} : ∀ {r prec}, Triples prec r root → (∀ t ∈ r, E g t.2.2 t.2.1) →
    (∀ v, (r.map (·.2.1) ++ [root]).head? = some v → E g v prec) → Linked (fun x y => E g y x) (prec :: (r.map (·.2.1) ++ [root]))
  | [], prec, _, _, he => ⟨he root rfl, trivial⟩
  | (a, b, c) :: l, prec, ht, hE, he => by
    refine ⟨he b rfl, ?_⟩
    have hc : (l.map (·.2.1) ++ [root]).head? = some c := by
      have := ht.2.1
      cases l with
      | nil => simp at this ⊢; exact this.symm
      | cons t l => obtain ⟨_, b', _⟩ := t; simp at this ⊢; exact this.symm
    refine triples_linked ht.2.2 (fun t h => hE t (by simp [h])) ?_
    intro v hv
    rw [hc] at hv; cases hv
    exact hE (a, b, c) (by simp)

theorem reached_lt {g root st} (hi : Inv g root st) {v} (h : (st.pm v).dist ≠ none) : v < g.total := by
  by_cases hv : v = root
  · subst hv; exact hi.root_lt
  · cases hd : (st.pm v).dist with
    | none => exact absurd hd h
    | some d => exact (hi.step v d hv hd).1

theorem tgt_ne_root {q} (h : Good q) : q.vertex q.tgt ≠ q.root := by
  unfold root
  split
  · exact Nat.ne_of_lt (vertex_lt h h.tgt)
  · rename_i hc
    intro he
    exact hc (h.same.2 (vertex_inj h h.tgt h.src he).symm)

/-- What a returned region is made of. -/
structure Found (q : Query) (st : State) (ts : List (Nat × Nat × Nat)) : Prop where
  inv : Inv q.graph q.root st
  dist : ∃ d, (st.pm (q.vertex q.tgt)).dist = some d ∧ ts.length + 1 ≤ d
  triples : Triples (q.vertex q.tgt) ts q.root
  linked : Linked (fun x y => E q.graph y x) (q.vertex q.tgt :: (ts.map (·.2.1) ++ [q.root]))
  mids : ∀ t ∈ ts, (st.pm t.2.1).dist ≠ none ∧ t.2.1 ≠ q.root ∧ t.2.1 ≠ q.vertex q.tgt
  nodup : (ts.map (·.2.1)).Nodup

theorem found_of {q} (h : Good q) {st : State} (hi : Inv q.graph q.root st) {fuel ts}
    (hw : walk q.graph st.pm fuel (q.vertex q.tgt) (st.pm (q.vertex q.tgt)).pred = .ok (ts, q.root)) : Found q st ts := by
  have hne := tgt_ne_root h
  cases hd : (st.pm (q.vertex q.tgt)).dist with
  | none =>
    have hp := hi.unseen _ hd
    rw [hp] at hw
    exact absurd (walk_unseen hi hw hd).2.symm hne
  | some d =>
    obtain ⟨h1, d', h2, h3, h4⟩ := hi.step _ d hne hd
    obtain ⟨_, ht, hlen, hmem, hnil, hhead, hE, hnd⟩ := walk_spec hi hw (by rw [h2]; simp)
    refine ⟨hi, ⟨d, hd, by have := hlen d' h2; omega⟩, ht, ?_, ?_, hnd⟩
    · apply triples_linked ht hE
      intro v hv
      cases ts with
      | nil => simp at hv; subst hv; rw [← hnil rfl]; exact h4
      | cons t l => simp at hv; subst hv; rw [hhead t l rfl]; exact h4
    · intro t htm
      obtain ⟨x, y, hx, hy, hle, hr⟩ := hmem t htm
      refine ⟨by rw [hx]; simp, hr, ?_⟩
      intro he
      rw [he, hd] at hx; rw [h2] at hy; cases hx; cases hy; omega

theorem run_cases {q : Query} {pick stop o} (hr : q.run pick stop = .ok o) :
    ∃ s0 st ts e, q.start = .ok s0 ∧ loop q.graph pick (if stop then some (q.vertex q.tgt) else none) (q.size + 1) s0 = .ok st ∧
      walk q.graph st.pm (q.size + 2) (q.vertex q.tgt) (st.pm (q.vertex q.tgt)).pred = .ok (ts, e) ∧
      o = (if e = q.root then some { cells := ts.map q.regionCell } else none) := by
  unfold run at hr
  obtain ⟨s0, h0, hr⟩ := Outcome.bind_eq_ok.1 hr
  obtain ⟨st, hl, hr⟩ := Outcome.bind_eq_ok.1 hr
  split at hr
  case isFalse => cases hr
  case isTrue =>
  obtain ⟨⟨ts, e⟩, hw, hr⟩ := Outcome.bind_eq_ok.1 hr
  refine ⟨s0, st, ts, e, h0, hl, hw, ?_⟩
  cases hr
  rfl

theorem run_some {q} (h : Good q) {pick stop r} (hr : q.run pick stop = .ok (some r)) :
    ∃ s0 st ts, q.start = .ok s0 ∧ loop q.graph pick (if stop then some (q.vertex q.tgt) else none) (q.size + 1) s0 = .ok st ∧
      Found q st ts ∧ r = { cells := ts.map q.regionCell } := by
  obtain ⟨s0, st, ts, e, h0, hl, hw, ho⟩ := run_cases hr
  split at ho
  next he =>
    subst he
    cases ho
    obtain ⟨i0, c0, _⟩ := start_spec h h0
    exact ⟨s0, st, ts, h0, hl, found_of h (loop_spec i0 c0 hl).1 hw, rfl⟩
  next => cases ho

/-! ## The sides of the cells -/

theorem join_spec {q : Query} {p x : Cell} : ∀ {ns : List Cell} {o : OccCell}, (q.join p x ns o).cell = o.cell ∧
    ∀ n d, Faces o.cell n d → (q.join p x ns o).bounds.get d = if n ∈ ns ∧ (p = n ∨ x = n) then q.joined else o.bounds.get d
  | [], o => ⟨rfl, by intro n d _; simp [join]⟩
  | m :: ms, o => by
    simp only [join]
    have hstep : ∀ o', o' = (if p = m ∨ x = m then (o.setBoundaryWith m fun _ => q.joined).getD o else o) → o'.cell = o.cell ∧
        ∀ n d, Faces o.cell n d → o'.bounds.get d = if n = m ∧ (p = m ∨ x = m) then q.joined else o.bounds.get d := by
      rintro _ rfl
      by_cases hm : p = m ∨ x = m
      · rw [if_pos hm]
        unfold OccCell.setBoundaryWith
        cases hs : o.cell.sideTowards m with
        | none =>
          refine ⟨rfl, ?_⟩
          intro n d hd
          have : ¬ (n = m ∧ (p = m ∨ x = m)) := by
            rintro ⟨rfl, _⟩
            rw [sideTowards_iff.2 hd] at hs; cases hs
          rw [if_neg this]; rfl
        | some d0 =>
          refine ⟨rfl, ?_⟩
          intro n d hd
          have hf0 := sideTowards_iff.1 hs
          simp only [Option.map_some, Option.getD_some]
          by_cases hnm : n = m
          · subst hnm
            have := sideTowards_iff.2 hd
            rw [hs] at this; cases this
            rw [if_pos ⟨rfl, hm⟩]
            cases d0 <;> rfl
          · rw [if_neg (fun hc => hnm hc.1)]
            have hdd : d ≠ d0 := by
              rintro rfl
              apply hnm
              obtain ⟨nr, nc⟩ := n
              obtain ⟨mr, mc⟩ := m
              cases d <;> simp only [Faces] at hd hf0 <;> simp only [Cell.mk.injEq] <;> omega
            cases d <;> cases d0 <;> first | rfl | exact absurd rfl hdd
      · rw [if_neg hm]
        exact ⟨rfl, by intro n d _; rw [if_neg (fun hc => hm hc.2)]⟩
    obtain ⟨hc, hb⟩ := hstep _ rfl
    generalize (if p = m ∨ x = m then (o.setBoundaryWith m fun _ => q.joined).getD o else o) = o' at hc hb
    obtain ⟨i1, i2⟩ := join_spec (q := q) (p := p) (x := x) (ns := ms) (o := o')
    refine ⟨i1.trans hc, ?_⟩
    intro n d hd
    rw [i2 n d (by rw [hc]; exact hd), hb n d hd]
    by_cases h1 : n ∈ ms ∧ (p = n ∨ x = n)
    · rw [if_pos h1, if_pos ⟨by simp [h1.1], h1.2⟩]
    · rw [if_neg h1]
      by_cases h2 : n = m ∧ (p = m ∨ x = m)
      · rw [if_pos h2, if_pos ⟨by simp [h2.1], by rw [h2.1]; exact h2.2⟩]
      · rw [if_neg h2]
        by_cases h3 : n ∈ m :: ms ∧ (p = n ∨ x = n)
        · rcases List.mem_cons.1 h3.1 with rfl | h4
          · exact absurd ⟨rfl, h3.2⟩ h2
          · exact absurd ⟨h4, h3.2⟩ h1
        · rw [if_neg h3]

theorem all_get (b : Boundary) (d : CellDirection) : (CellBoundaries.all b).get d = b := by cases d <;> rfl

theorem marked_of {q} (h : Good q) : ∀ {ts prec}, Triples prec ts q.root → prec < q.graph.total → (∀ t ∈ ts, t.2.1 < q.graph.total) →
    Linked (fun x y => E q.graph y x) (prec :: (ts.map (·.2.1) ++ [q.root])) →
    Marked q.joined (q.cellOf prec) (ts.map q.regionCell) q.src
  | [], _, _, _, _, _ => trivial
  | (a, b, c) :: l, prec, ht, hp, hlt, hl => by
    have hcell : (q.regionCell (a, b, c)).cell = q.cellOf b := (join_spec (q := q)).1
    have hb : b < q.graph.total := hlt (a, b, c) (by simp)
    have hgb := onGrid_cellOf h hb
    have hnext : ∃ z l', l.map (·.2.1) ++ [q.root] = z :: l' ∧ c = z ∧ z < q.graph.total := by
      have := ht.2.1
      cases l with
      | nil => exact ⟨q.root, [], rfl, this, root_lt h⟩
      | cons t l => obtain ⟨a', b', c'⟩ := t; exact ⟨b', _, rfl, this, hlt (a', b', c') (by simp)⟩
    obtain ⟨z, l', hz, hcz, hzlt⟩ := hnext
    have hl2 : Linked (fun x y => E q.graph y x) (b :: (l.map (·.2.1) ++ [q.root])) := hl.2
    have hpb := E_spec h hb hl.1
    rw [hz] at hl2
    have hzb := E_spec h hzlt hl2.1
    have hnextcell : nextCell q.src (l.map q.regionCell) = q.cellOf c := by
      cases l with
      | nil => have := ht.2.1; simp only at this; subst this; exact (cellOf_root h).symm
      | cons t l =>
        obtain ⟨a', b', c'⟩ := t
        have := ht.2.1; simp only at this; subst this
        exact (join_spec (q := q)).1
    refine ⟨?_, ?_⟩
    · intro n d hd
      rw [hnextcell]
      have hd' : Faces (q.cellOf b) n d := by rw [← hcell]; exact hd
      have hj := (join_spec (q := q) (p := q.cellOf a) (x := q.cellOf c) (ns := q.neighbours (q.cellOf b)) (o := ⟨.all ⟨.none, false⟩, q.cellOf b⟩)).2 n d hd'
      have hdef : (q.regionCell (a, b, c)).bounds.get d =
          (q.join (q.cellOf a) (q.cellOf c) (q.neighbours (q.cellOf b)) ⟨.all ⟨.none, false⟩, q.cellOf b⟩).bounds.get d := rfl
      rw [hdef, hj, all_get]
      have ha : a = prec := ht.1
      subst ha
      by_cases hn : n = q.cellOf a ∨ n = q.cellOf c
      · rw [if_pos hn, if_pos]
        refine ⟨(mem_neighbours hgb).2 ?_, by rcases hn with rfl | rfl <;> simp⟩
        rcases hn with rfl | rfl
        · exact ⟨hpb.2.2.1, hpb.1⟩
        · rw [hcz]; exact ⟨faces_symm hzb.2.2.1, onGrid_cellOf h hzlt⟩
      · rw [if_neg hn, if_neg]
        rintro ⟨_, h1 | h1⟩
        · exact hn (.inl h1.symm)
        · exact hn (.inr h1.symm)
    · rw [hcell]
      exact marked_of h ht.2.2 hb (fun t htm => hlt t (by simp [htm])) hl.2

theorem found_admissible {q} (h : Good q) {st ts} (hf : Found q st ts) :
    Admissible q.layout q.slice q.edpc q.src q.srcOp q.tgt q.tgtOp (ts.map fun t => q.cellOf t.2.1) ∧
    (ts.map fun t => q.cellOf t.2.1).Nodup ∧ Marked q.joined q.tgt (ts.map q.regionCell) q.src := by
  have hlt : ∀ t ∈ ts, t.2.1 < q.graph.total := fun t ht => reached_lt hf.inv (hf.mids t ht).1
  have hmem : ∀ y ∈ q.vertex q.tgt :: (ts.map (·.2.1) ++ [q.root]), y < q.graph.total := by
    intro y hy
    simp only [List.mem_cons, List.mem_append, List.mem_map, List.not_mem_nil, or_false] at hy
    rcases hy with rfl | ⟨t, ht, rfl⟩ | rfl
    · exact vertex_total h h.tgt
    · exact hlt t ht
    · exact root_lt h
  have hcells : Linked q.Hop (q.tgt :: ((ts.map fun t => q.cellOf t.2.1) ++ [q.src])) := by
    have := linked_map (S := q.Hop) (f := q.cellOf) (fun x hx y hy hxy => by
      have := E_spec h (hmem y hy) hxy
      exact ⟨this.2.2.1, this.2.2.2⟩) hf.linked
    simp only [List.map_cons, List.map_append, List.map_map, List.map_nil, cellOf_vertex h h.tgt, cellOf_root h] at this
    exact this
  have hself : ∀ t ∈ ts, t.2.1 = q.vertex (q.cellOf t.2.1) := by
    intro t ht
    cases hd : (st.pm t.2.1).dist with
    | none => exact absurd hd (hf.mids t ht).1
    | some d =>
      obtain ⟨_, d', h2, _, h4⟩ := hf.inv.step _ d (hf.mids t ht).2.1 hd
      exact (E_spec h (reached_lt hf.inv (by rw [h2]; simp)) h4).2.1
  -- a cell of the route is neither the source nor the target
  have hnot : ∀ t ∈ ts, q.cellOf t.2.1 ≠ q.src ∧ q.cellOf t.2.1 ≠ q.tgt := by
    intro t ht
    have h1 := hself t ht
    have htgt : q.cellOf t.2.1 ≠ q.tgt := by
      intro he; rw [he] at h1; exact (hf.mids t ht).2.2 h1
    refine ⟨?_, htgt⟩
    intro he
    have hr := (hf.mids t ht).2.1
    unfold root at hr
    split at hr
    next hc => rw [h.same.1 hc] at he; exact htgt he
    next hc => rw [he] at h1; exact hr h1
  have hpass : ∀ t ∈ ts, Passable q.edpc q.slice (q.cellOf t.2.1) := by
    intro t ht
    cases hd : (st.pm t.2.1).dist with
    | none => exact absurd hd (hf.mids t ht).1
    | some d =>
      obtain ⟨_, d', h2, _, h4⟩ := hf.inv.step _ d (hf.mids t ht).2.1 hd
      have := (E_spec h (reached_lt hf.inv (by rw [h2]; simp)) h4).2.2.2
      rcases this with h1 | h1 | h1 | h1
      · exact h1.2.1
      · exact absurd h1.2.1 (hnot t ht).2
      · exact h1.2.1
      · exact absurd h1.2.1 (hnot t ht).2
  refine ⟨admissible_of h ?_ hcells, ?_, ?_⟩
  · intro c hc
    obtain ⟨t, ht, rfl⟩ := List.mem_map.1 hc
    exact ⟨onGrid_cellOf h (hlt t ht), hpass t ht⟩
  · have hnd := hf.nodup
    clear hcells hmem
    have hlt' := hself
    clear hself hnot hpass hlt hf
    induction ts with
    | nil => simp
    | cons t l ih =>
      rw [List.map_cons, List.nodup_cons] at hnd ⊢
      refine ⟨?_, ih hnd.2 (fun x hx => hlt' x (by simp [hx]))⟩
      intro hm
      obtain ⟨y, hy, he⟩ := List.mem_map.1 hm
      apply hnd.1
      refine List.mem_map.2 ⟨y, hy, ?_⟩
      rw [hlt' y (by simp [hy]), he, ← hlt' t (by simp)]
  · have := marked_of h hf.triples (vertex_total h h.tgt) hlt hf.linked
    rw [cellOf_vertex h h.tgt] at this
    exact this

/-- The search returns. -/
theorem run_ok {q} (h : Good q) (h1 : q.srcOp = .X ∨ q.srcOp = .Z) (h2 : q.tgtOp = .X ∨ q.tgtOp = .Z) (pick : Pick) (stop : Bool) :
    ∃ o, q.run pick stop = .ok o := by
  obtain ⟨s0, h0, hl0⟩ := start_ok h h1 h2
  obtain ⟨i0, c0, _⟩ := start_spec h h0
  have b0 := start_bounded h h0
  obtain ⟨st, hst⟩ := loop_ok (pick := pick) (early := if stop then some (q.vertex q.tgt) else none)
    (fun v st hi hv _ => next_ok h h1 h2 (reached_lt hi hv)) i0 hl0
  have hi := (loop_spec i0 c0 hst).1
  have hb := loop_bounded i0 b0 hst
  have htl := total_le q
  have hw : ∃ r, walk q.graph st.pm (q.size + 2) (q.vertex q.tgt) (st.pm (q.vertex q.tgt)).pred = .ok r := by
    cases hd : (st.pm (q.vertex q.tgt)).dist with
    | none =>
      have hp := hi.unseen _ hd
      simp only [walk]
      rw [hp, if_pos (vertex_total h h.tgt), if_pos hp.symm]
      exact ⟨_, rfl⟩
    | some d =>
      obtain ⟨_, d', h3, _, _⟩ := hi.step _ d (tgt_ne_root h) hd
      exact walk_ok hi h3 (by have := hb _ _ h3; omega)
  obtain ⟨r, hr⟩ := hw
  refine ⟨if r.2 = (if q.cycle then q.size else q.vertex q.src) then some { cells := r.1.map q.regionCell } else none, ?_⟩
  · unfold run
    rw [h0, Outcome.bind_ok, hst, Outcome.bind_ok, if_pos (vertex_total h h.tgt), hr, Outcome.bind_ok]

/-- No route reported: the target was not reached. -/
theorem run_none {q} (h : Good q) {pick stop} (hr : q.run pick stop = .ok none) {n : Nat} (hp : Path q.graph q.root (q.vertex q.tgt) n) : False := by
  obtain ⟨s0, st, ts, e, h0, hl, hw, ho⟩ := run_cases hr
  obtain ⟨i0, c0, _⟩ := start_spec h h0
  obtain ⟨hi, hend⟩ := loop_spec i0 c0 hl
  have hd : (st.pm (q.vertex q.tgt)).dist ≠ none := by
    rcases hend with ⟨hf, hc⟩ | ⟨v, hv, hd⟩
    · exact closed_path hi hf hc hp
    · cases stop with
      | true => simp only [if_true] at hv; cases hv; exact hd
      | false => simp at hv
  cases hdd : (st.pm (q.vertex q.tgt)).dist with
  | none => exact hd hdd
  | some d =>
    obtain ⟨_, d', h3, _, _⟩ := hi.step _ d (tgt_ne_root h) hdd
    have := (walk_spec hi hw (by rw [h3]; simp)).1
    rw [if_pos this] at ho; cases ho

theorem run_short {q} (h : Good q) {pick r} (hpick : MinFirst pick) (hr : q.run pick false = .ok (some r)) {n : Nat}
    (hp : Path q.graph q.root (q.vertex q.tgt) n) : r.cells.length + 1 ≤ n := by
  obtain ⟨s0, st, ts, h0, hl, hf, rfl⟩ := run_some h hr
  obtain ⟨i0, _, o0⟩ := start_spec h h0
  simp only [Bool.false_eq_true, if_false] at hl
  obtain ⟨hi, hfr, ho⟩ := loop_min hpick i0 o0 hl
  obtain ⟨d, hd, hle⟩ := ordered_path hi hfr ho hp
  obtain ⟨d', hd', hle'⟩ := hf.dist
  rw [hd] at hd'; cases hd'
  simp only [List.length_map]; omega

end Query
end Verif.Router
