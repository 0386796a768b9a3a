import Verif.Dag

namespace Verif.Dag
open Graph

/-! ## Reachability and `expand` -/

theorem consec_reach {g : Graph} {l : List Label} (h : ∀ a b, Consec l a b → g.Edge a b) :
    ∀ l1 a l2 b l3, l = l1 ++ a :: l2 ++ b :: l3 → g.Reach a b := by
  intro l1 a l2
  induction l2 generalizing l1 a with
  | nil => intro b l3 hl; exact Relation.TransGen.single (h a b ⟨l1, l3, by simp [hl]⟩)
  | cons c l2 ih =>
    intro b l3 hl
    have h1 : g.Edge a c := h a c ⟨l1, l2 ++ b :: l3, by simp [hl]⟩
    have h2 : g.Reach c b := ih (l1 ++ [a]) c b l3 (by simp [hl])
    exact Relation.TransGen.trans (Relation.TransGen.single h1) h2

/-- Reflexive reachability. -/
def Graph.ReachR (g : Graph) (a b : Label) : Prop := a = b ∨ g.Reach a b

theorem ReachR.trans_left {g : Graph} {a b c : Label} (h1 : g.ReachR a b) (h2 : g.Reach b c) : g.Reach a c := by
  rcases h1 with rfl | h1
  · exact h2
  · exact Relation.TransGen.trans h1 h2

theorem ReachR.trans_right {g : Graph} {a b c : Label} (h1 : g.Reach a b) (h2 : g.ReachR b c) : g.Reach a c := by
  rcases h2 with rfl | h2
  · exact h1
  · exact Relation.TransGen.trans h1 h2

theorem consec_first {g : Graph} {r0 : Label} {rs : List Label} (h : ∀ a b, Consec (r0 :: rs) a b → g.Edge a b)
    {x : Label} (hx : x ∈ r0 :: rs) : g.ReachR r0 x := by
  rcases List.mem_cons.1 hx with rfl | hx
  · exact Or.inl rfl
  · obtain ⟨l2, l3, rfl⟩ := List.append_of_mem hx
    exact Or.inr (consec_reach h [] r0 l2 x l3 (by simp))

theorem consec_last {g : Graph} {r : List Label} (hne : r ≠ []) (h : ∀ a b, Consec r a b → g.Edge a b)
    {x : Label} (hx : x ∈ r) : g.ReachR x (r.getLast hne) := by
  obtain ⟨l1, l2, rfl⟩ := List.append_of_mem hx
  rcases List.eq_nil_or_concat l2 with rfl | ⟨l3, z, rfl⟩
  · left; simp
  · right
    have : (l1 ++ x :: l3.concat z).getLast hne = z := by
      have h0 : l1 ++ x :: l3.concat z = (l1 ++ x :: l3) ++ [z] := by simp
      simp only [h0, List.getLast_concat]
    rw [this]
    exact consec_reach h l1 x l3 z [] (by simp)

/-- What a node of the old graph becomes. -/
def Img (t : Label) (r : List Label) (x x' : Label) : Prop := (x ≠ t ∧ x' = x) ∨ (x = t ∧ x' ∈ r)

section expand
variable {g g' : Graph} {t r0 : Label} {rs : List Label}

theorem expand_eq_spec (hw : g.WF) (h : g.expand t (r0 :: rs) = .ok g') :
    g'.WF ∧ (∀ y, y ∈ g'.nodes ↔ (y ∈ g.nodes ∧ y ≠ t) ∨ y ∈ r0 :: rs) ∧
      ∀ x y, g'.Edge x y ↔ Consec (r0 :: rs) x y ∨
        ∃ a b, g.Edge a b ∧ x = backOf t ((r0 :: rs).getLast (by simp)) a ∧ y = frontOf t r0 b := by
  obtain ⟨ht, r0', rs', hr, hnew⟩ := expand_ok h
  obtain ⟨g1, h1, h2, h3, h4⟩ := expand_spec hw ht hnew
  rw [h1] at h; cases h
  exact ⟨h2, h3, h4⟩

theorem reach_expand_fwd (hw : g.WF) (h : g.expand t (r0 :: rs) = .ok g') {x y : Label} (hr : g.Reach x y)
    {x' y' : Label} (hx : Img t (r0 :: rs) x x') (hy : Img t (r0 :: rs) y y') : g'.Reach x' y' := by
  obtain ⟨_, _, he⟩ := expand_eq_spec hw h
  have hc : ∀ a b, Consec (r0 :: rs) a b → g'.Edge a b := fun a b hab => (he a b).2 (Or.inl hab)
  have hbk : ∀ a a', Img t (r0 :: rs) a a' → g'.ReachR a' (backOf t ((r0 :: rs).getLast (by simp)) a) := by
    rintro a a' (⟨h1, rfl⟩ | ⟨rfl, h2⟩)
    · left; simp [backOf, h1]
    · simpa [backOf] using consec_last (by simp) hc h2
  have hfr : ∀ b b', Img t (r0 :: rs) b b' → g'.ReachR (frontOf t r0 b) b' := by
    rintro b b' (⟨h1, rfl⟩ | ⟨rfl, h2⟩)
    · left; simp [frontOf, h1]
    · simpa [frontOf] using consec_first hc h2
  have hstep : ∀ a b a' b', g.Edge a b → Img t (r0 :: rs) a a' → Img t (r0 :: rs) b b' → g'.Reach a' b' := by
    intro a b a' b' e ha hb
    have e' := (he _ _).2 (Or.inr ⟨a, b, e, rfl, rfl⟩)
    exact ReachR.trans_left (hbk a a' ha) (ReachR.trans_right (Relation.TransGen.single e') (hfr b b' hb))
  have himg : ∀ a, ∃ a', Img t (r0 :: rs) a a' := by
    intro a
    by_cases ha : a = t
    · exact ⟨r0, Or.inr ⟨ha, by simp⟩⟩
    · exact ⟨a, Or.inl ⟨ha, rfl⟩⟩
  induction hr generalizing y' with
  | single e => exact hstep _ _ _ _ e hx hy
  | @tail b c _ e ih =>
    obtain ⟨b', hb'⟩ := himg b
    exact Relation.TransGen.trans (ih hb') (hstep _ _ _ _ e hb' hy)

/-- Position-free version: edges of the expanded graph project to edges of the old graph, or are
steps inside the chain. -/
theorem edge_expand_back (hw : g.WF) (h : g.expand t (r0 :: rs) = .ok g') {x y : Label} (e : g'.Edge x y) :
    Consec (r0 :: rs) x y ∨ ∃ a b, g.Edge a b ∧ Img t (r0 :: rs) a x ∧ Img t (r0 :: rs) b y := by
  obtain ⟨_, _, he⟩ := expand_eq_spec hw h
  rcases (he x y).1 e with h1 | ⟨a, b, h1, rfl, rfl⟩
  · exact Or.inl h1
  · right
    refine ⟨a, b, h1, ?_, ?_⟩
    · unfold backOf; split
      · rename_i ha; exact Or.inr ⟨ha, List.getLast_mem _⟩
      · rename_i ha; exact Or.inl ⟨ha, rfl⟩
    · unfold frontOf; split
      · rename_i hb; exact Or.inr ⟨hb, by simp⟩
      · rename_i hb; exact Or.inl ⟨hb, rfl⟩

/-- Earlier/later inside the chain. -/
def Before (r : List Label) (x y : Label) : Prop := ∃ l1 l2 l3, r = l1 ++ x :: l2 ++ y :: l3

theorem Before.trans {r : List Label} (hd : r.Nodup) {x y z : Label} (h1 : Before r x y) (h2 : Before r y z) :
    Before r x z := by
  obtain ⟨a1, a2, a3, ha⟩ := h1
  obtain ⟨b1, b2, b3, hb⟩ := h2
  -- the unique occurrence of y
  have hsplit : a1 ++ x :: a2 = b1 ∧ a3 = b2 ++ z :: b3 := by
    have h : (a1 ++ x :: a2) ++ y :: a3 = b1 ++ y :: (b2 ++ z :: b3) := by
      rw [← ha, hb]; simp
    have hd' : ((a1 ++ x :: a2) ++ y :: a3).Nodup := ha ▸ hd
    have hy1 : y ∉ a1 ++ x :: a2 := by
      intro hm
      have := (List.nodup_append.1 hd').2.2 y hm y (by simp)
      exact this rfl
    have hd'' : (b1 ++ y :: (b2 ++ z :: b3)).Nodup := h ▸ hd'
    have hy2 : y ∉ b1 := by
      intro hm
      have := (List.nodup_append.1 hd'').2.2 y hm y (by simp)
      exact this rfl
    have key : ∀ (u v : List Label) (p q : List Label), y ∉ u → y ∉ v → u ++ y :: p = v ++ y :: q → u = v ∧ p = q := by
      intro u
      induction u with
      | nil =>
        intro v p q _ hv h
        cases v with
        | nil => simp at h; exact ⟨rfl, h⟩
        | cons c v => simp at h; simp [h.1] at hv
      | cons c u ih =>
        intro v p q hu hv h
        cases v with
        | nil => simp at h; simp [h.1] at hu
        | cons d v =>
          simp at h hu hv
          obtain ⟨h1, h2⟩ := ih v p q hu.2 hv.2 h.2
          exact ⟨by simp [h.1, h1], h2⟩
    exact key _ _ _ _ hy1 hy2 h
  obtain ⟨rfl, rfl⟩ := hsplit
  exact ⟨a1, a2 ++ y :: b2, b3, by simp [ha]⟩

theorem Before.irrefl {r : List Label} (hd : r.Nodup) {x : Label} : ¬ Before r x x := by
  rintro ⟨a, b, c, rfl⟩
  have := (List.nodup_append.1 hd).2.2 x (by simp) x (by simp)
  exact this rfl

/-- A path of the expanded graph projects to a path of the old graph or stays inside the chain. -/
theorem reach_expand_back (hw : g.WF) (h : g.expand t (r0 :: rs) = .ok g') (hd : (r0 :: rs).Nodup)
    {x y : Label} (hr : g'.Reach x y) :
    (∃ a b, g.Reach a b ∧ Img t (r0 :: rs) a x ∧ Img t (r0 :: rs) b y) ∨ Before (r0 :: rs) x y := by
  obtain ⟨ht, _, _, _, hnew⟩ := expand_ok h
  have hnot : ∀ x ∈ r0 :: rs, x ≠ t := fun x hx e => hnew x hx (e ▸ ht)
  -- images are injective on nodes
  have hinj : ∀ a b x, a ∈ g.nodes → b ∈ g.nodes → Img t (r0 :: rs) a x → Img t (r0 :: rs) b x → a = b := by
    rintro a b x ha hb (⟨h1, rfl⟩ | ⟨rfl, h2⟩) (⟨h3, h4⟩ | ⟨h3, h4⟩)
    · exact h4
    · exact absurd ha (hnew _ h4)
    · subst h4; exact absurd hb (hnew _ h2)
    · exact h3.symm
  have hbmem : ∀ {x y}, Before (r0 :: rs) x y → x ∈ r0 :: rs ∧ y ∈ r0 :: rs := by
    rintro x y ⟨l1, l2, l3, e⟩; rw [e]; simp
  have hmemR : ∀ {a b}, g.Reach a b → a ∈ g.nodes ∧ b ∈ g.nodes := by
    intro a b hab
    induction hab with
    | single e => exact ⟨e.1, (WF_iff.1 hw).2.2.2.1 _ _ e⟩
    | tail _ e ih => exact ⟨ih.1, (WF_iff.1 hw).2.2.2.1 _ _ e⟩
  induction hr with
  | single e =>
    rcases edge_expand_back hw h e with ⟨l1, l2, e⟩ | ⟨a, b, e, ha, hb⟩
    · right; exact ⟨l1, [], l2, by simp [e]⟩
    · left; exact ⟨a, b, Relation.TransGen.single e, ha, hb⟩
  | @tail y z hxy e ih =>
    rcases edge_expand_back hw h e with ⟨l1, l2, e⟩ | ⟨b', c, e, hb', hc⟩
    · have hyz : Before (r0 :: rs) y z := ⟨l1, [], l2, by simp [e]⟩
      rcases ih with ⟨a, b, hab, ha, hb⟩ | hb
      · left
        refine ⟨a, b, hab, ha, ?_⟩
        have hy : y ∈ r0 :: rs := (hbmem hyz).1
        rcases hb with ⟨_, rfl⟩ | ⟨rfl, _⟩
        · exact absurd (hmemR hab).2 (hnew _ hy)
        · exact Or.inr ⟨rfl, (hbmem hyz).2⟩
      · right; exact hb.trans hd hyz
    · left
      rcases ih with ⟨a, b, hab, ha, hb⟩ | hb
      · have : b = b' := hinj b b' y (hmemR hab).2 e.1 hb hb'
        subst this
        exact ⟨a, c, Relation.TransGen.tail hab e, ha, hc⟩
      · have hb't : b' = t := by
          rcases hb' with ⟨_, rfl⟩ | ⟨rfl, _⟩
          · exact absurd e.1 (hnew _ (hbmem hb).2)
          · rfl
        subst hb't
        exact ⟨b', c, Relation.TransGen.single e, Or.inr ⟨rfl, (hbmem hb).1⟩, hc⟩

theorem acyclic_expand (hw : g.WF) (hac : g.Acyclic) (h : g.expand t (r0 :: rs) = .ok g') (hd : (r0 :: rs).Nodup) :
    g'.Acyclic := by
  intro x hx
  obtain ⟨ht, _, _, _, hnew⟩ := expand_ok h
  rcases reach_expand_back hw h hd hx with ⟨a, b, hab, ha, hb⟩ | hb
  · have hmem : a ∈ g.nodes ∧ b ∈ g.nodes := by
      clear ha hb hx
      induction hab with
      | single e => exact ⟨e.1, (WF_iff.1 hw).2.2.2.1 _ _ e⟩
      | tail _ e ih => exact ⟨ih.1, (WF_iff.1 hw).2.2.2.1 _ _ e⟩
    have : a = b := by
      rcases ha with ⟨h1, rfl⟩ | ⟨rfl, h2⟩ <;> rcases hb with ⟨h3, h4⟩ | ⟨h3, h4⟩
      · exact h4
      · exact absurd hmem.1 (hnew _ h4)
      · subst h4; exact absurd hmem.2 (hnew _ h2)
      · exact h3.symm
    subst this
    exact hac a hab
  · exact Before.irrefl hd hb

end expand

/-! ## Taking out a head -/

theorem mem_heads {g : Graph} (hw : g.WF) {l : Label} : l ∈ g.heads ↔ l ∈ g.nodes ∧ ∀ a, ¬ g.Edge a l := by
  unfold heads
  simp only [List.mem_filter, decide_eq_true_eq, List.length_eq_zero_iff]
  constructor
  · rintro ⟨h1, h2⟩
    refine ⟨h1, fun a e => ?_⟩
    have := (((WF_iff.1 hw).2.2.2.2 a l).1 e).2
    rw [h2] at this; simp at this
  · rintro ⟨h1, h2⟩
    refine ⟨h1, ?_⟩
    cases hp : g.pred l with
    | nil => rfl
    | cons p ps =>
      exact absurd (((WF_iff.1 hw).2.2.2.2 p l).2 ⟨h1, by simp [hp]⟩) (h2 p)

theorem reach_removeHead {g g' : Graph} {h : Label} (hh : ∀ a, ¬ g.Edge a h)
    (he : ∀ a b, g'.Edge a b ↔ g.Edge a b ∧ a ≠ h ∧ b ≠ h) {x y : Label} (hx : x ≠ h) (hr : g.Reach x y) :
    g'.Reach x y := by
  have hne : ∀ {a b}, g.Edge a b → b ≠ h := fun e hb => hh _ (hb ▸ e)
  induction hr with
  | single e => exact Relation.TransGen.single ((he _ _).2 ⟨e, hx, hne e⟩)
  | tail hr e ih =>
    refine Relation.TransGen.tail ih ((he _ _).2 ⟨e, ?_, hne e⟩)
    cases hr with
    | single e' => exact hne e'
    | tail _ e' => exact hne e'

theorem acyclic_of_sub {g g' : Graph} (hac : g.Acyclic) (he : ∀ a b, g'.Edge a b → g.Edge a b) : g'.Acyclic := by
  intro x hx
  refine hac x ?_
  have : ∀ y, g'.Reach x y → g.Reach x y := by
    intro y hy
    induction hy with
    | single e => exact Relation.TransGen.single (he _ _ e)
    | tail _ e ih => exact Relation.TransGen.tail ih (he _ _ e)
  exact this x hx

/-! ## Building the graph -/

variable {I : Type}

theorem linkNew_spec (comm : I → I → Bool) (instr : Label → Option I) (new : Label) (b : I) (hb : instr new = some b)
    (es : List Label) {g : Graph} (hw : g.WF) (hnew : new ∈ g.nodes)
    (hes : ∀ e ∈ es, e ∈ g.nodes ∧ ∃ a, instr e = some a) :
    ∃ g', DDag.linkNew comm instr new g es = .ok g' ∧ g'.WF ∧ (∀ x, x ∈ g'.nodes ↔ x ∈ g.nodes) ∧
      ∀ x y, g'.Edge x y ↔ g.Edge x y ∨ (y = new ∧ x ∈ es ∧ x ≠ new ∧ ∃ a, instr x = some a ∧ comm a b = false) := by
  induction es generalizing g with
  | nil => exact ⟨g, rfl, hw, fun _ => Iff.rfl, by simp⟩
  | cons e es ih =>
    unfold DDag.linkNew
    obtain ⟨hen, a, ha⟩ := hes e (by simp)
    by_cases h1 : e = new
    · obtain ⟨g', h2, h3, h4, h5⟩ := ih hw hnew (fun x hx => hes x (by simp [hx]))
      refine ⟨g', by simp [h1, h2], h3, h4, ?_⟩
      intro x y; rw [h5]
      constructor
      · rintro (h | ⟨p, q, r, s⟩)
        · exact Or.inl h
        · exact Or.inr ⟨p, by simp [q], r, s⟩
      · rintro (h | ⟨p, q, r, s⟩)
        · exact Or.inl h
        · simp [h1, r] at q; exact Or.inr ⟨p, q, r, s⟩
    · simp only [h1, if_false, ha, hb]
      by_cases hc : comm a b = true
      · obtain ⟨g', h2, h3, h4, h5⟩ := ih hw hnew (fun x hx => hes x (by simp [hx]))
        refine ⟨g', by simp [hc, h2], h3, h4, ?_⟩
        intro x y; rw [h5]
        constructor
        · rintro (h | ⟨p, q, r, s⟩)
          · exact Or.inl h
          · exact Or.inr ⟨p, by simp [q], r, s⟩
        · rintro (h | ⟨p, q, r, s⟩)
          · exact Or.inl h
          · rcases List.mem_cons.1 q with rfl | q
            · obtain ⟨a', h6, h7⟩ := s
              rw [ha] at h6; cases h6; simp [hc] at h7
            · exact Or.inr ⟨p, q, r, s⟩
      · obtain ⟨g', h2, h3, h4, h5⟩ := ih (hw.addEdge e new) (by rw [mem_addEdge]; simp)
          (fun x hx => ⟨by rw [mem_addEdge]; exact Or.inl (hes x (by simp [hx])).1, (hes x (by simp [hx])).2⟩)
        refine ⟨g', by simp [hc, h2], h3, ?_, ?_⟩
        · intro x; rw [h4, mem_addEdge]
          constructor
          · rintro (h | rfl | rfl)
            · exact h
            · exact hnew
            · exact hen
          · exact Or.inl
        · intro x y; rw [h5, edge_addEdge]
          constructor
          · rintro ((h | ⟨rfl, rfl⟩) | ⟨p, q, r, s⟩)
            · exact Or.inl h
            · exact Or.inr ⟨rfl, by simp, h1, a, ha, by simpa using hc⟩
            · exact Or.inr ⟨p, by simp [q], r, s⟩
          · rintro (h | ⟨p, q, r, s⟩)
            · exact Or.inl (Or.inl h)
            · rcases List.mem_cons.1 q with rfl | q
              · exact Or.inl (Or.inr ⟨rfl, p⟩)
              · exact Or.inr ⟨p, q, r, s⟩

/-- What the graph looks like after pushing the instructions `P`. -/
structure Built (comm : I → I → Bool) (P : List I) (d : DDag I) : Prop where
  wf : d.graph.WF
  next : d.next = P.length
  nodes : ∀ x, x ∈ d.graph.nodes ↔ x < P.length
  instr : ∀ x, d.instr x = P[x]?
  edge : ∀ x y, d.graph.Edge x y ↔ x < y ∧ ∃ a b, P[x]? = some a ∧ P[y]? = some b ∧ comm a b = false
  prox : d.proxDeps = [] ∧ d.proxHeads = []

theorem acyclic_of_lt {g : Graph} (h : ∀ x y, g.Edge x y → x < y) : g.Acyclic := by
  have : ∀ x y, g.Reach x y → x < y := by
    intro x y hr
    induction hr with
    | single e => exact h _ _ e
    | tail _ e ih => exact Nat.lt_trans ih (h _ _ e)
  intro x hx
  exact Nat.lt_irrefl _ (this x x hx)

theorem built_empty (comm : I → I → Bool) : Built comm [] (DDag.empty : DDag I) := by
  refine ⟨WF_empty, rfl, by simp [DDag.empty, Graph.empty], by simp [DDag.empty], ?_, rfl, rfl⟩
  intro x y; simp [DDag.empty, Graph.empty, Graph.Edge]

theorem built_push (comm : I → I → Bool) {P : List I} {d : DDag I} (h : Built comm P d) (i : I) :
    ∃ d', DDag.push comm d i = .ok d' ∧ Built comm (P ++ [i]) d' := by
  unfold DDag.push DDag.addIsolated
  simp only
  have hw1 := h.wf.addNode d.next
  have hac : (d.graph.addNode d.next).Acyclic := acyclic_of_lt (fun x y e => by
    rw [edge_addNode] at e; exact ((h.edge x y).1 e).1)
  obtain ⟨o, ho, _, hmem, _⟩ := topoOrder_spec hw1 hac
  have hinstr : ∀ x, (upd d.instr d.next (some i)) x = (P ++ [i])[x]? := by
    intro x
    by_cases hx : x = d.next
    · subst hx; simp [h.next]
    · rw [upd_other _ _ hx, h.instr, List.getElem?_append]
      split
      · rfl
      · rename_i hlt
        rw [h.next] at hx
        rw [List.getElem?_eq_none (by omega), List.getElem?_eq_none (by simp; omega)]
  have hnm : d.next ∈ (d.graph.addNode d.next).nodes := by rw [mem_addNode]; simp
  obtain ⟨g', h2, h3, h4, h5⟩ := linkNew_spec comm (upd d.instr d.next (some i)) d.next i (by simp) o hw1 hnm (by
    intro e he
    have hen := (hmem e).1 he
    refine ⟨hen, ?_⟩
    rw [mem_addNode, h.nodes, h.next] at hen
    rw [hinstr]
    rcases hen with hen | hen
    · exact ⟨(P ++ [i])[e]'(by simp; omega), by rw [List.getElem?_eq_getElem]⟩
    · subst hen; exact ⟨i, by simp⟩)
  refine ⟨{ d with graph := g', instr := upd d.instr d.next (some i), next := d.next + 1 }, by simp [ho, h2], ?_⟩
  refine ⟨h3, by simp [h.next], ?_, hinstr, ?_, h.prox⟩
  · intro x; simp only [h4, mem_addNode, h.nodes, h.next, List.length_append, List.length_singleton]; omega
  · intro x y
    simp only [h5, edge_addNode, h.edge, hinstr, hmem, mem_addNode, h.nodes]
    simp only [h.next]
    constructor
    · rintro (⟨hlt, a, b, ha, hb, hc⟩ | ⟨rfl, hx, hne, a, ha, hc⟩)
      · refine ⟨hlt, a, b, ?_, ?_, hc⟩
        · rw [List.getElem?_append_left (by have := (List.getElem?_eq_some_iff.1 ha).1; omega)]; exact ha
        · rw [List.getElem?_append_left (by have := (List.getElem?_eq_some_iff.1 hb).1; omega)]; exact hb
      · exact ⟨by omega, a, i, ha, by simp, hc⟩
    · rintro ⟨hlt, a, b, ha, hb, hc⟩
      by_cases hy : y = P.length
      · subst hy
        simp at hb; subst hb
        exact Or.inr ⟨rfl, Or.inl hlt, by omega, a, ha, hc⟩
      · have hy' : y < P.length := by
          have := (List.getElem?_eq_some_iff.1 hb).1; simp at this; omega
        left
        rw [List.getElem?_append_left (by omega)] at ha
        rw [List.getElem?_append_left hy'] at hb
        exact ⟨hlt, a, b, ha, hb, hc⟩

theorem built_pushAll (comm : I → I → Bool) (Q : List I) {P : List I} {d : DDag I} (h : Built comm P d) :
    ∃ d', DDag.pushAll comm d Q = .ok d' ∧ Built comm (P ++ Q) d' := by
  induction Q generalizing P d with
  | nil => exact ⟨d, rfl, by simpa using h⟩
  | cons i Q ih =>
    obtain ⟨d1, h1, hb1⟩ := built_push comm h i
    obtain ⟨d2, h2, hb2⟩ := ih hb1
    exact ⟨d2, by simp [DDag.pushAll, h1, h2], by simpa using hb2⟩

/-! ## Executions -/

/-- Source instruction `i` must come before source instruction `j`. -/
def Conf (comm : I → I → Bool) (P : List I) (i j : Nat) : Prop :=
  i < j ∧ ∃ a b, P[i]? = some a ∧ P[j]? = some b ∧ comm a b = false

structure RunInv (comm : I → I → Bool) (P : List I) (s : DRun I) : Prop where
  wf : s.dag.graph.WF
  acyclic : s.dag.graph.Acyclic
  bound : ∀ x ∈ s.dag.graph.nodes, x < s.dag.next
  pbound : ∀ x ∈ s.popped, x < s.dag.next
  instr : ∀ x ∈ s.dag.graph.nodes, (s.dag.instr x).isSome
  disjoint : ∀ x ∈ s.popped, x ∉ s.dag.graph.nodes
  pnodup : s.popped.Nodup
  order : ∀ x ∈ s.dag.graph.nodes, ∀ y ∈ s.dag.graph.nodes, Conf comm P (s.origin x) (s.origin y) → s.dag.graph.Reach x y
  live : ∀ x ∈ s.popped, ∀ y ∈ s.dag.graph.nodes, ¬ Conf comm P (s.origin y) (s.origin x)
  hist : ∀ l1 x l2, s.popped = l1 ++ x :: l2 → ∀ y ∈ l2, ¬ Conf comm P (s.origin y) (s.origin x)

theorem runInv_start {comm : I → I → Bool} {P : List I} {d : DDag I} (h : Built comm P d) :
    RunInv comm P (DRun.start d) := by
  refine ⟨h.wf, acyclic_of_lt (fun x y e => ((h.edge x y).1 e).1), ?_, by simp [DRun.start], ?_, by simp [DRun.start],
    by simp [DRun.start], ?_, by simp [DRun.start], by simp [DRun.start]⟩
  · intro x hx; simp [DRun.start] at hx ⊢; rw [h.next]; exact (h.nodes x).1 hx
  · intro x hx
    simp only [DRun.start, h.nodes] at hx
    simp [DRun.start, h.instr, hx]
  · intro x hx y hy hc
    simp only [DRun.start, id] at hc ⊢
    exact Relation.TransGen.single ((h.edge x y).2 hc)

theorem popHead_spec {d : DDag I} {l : Label} (hw : d.graph.WF) (hi : ∀ x ∈ d.graph.nodes, (d.instr x).isSome)
    (hl : l ∈ d.graph.heads) :
    ∃ d', d.popHead l = .ok d' ∧ d'.graph.WF ∧ d'.graph.nodes = d.graph.nodes.erase l ∧
      (∀ a b, d'.graph.Edge a b ↔ d.graph.Edge a b ∧ a ≠ l ∧ b ≠ l) ∧ d'.instr = upd d.instr l none ∧ d'.next = d.next := by
  have hn := ((mem_heads hw).1 hl).1
  obtain ⟨g', h1, h2, h3, h4⟩ := removeNode_spec hw hn
  have := hi l hn
  obtain ⟨i, hi'⟩ := Option.isSome_iff_exists.1 this
  unfold DDag.popHead
  simp only [hi', Graph.predecessors, if_pos hn, Outcome.bind_ok, h1]
  exact ⟨_, rfl, h2, h3, h4, rfl, rfl⟩

theorem storeFrom_other (instr : Label → Option I) (k : Label) (r : List I) {x : Label}
    (h : ¬ (k ≤ x ∧ x < k + r.length)) : DDag.storeFrom instr k r x = instr x := by
  induction r generalizing instr k with
  | nil => rfl
  | cons i r ih =>
    simp only [List.length_cons] at h
    rw [DDag.storeFrom, ih _ _ (by omega), upd_other _ _ (by omega)]

theorem storeFrom_new (instr : Label → Option I) (k : Label) (r : List I) (j : Nat) (hj : j < r.length) :
    DDag.storeFrom instr k r (k + j) = r[j]? := by
  induction r generalizing instr k j with
  | nil => simp at hj
  | cons i r ih =>
    rw [DDag.storeFrom]
    cases j with
    | zero => rw [storeFrom_other _ _ _ (by omega)]; simp
    | succ j =>
      have := ih (upd instr k (some i)) (k + 1) j (by simpa using hj)
      rw [show k + (j + 1) = k + 1 + j by omega, this]; simp

theorem mem_freshLabels {d : DDag I} {r : List I} {x : Label} :
    x ∈ d.freshLabels r ↔ d.next ≤ x ∧ x < d.next + r.length := by
  simp only [DDag.freshLabels, List.mem_map, List.mem_range]
  constructor
  · rintro ⟨a, ha, rfl⟩; omega
  · rintro ⟨h1, h2⟩; exact ⟨x - d.next, by omega, by omega⟩

theorem nodup_freshLabels {d : DDag I} {r : List I} : (d.freshLabels r).Nodup := by
  unfold DDag.freshLabels
  rw [List.nodup_iff_pairwise_ne, List.pairwise_map]
  exact (List.nodup_range (n := r.length)).imp (fun h => by omega)

theorem dexpand_ok {d d' : DDag I} {t : Label} {r : List I} {prox : Bool} {f : Label}
    (h : d.expand t r prox = .ok (d', f)) :
    r ≠ [] ∧ d.graph.expand t (d.freshLabels r) = .ok d'.graph ∧ d'.instr = DDag.storeFrom d.instr d.next r ∧
      d'.next = d.next + r.length ∧ f = d.next := by
  unfold DDag.expand at h
  split at h
  · simp at h
  · rename_i hr
    simp only [Outcome.bind_eq_ok] at h
    obtain ⟨g, hg, h⟩ := h
    split at h
    · simp at h
    · simp at h
      obtain ⟨rfl, rfl⟩ := h
      exact ⟨hr, hg, rfl, rfl, rfl⟩

theorem runInv_act {comm : I → I → Bool} {P : List I} {s s' : DRun I} (h : RunInv comm P s) {a : DAct I}
    (ha : s.act a = .ok s') : RunInv comm P s' := by
  cases a with
  | pop l =>
    simp only [DRun.act] at ha
    split at ha
    · rename_i hl
      obtain ⟨d', h1, h2, h3, h4, h5, h6⟩ := popHead_spec h.wf h.instr hl
      rw [h1] at ha
      simp at ha
      subst ha
      have hhead := (mem_heads h.wf).1 hl
      have hm : ∀ x, x ∈ d'.graph.nodes ↔ x ≠ l ∧ x ∈ s.dag.graph.nodes := by
        intro x; rw [h3, h.wf.nodup.mem_erase_iff]
      have hlive : ∀ y ∈ s.dag.graph.nodes, ¬ Conf comm P (s.origin y) (s.origin l) := by
        intro y hy hc
        have hr := h.order y hy l hhead.1 hc
        cases hr with
        | single e => exact hhead.2 _ e
        | tail _ e => exact hhead.2 _ e
      refine ⟨h2, acyclic_of_sub h.acyclic (fun a b e => ((h4 a b).1 e).1), ?_, ?_, ?_, ?_, ?_, ?_, ?_, ?_⟩
      · intro x hx; simp only [h6]; exact h.bound x ((hm x).1 hx).2
      · intro x hx; simp only [h6]; simp at hx
        rcases hx with hx | rfl
        · exact h.pbound x hx
        · exact h.bound _ hhead.1
      · intro x hx; simp only [h5]; simp only [hm] at hx
        rw [upd_other _ _ hx.1]; exact h.instr x hx.2
      · intro x hx; simp only [hm]; simp at hx
        rcases hx with hx | rfl
        · intro hc; exact h.disjoint x hx hc.2
        · simp
      · simp only [List.nodup_append]
        refine ⟨h.pnodup, by simp, ?_⟩
        intro a ha b hb; simp at hb; subst hb; intro e; subst e; exact h.disjoint a ha hhead.1
      · intro x hx y hy hc
        simp only at hx hy
        exact reach_removeHead hhead.2 h4 ((hm x).1 hx).1 (h.order x ((hm x).1 hx).2 y ((hm y).1 hy).2 hc)
      · intro x hx y hy
        simp only at hx hy ⊢
        simp at hx
        rcases hx with hx | rfl
        · exact h.live x hx y ((hm y).1 hy).2
        · exact hlive y ((hm y).1 hy).2
      · intro l1 x l2 hl' y hy
        simp only at hl' ⊢
        rcases List.eq_nil_or_concat l2 with rfl | ⟨l3, z, rfl⟩
        · simp at hy
        · have he : s.popped ++ [l] = (l1 ++ x :: l3) ++ [z] := by simpa using hl'
          obtain ⟨e1, e2⟩ := List.append_inj' he rfl
          simp at e2; subst e2
          simp at hy
          rcases hy with hy | rfl
          · exact h.hist l1 x l3 e1 y hy
          · exact h.live x (by rw [e1]; simp) y hhead.1
    · simp at ha
  | makeProximate l =>
    simp only [DRun.act, DDag.makeProximate, Outcome.ok.injEq] at ha
    subst ha
    exact ⟨h.wf, h.acyclic, h.bound, h.pbound, h.instr, h.disjoint, h.pnodup, h.order, h.live, h.hist⟩
  | expand t r prox =>
    simp only [DRun.act, Outcome.bind_eq_ok] at ha
    obtain ⟨⟨d', f⟩, h1, h2⟩ := ha
    simp at h2; subst h2
    obtain ⟨hr, hg, hin, hnx, -⟩ := dexpand_ok h1
    have hfl : ∃ r0 rs, s.dag.freshLabels r = r0 :: rs := by
      cases hc : s.dag.freshLabels r with
      | nil =>
        exfalso
        have : s.dag.next ∈ s.dag.freshLabels r := by
          rw [mem_freshLabels]; have := List.length_pos_iff.2 hr; omega
        rw [hc] at this; simp at this
      | cons a b => exact ⟨a, b, rfl⟩
    obtain ⟨r0, rs, hf⟩ := hfl
    have hfm : ∀ x, x ∈ r0 :: rs ↔ s.dag.next ≤ x ∧ x < s.dag.next + r.length := by
      intro x; rw [← hf]; exact mem_freshLabels
    have hnd : (r0 :: rs).Nodup := hf ▸ nodup_freshLabels
    rw [hf] at hg
    obtain ⟨hw', hm, _⟩ := expand_eq_spec h.wf hg
    have htn : t ∈ s.dag.graph.nodes := (expand_ok hg).1
    -- origins
    have horig : ∀ y ∈ d'.graph.nodes, ∃ y0 ∈ s.dag.graph.nodes, Img t (r0 :: rs) y0 y ∧
        (if s.dag.next ≤ y ∧ y < s.dag.next + r.length then s.origin t else s.origin y) = s.origin y0 := by
      intro y hy
      rcases (hm y).1 hy with ⟨h3, h4⟩ | h3
      · refine ⟨y, h3, Or.inl ⟨h4, rfl⟩, ?_⟩
        have := h.bound y h3
        rw [if_neg (by omega)]
      · exact ⟨t, htn, Or.inr ⟨rfl, h3⟩, by rw [if_pos ((hfm y).1 h3)]⟩
    have hporig : ∀ x ∈ s.popped, (if s.dag.next ≤ x ∧ x < s.dag.next + r.length then s.origin t else s.origin x) = s.origin x := by
      intro x hx; have := h.pbound x hx; rw [if_neg (by omega)]
    refine ⟨hw', acyclic_expand h.wf h.acyclic hg hnd, ?_, ?_, ?_, ?_, h.pnodup, ?_, ?_, ?_⟩
    · intro x hx; simp only [hnx]
      rcases (hm x).1 hx with ⟨h3, _⟩ | h3
      · have := h.bound x h3; omega
      · exact ((hfm x).1 h3).2
    · intro x hx; simp only [hnx]; have := h.pbound x hx; omega
    · intro x hx; simp only [hin]
      rcases (hm x).1 hx with ⟨h3, _⟩ | h3
      · rw [storeFrom_other _ _ _ (by have := h.bound x h3; omega)]
        exact h.instr x h3
      · have hx := (hfm x).1 h3
        have h4 := storeFrom_new s.dag.instr s.dag.next r (x - s.dag.next) (by omega)
        rw [show s.dag.next + (x - s.dag.next) = x by omega] at h4
        rw [h4, List.getElem?_eq_getElem (by omega)]
        simp
    · intro x hx hc
      simp only at hx hc
      rcases (hm x).1 hc with ⟨h3, _⟩ | h3
      · exact h.disjoint x hx h3
      · have := h.pbound x hx; have := ((hfm x).1 h3).1; omega
    · intro x hx y hy hc
      simp only at hx hy hc
      obtain ⟨x0, hx0, hxi, hxo⟩ := horig x hx
      obtain ⟨y0, hy0, hyi, hyo⟩ := horig y hy
      rw [hxo, hyo] at hc
      exact reach_expand_fwd h.wf hg (h.order x0 hx0 y0 hy0 hc) hxi hyi
    · intro x hx y hy
      simp only at hx hy ⊢
      obtain ⟨y0, hy0, _, hyo⟩ := horig y hy
      rw [hporig x hx, hyo]
      exact h.live x hx y0 hy0
    · intro l1 x l2 hl y hy
      simp only at hl ⊢
      rw [hporig x (by rw [hl]; simp), hporig y (by rw [hl]; simp [hy])]
      exact h.hist l1 x l2 hl y hy

end Verif.Dag
