import Verif.Graph

namespace Verif.Dag
open Graph

theorem mem_addNode {g : Graph} {l x : Label} : x ∈ (g.addNode l).nodes ↔ x ∈ g.nodes ∨ x = l := by
  unfold addNode; split <;> simp_all

theorem edge_addNode {g : Graph} {l a b : Label} : (g.addNode l).Edge a b ↔ g.Edge a b := by
  unfold addNode Edge; split
  · simp
  · by_cases h : a = l
    · subst h; simp_all
    · simp [upd_other _ _ h, h]

theorem bedge_addNode {g : Graph} {l a b : Label} : (g.addNode l).BackEdge a b ↔ g.BackEdge a b := by
  unfold addNode BackEdge; split
  · simp
  · by_cases h : b = l
    · subst h; simp_all
    · simp [upd_other _ _ h, h]

/-- A convenient equivalent of `WF` in terms of edges. -/
theorem WF_iff {g : Graph} : g.WF ↔
    g.nodes.Nodup ∧ (∀ a ∈ g.nodes, (g.succ a).Nodup) ∧ (∀ a ∈ g.nodes, (g.pred a).Nodup) ∧
    (∀ a b, g.Edge a b → b ∈ g.nodes) ∧ (∀ a b, g.Edge a b ↔ g.BackEdge a b) := by
  constructor
  · intro h
    refine ⟨h.nodup, h.snodup, h.pnodup, fun a b e => h.sclosed a e.1 b e.2, fun a b => ⟨fun e => ?_, fun e => ?_⟩⟩
    · exact ⟨h.sclosed a e.1 b e.2, (h.mirror a e.1 b (h.sclosed a e.1 b e.2)).1 e.2⟩
    · have := h.pclosed b e.1 a e.2
      exact ⟨this, (h.mirror a this b e.1).2 e.2⟩
  · rintro ⟨h1, h2, h3, h4, h5⟩
    refine ⟨h1, h2, h3, fun a ha b hb => h4 a b ⟨ha, hb⟩, fun a ha b hb => ((h5 b a).2 ⟨ha, hb⟩).1, ?_⟩
    intro a ha b hb
    exact ⟨fun h => ((h5 a b).1 ⟨ha, h⟩).2, fun h => ((h5 a b).2 ⟨hb, h⟩).2⟩

theorem WF_empty : Graph.empty.WF := by
  constructor <;> simp [Graph.empty]

theorem Graph.WF.addNode {g : Graph} (h : g.WF) (l : Label) : (g.addNode l).WF := by
  obtain ⟨h1, h2, h3, h4, h5⟩ := WF_iff.1 h
  refine WF_iff.2 ⟨?_, ?_, ?_, ?_, ?_⟩
  · unfold Graph.addNode; split
    · exact h1
    · simp only [List.nodup_append]; refine ⟨h1, by simp, ?_⟩
      intro x hx y hy; simp at hy; subst hy; intro e; subst e; contradiction
  · intro a ha; rw [mem_addNode] at ha
    unfold Graph.addNode; split
    · rename_i hl; rcases ha with ha | rfl
      · exact h2 _ ha
      · exact h2 _ hl
    · by_cases e : a = l
      · subst e; simp
      · rcases ha with ha | ha
        · simpa [upd_other _ _ e] using h2 _ ha
        · contradiction
  · intro a ha; rw [mem_addNode] at ha
    unfold Graph.addNode; split
    · rename_i hl; rcases ha with ha | rfl
      · exact h3 _ ha
      · exact h3 _ hl
    · by_cases e : a = l
      · subst e; simp
      · rcases ha with ha | ha
        · simpa [upd_other _ _ e] using h3 _ ha
        · contradiction
  · intro a b e; rw [edge_addNode] at e; rw [mem_addNode]; exact Or.inl (h4 _ _ e)
  · intro a b; rw [edge_addNode, bedge_addNode]; exact h5 a b

theorem mem_addEdge {g : Graph} {f t x : Label} :
    x ∈ (g.addEdge f t).nodes ↔ x ∈ g.nodes ∨ x = t ∨ x = f := by
  unfold addEdge; simp [mem_addNode, or_assoc]

theorem edge_addEdge {g : Graph} {f t a b : Label} :
    (g.addEdge f t).Edge a b ↔ g.Edge a b ∨ (a = f ∧ b = t) := by
  have key : ((g.addNode t).addNode f).Edge a b ↔ g.Edge a b := by rw [edge_addNode, edge_addNode]
  have hf : f ∈ ((g.addNode t).addNode f).nodes := by simp [mem_addNode]
  rw [← key]
  unfold addEdge Edge
  by_cases h : a = f
  · subst h; simp [hf]
  · simp [upd_other _ _ h, h]

theorem bedge_addEdge {g : Graph} {f t a b : Label} :
    (g.addEdge f t).BackEdge a b ↔ g.BackEdge a b ∨ (a = f ∧ b = t) := by
  have key : ((g.addNode t).addNode f).BackEdge a b ↔ g.BackEdge a b := by
    rw [bedge_addNode, bedge_addNode]
  have ht : t ∈ ((g.addNode t).addNode f).nodes := by simp [mem_addNode]
  rw [← key]
  unfold addEdge BackEdge
  by_cases h : b = t
  · subst h; simp [ht]
  · simp [upd_other _ _ h, h]

theorem Graph.WF.addEdge {g : Graph} (h : g.WF) (f t : Label) : (g.addEdge f t).WF := by
  have hw := (h.addNode t).addNode f
  obtain ⟨h1, h2, h3, h4, h5⟩ := WF_iff.1 hw
  obtain ⟨_, _, _, h4', h5'⟩ := WF_iff.1 h
  refine WF_iff.2 ⟨h1, ?_, ?_, ?_, ?_⟩
  · intro a ha
    by_cases e : a = f
    · subst e; simpa [Graph.addEdge] using nodup_oset (h2 _ ha)
    · simpa [Graph.addEdge, upd_other _ _ e] using h2 _ ha
  · intro a ha
    by_cases e : a = t
    · subst e; simpa [Graph.addEdge] using nodup_oset (h3 _ ha)
    · simpa [Graph.addEdge, upd_other _ _ e] using h3 _ ha
  · intro a b e; rw [edge_addEdge] at e; rw [mem_addEdge]
    rcases e with e | ⟨_, rfl⟩
    · exact Or.inl (h4' _ _ e)
    · simp
  · intro a b; rw [edge_addEdge, bedge_addEdge, h5' a b]

/-- When `remove_edge` returns normally. -/
theorem removeEdge_ok {g g' : Graph} {f t : Label} (h : g.removeEdge f t = .ok g') :
    f ∈ g.nodes ∧ t ∈ g.nodes ∧ t ∈ g.succ f ∧ f ∈ g.pred t ∧
    g' = { g with succ := upd g.succ f ((g.succ f).erase t), pred := upd g.pred t ((g.pred t).erase f) } := by
  unfold removeEdge at h
  split at h
  · simp at h
  split at h
  · simp at h
  split at h
  · simp at h
  split at h
  · simp at h
  · simp at h; simp_all

theorem removeEdge_of_edge {g : Graph} (h : g.WF) {f t : Label} (e : g.Edge f t) :
    ∃ g', g.removeEdge f t = .ok g' := by
  have ht := h.sclosed f e.1 t e.2
  have := (h.mirror f e.1 t ht).1 e.2
  unfold removeEdge
  simp [e.1, ht, e.2, this]

theorem nodes_removeEdge {g g' : Graph} {f t : Label} (h : g.removeEdge f t = .ok g') :
    g'.nodes = g.nodes := by
  obtain ⟨_, _, _, _, rfl⟩ := removeEdge_ok h; rfl

theorem edge_removeEdge {g g' : Graph} {f t : Label} (hw : g.WF) (h : g.removeEdge f t = .ok g') (a b : Label) :
    g'.Edge a b ↔ g.Edge a b ∧ ¬ (a = f ∧ b = t) := by
  obtain ⟨hf, ht, _, _, rfl⟩ := removeEdge_ok h
  unfold Edge
  by_cases e : a = f
  · subst e; simp [(hw.snodup a hf).mem_erase_iff, hf, and_comm]
  · simp [upd_other _ _ e, e]

theorem bedge_removeEdge {g g' : Graph} {f t : Label} (hw : g.WF) (h : g.removeEdge f t = .ok g') (a b : Label) :
    g'.BackEdge a b ↔ g.BackEdge a b ∧ ¬ (a = f ∧ b = t) := by
  obtain ⟨hf, ht, _, _, rfl⟩ := removeEdge_ok h
  unfold BackEdge
  by_cases e : b = t
  · subst e; simp [(hw.pnodup b ht).mem_erase_iff, ht, and_comm]
  · simp [upd_other _ _ e, e]

theorem Graph.WF.removeEdge {g g' : Graph} {f t : Label} (hw : g.WF) (h : g.removeEdge f t = .ok g') : g'.WF := by
  obtain ⟨h1, h2, h3, h4, h5⟩ := WF_iff.1 hw
  have hn := nodes_removeEdge h
  have he := edge_removeEdge hw h
  have hb := bedge_removeEdge hw h
  refine WF_iff.2 ⟨hn ▸ h1, ?_, ?_, ?_, ?_⟩
  · intro a ha; rw [hn] at ha
    obtain ⟨hf, ht, _, _, rfl⟩ := removeEdge_ok h
    by_cases e : a = f
    · subst e; simpa using (h2 _ ha).erase _
    · simpa [upd_other _ _ e] using h2 _ ha
  · intro a ha; rw [hn] at ha
    obtain ⟨hf, ht, _, _, rfl⟩ := removeEdge_ok h
    by_cases e : a = t
    · subst e; simpa using (h3 _ ha).erase _
    · simpa [upd_other _ _ e] using h3 _ ha
  · intro a b e; rw [hn]; exact h4 _ _ ((he a b).1 e).1
  · intro a b; rw [he, hb, h5]

/-- Removing a duplicate-free list of existing out-edges succeeds. -/
theorem removeOut_spec {t : Label} (l : List Label) {g : Graph} (hw : g.WF) (hd : l.Nodup)
    (hl : ∀ x ∈ l, g.Edge t x) :
    ∃ g', g.removeOut t l = .ok g' ∧ g'.WF ∧ g'.nodes = g.nodes ∧
      ∀ a b, g'.Edge a b ↔ g.Edge a b ∧ ¬ (a = t ∧ b ∈ l) := by
  induction l generalizing g with
  | nil => exact ⟨g, rfl, hw, rfl, by simp⟩
  | cons x rest ih =>
    obtain ⟨g1, h1⟩ := removeEdge_of_edge hw (hl x (by simp))
    have he := edge_removeEdge hw h1
    rw [List.nodup_cons] at hd
    obtain ⟨g2, h2, hw2, hn2, he2⟩ := ih (hw.removeEdge h1) hd.2 (by
      intro y hy; rw [he]; refine ⟨hl y (by simp [hy]), ?_⟩
      rintro ⟨-, rfl⟩; exact hd.1 hy)
    refine ⟨g2, by simp [removeOut, h1, h2], hw2, by rw [hn2, nodes_removeEdge h1], ?_⟩
    intro a b; rw [he2, he]; simp; grind

theorem removeIn_spec {t : Label} (l : List Label) {g : Graph} (hw : g.WF) (hd : l.Nodup)
    (hl : ∀ x ∈ l, g.Edge x t) :
    ∃ g', g.removeIn t l = .ok g' ∧ g'.WF ∧ g'.nodes = g.nodes ∧
      ∀ a b, g'.Edge a b ↔ g.Edge a b ∧ ¬ (b = t ∧ a ∈ l) := by
  induction l generalizing g with
  | nil => exact ⟨g, rfl, hw, rfl, by simp⟩
  | cons x rest ih =>
    obtain ⟨g1, h1⟩ := removeEdge_of_edge hw (hl x (by simp))
    have he := edge_removeEdge hw h1
    rw [List.nodup_cons] at hd
    obtain ⟨g2, h2, hw2, hn2, he2⟩ := ih (hw.removeEdge h1) hd.2 (by
      intro y hy; rw [he]; refine ⟨hl y (by simp [hy]), ?_⟩
      rintro ⟨rfl, -⟩; exact hd.1 hy)
    refine ⟨g2, by simp [removeIn, h1, h2], hw2, by rw [hn2, nodes_removeEdge h1], ?_⟩
    intro a b; rw [he2, he]; simp; grind

theorem Graph.WF.eraseNode {g : Graph} (hw : g.WF) {t : Label} (h : ∀ a b, g.Edge a b → a ≠ t ∧ b ≠ t) :
    (g.eraseNode t).WF ∧ ∀ a b, (g.eraseNode t).Edge a b ↔ g.Edge a b := by
  obtain ⟨h1, h2, h3, h4, h5⟩ := WF_iff.1 hw
  have hm : ∀ x, x ∈ (g.eraseNode t).nodes ↔ x ≠ t ∧ x ∈ g.nodes := fun x => by
    simp [Graph.eraseNode, h1.mem_erase_iff]
  have he : ∀ a b, (g.eraseNode t).Edge a b ↔ g.Edge a b := by
    intro a b
    constructor
    · rintro ⟨ha, hb⟩; exact ⟨((hm a).1 ha).2, hb⟩
    · intro e; exact ⟨(hm a).2 ⟨(h a b e).1, e.1⟩, e.2⟩
  refine ⟨WF_iff.2 ⟨h1.erase _, ?_, ?_, ?_, ?_⟩, he⟩
  · intro a ha; exact h2 a ((hm a).1 ha).2
  · intro a ha; exact h3 a ((hm a).1 ha).2
  · intro a b e; rw [he] at e; exact (hm b).2 ⟨(h a b e).2, h4 _ _ e⟩
  · intro a b; rw [he]
    constructor
    · intro e; exact ⟨(hm b).2 ⟨(h a b e).2, h4 _ _ e⟩, ((h5 a b).1 e).2⟩
    · rintro ⟨hb, ha⟩; exact (h5 a b).2 ⟨((hm b).1 hb).2, ha⟩

theorem removeNode_spec {g : Graph} (hw : g.WF) {t : Label} (ht : t ∈ g.nodes) :
    ∃ g', g.removeNode t = .ok g' ∧ g'.WF ∧ g'.nodes = g.nodes.erase t ∧
      ∀ a b, g'.Edge a b ↔ g.Edge a b ∧ a ≠ t ∧ b ≠ t := by
  obtain ⟨g1, h1, hw1, hn1, he1⟩ := removeOut_spec (t := t) (g.succ t) hw (hw.snodup t ht)
    (fun x hx => ⟨ht, hx⟩)
  have ht1 : t ∈ g1.nodes := hn1 ▸ ht
  obtain ⟨g2, h2, hw2, hn2, he2⟩ := removeIn_spec (t := t) (g1.pred t) hw1 (hw1.pnodup t ht1)
    (fun x hx => ((WF_iff.1 hw1).2.2.2.2 x t).2 ⟨ht1, hx⟩)
  have hchar : ∀ a b, g2.Edge a b ↔ g.Edge a b ∧ a ≠ t ∧ b ≠ t := by
    intro a b
    rw [he2, he1]
    constructor
    · rintro ⟨⟨e, h3⟩, h4⟩
      refine ⟨e, ?_, ?_⟩
      · rintro rfl; exact h3 ⟨rfl, e.2⟩
      · rintro rfl
        have : g1.Edge a b := (he1 a b).2 ⟨e, h3⟩
        exact h4 ⟨rfl, (((WF_iff.1 hw1).2.2.2.2 a b).1 this).2⟩
    · rintro ⟨e, h3, h4⟩; exact ⟨⟨e, fun h => h3 h.1⟩, fun h => h4 h.1⟩
  obtain ⟨hw3, he3⟩ := hw2.eraseNode (t := t) (fun a b e => ((hchar a b).1 e).2)
  refine ⟨g2.eraseNode t, by simp [Graph.removeNode, ht, h1, h2], hw3, by simp [Graph.eraseNode, hn2, hn1], ?_⟩
  intro a b; rw [he3, hchar]

theorem addOut_spec {x : Label} (l : List Label) {g : Graph} (hw : g.WF) :
    (g.addOut x l).WF ∧ (∀ y, y ∈ (g.addOut x l).nodes ↔ y ∈ g.nodes ∨ y ∈ l ∨ (y = x ∧ l ≠ [])) ∧
      ∀ a b, (g.addOut x l).Edge a b ↔ g.Edge a b ∨ (a = x ∧ b ∈ l) := by
  induction l generalizing g with
  | nil => simp [addOut, hw]
  | cons y rest ih =>
    obtain ⟨h1, h2, h3⟩ := ih (hw.addEdge x y)
    refine ⟨h1, ?_, ?_⟩
    · intro z; simp only [addOut]; rw [h2, mem_addEdge]; simp; grind
    · intro a b; simp only [addOut]; rw [h3, edge_addEdge]; simp; grind

theorem addIn_spec {x : Label} (l : List Label) {g : Graph} (hw : g.WF) :
    (g.addIn x l).WF ∧ (∀ y, y ∈ (g.addIn x l).nodes ↔ y ∈ g.nodes ∨ y ∈ l ∨ (y = x ∧ l ≠ [])) ∧
      ∀ a b, (g.addIn x l).Edge a b ↔ g.Edge a b ∨ (b = x ∧ a ∈ l) := by
  induction l generalizing g with
  | nil => simp [addIn, hw]
  | cons y rest ih =>
    obtain ⟨h1, h2, h3⟩ := ih (hw.addEdge y x)
    refine ⟨h1, ?_, ?_⟩
    · intro z; simp only [addIn]; rw [h2, mem_addEdge]; simp; grind
    · intro a b; simp only [addIn]; rw [h3, edge_addEdge]; simp; grind

/-- `a` is immediately followed by `b` somewhere in the list. -/
def Consec (l : List Label) (a b : Label) : Prop := ∃ l1 l2, l = l1 ++ a :: b :: l2

theorem consec_cons {x : Label} {l : List Label} {a b : Label} :
    Consec (x :: l) a b ↔ (x = a ∧ l.head? = some b) ∨ Consec l a b := by
  constructor
  · rintro ⟨l1, l2, h⟩
    cases l1 with
    | nil => simp at h; left; simp [h.1, h.2]
    | cons y l1 => simp at h; right; exact ⟨l1, l2, h.2⟩
  · rintro (⟨rfl, h⟩ | ⟨l1, l2, h⟩)
    · cases l with
      | nil => simp at h
      | cons y l => simp at h; subst h; exact ⟨[], l, rfl⟩
    · exact ⟨x :: l1, l2, by simp [h]⟩

theorem addChain_spec (l : List Label) {g : Graph} (hw : g.WF) (h0 : ∀ x, l.head? = some x → x ∈ g.nodes) :
    (g.addChain l).WF ∧ (∀ y, y ∈ (g.addChain l).nodes ↔ y ∈ g.nodes ∨ y ∈ l) ∧
      ∀ a b, (g.addChain l).Edge a b ↔ g.Edge a b ∨ Consec l a b := by
  induction l generalizing g with
  | nil => simp [addChain, hw, Consec]
  | cons x rest ih =>
    cases rest with
    | nil =>
      have hx : x ∈ g.nodes := h0 x rfl
      refine ⟨hw, ?_, ?_⟩
      · intro y; simp [addChain]; rintro rfl; exact hx
      · intro a b; rw [consec_cons]; simp [addChain, Consec]
    | cons y rest =>
      obtain ⟨h1, h2, h3⟩ := ih (hw.addEdge x y) (by intro z hz; simp at hz; subst hz; rw [mem_addEdge]; simp)
      refine ⟨h1, ?_, ?_⟩
      · intro z; simp only [addChain]; rw [h2, mem_addEdge]; simp; grind
      · intro a b; simp only [addChain]; rw [h3, edge_addEdge, consec_cons (x := x)]; simp; grind

/-- Where the outgoing edges of `x` end up after `t` has been replaced. -/
def backOf (t last x : Label) : Label := if x = t then last else x
/-- Where the incoming edges of `x` end up after `t` has been replaced. -/
def frontOf (t first x : Label) : Label := if x = t then first else x

/-- Exact effect of `expand` when it does not throw. -/
theorem expand_spec {g : Graph} (hw : g.WF) {t r0 : Label} {rs : List Label} (ht : t ∈ g.nodes)
    (hr : ∀ x ∈ r0 :: rs, x ∉ g.nodes) :
    ∃ g', g.expand t (r0 :: rs) = .ok g' ∧ g'.WF ∧
      (∀ y, y ∈ g'.nodes ↔ (y ∈ g.nodes ∧ y ≠ t) ∨ y ∈ r0 :: rs) ∧
      ∀ x y, g'.Edge x y ↔ Consec (r0 :: rs) x y ∨
        ∃ a b, g.Edge a b ∧ x = backOf t ((r0 :: rs).getLast (by simp)) a ∧ y = frontOf t r0 b := by
  generalize hlast : (r0 :: rs).getLast (by simp) = last
  have hlm : last ∈ r0 :: rs := hlast ▸ List.getLast_mem _
  have hlg : last ∉ g.nodes := hr _ hlm
  have hlt : last ≠ t := fun h => hlg (h ▸ ht)
  have hr0t : r0 ≠ t := fun h => hr r0 (by simp) (h ▸ ht)
  have hmemt : t ∉ r0 :: rs := fun h => hr t h ht
  have hconsec : ∀ {a b}, Consec (r0 :: rs) a b → a ∈ r0 :: rs ∧ b ∈ r0 :: rs := by
    rintro a b ⟨l1, l2, h⟩; rw [h]; simp
  -- step 1: chain
  obtain ⟨hw1, hn1, he1⟩ := addChain_spec (r0 :: rs) (hw.addNode r0)
    (by intro x hx; simp at hx; subst hx; rw [mem_addNode]; simp)
  generalize hg1 : (g.addNode r0).addChain (r0 :: rs) = g1 at hw1 hn1 he1
  have he1' : ∀ a b, g1.Edge a b ↔ g.Edge a b ∨ Consec (r0 :: rs) a b := by
    intro a b; rw [he1, edge_addNode]
  have hn1' : ∀ y, y ∈ g1.nodes ↔ y ∈ g.nodes ∨ y ∈ r0 :: rs := by
    intro y; rw [hn1, mem_addNode]; simp; grind
  have ht1 : t ∈ g1.nodes := (hn1' t).2 (Or.inl ht)
  -- step 2: remove out
  obtain ⟨g2, hg2, hw2, hn2, he2⟩ := removeOut_spec (t := t) (g1.succ t) hw1 (hw1.snodup t ht1)
    (fun x hx => ⟨ht1, hx⟩)
  have hfwd : ∀ b, b ∈ g1.succ t ↔ g.Edge t b := by
    intro b
    constructor
    · intro hb
      rcases (he1' t b).1 ⟨ht1, hb⟩ with h | h
      · exact h
      · exact absurd (hconsec h).1 hmemt
    · intro e; exact ((he1' t b).2 (Or.inl e)).2
  -- step 3: add out
  obtain ⟨hw3, hn3, he3⟩ := addOut_spec (x := last) (g1.succ t) hw2
  generalize hg3 : g2.addOut last (g1.succ t) = g3 at hw3 hn3 he3
  have ht3 : t ∈ g3.nodes := (hn3 t).2 (Or.inl (hn2 ▸ ht1))
  -- step 4: remove in
  obtain ⟨g4, hg4, hw4, hn4, he4⟩ := removeIn_spec (t := t) (g3.pred t) hw3 (hw3.pnodup t ht3)
    (fun x hx => ((WF_iff.1 hw3).2.2.2.2 x t).2 ⟨ht3, hx⟩)
  have hbwd : ∀ a, a ∈ g3.pred t ↔ g3.Edge a t := by
    intro a; constructor
    · intro h; exact ((WF_iff.1 hw3).2.2.2.2 a t).2 ⟨ht3, h⟩
    · intro h; exact (((WF_iff.1 hw3).2.2.2.2 a t).1 h).2
  -- step 5: add in
  obtain ⟨hw5, hn5, he5⟩ := addIn_spec (x := r0) (g3.pred t) hw4
  generalize hg5 : g4.addIn r0 (g3.pred t) = g5 at hw5 hn5 he5
  have hn4' : g4.nodes = g3.nodes := hn4
  have ht5 : t ∈ g5.nodes := (hn5 t).2 (Or.inl (hn4' ▸ ht3))
  obtain ⟨g6, hg6, hw6, hn6, he6⟩ := removeNode_spec hw5 ht5
  -- edges of g3
  have E3 : ∀ a b, g3.Edge a b ↔ (g.Edge a b ∧ a ≠ t) ∨ Consec (r0 :: rs) a b ∨ (a = last ∧ g.Edge t b) := by
    intro a b
    rw [he3, he2, he1', hfwd]
    constructor
    · rintro (⟨h | h, h'⟩ | h)
      · left; refine ⟨h, ?_⟩; rintro rfl; exact h' ⟨rfl, h⟩
      · right; left; exact h
      · right; right; exact h
    · rintro (⟨h, h'⟩ | h | h)
      · left; exact ⟨Or.inl h, fun x => h' x.1⟩
      · left; refine ⟨Or.inr h, fun x => ?_⟩; obtain ⟨rfl, -⟩ := x; exact hmemt (hconsec h).1
      · right; exact h
  refine ⟨g6, ?_, hw6, ?_, ?_⟩
  · have hany : ((r0 :: rs).any fun l => decide (l ∈ g.nodes)) = false := by
      rw [Bool.eq_false_iff]; intro h
      rw [List.any_eq_true] at h
      obtain ⟨x, hx, hx'⟩ := h
      exact hr x hx (by simpa using hx')
    unfold Graph.expand
    rw [if_neg (by simpa using ht)]
    simp only [hany, hg1, hlast]
    simp [hg2, hg3, hg4, hg5, hg6]
  · intro y
    rw [hn6, hw5.nodup.mem_erase_iff, hn5, hn4', hn3, hn2, hn1']
    have hsub1 : ∀ z, z ∈ g1.succ t → z ∈ g.nodes := fun z hz =>
      (WF_iff.1 hw).2.2.2.1 t z ((hfwd z).1 hz)
    have hsub2 : ∀ z, z ∈ g3.pred t → z ∈ g.nodes ∨ z ∈ r0 :: rs := by
      intro z hz
      rcases (E3 z t).1 ((hbwd z).1 hz) with h | h | h
      · exact Or.inl h.1.1
      · exact Or.inr (hconsec h).1
      · exact Or.inr (h.1 ▸ hlm)
    constructor
    · rintro ⟨hy, h⟩
      rcases h with ((h | h) | h | ⟨rfl, -⟩) | h | ⟨rfl, -⟩
      · exact Or.inl ⟨h, hy⟩
      · exact Or.inr h
      · exact Or.inl ⟨hsub1 _ h, hy⟩
      · exact Or.inr hlm
      · rcases hsub2 _ h with h | h
        · exact Or.inl ⟨h, hy⟩
        · exact Or.inr h
      · exact Or.inr (by simp)
    · rintro (⟨h, hy⟩ | h)
      · exact ⟨hy, Or.inl (Or.inl (Or.inl h))⟩
      · exact ⟨fun e => hmemt (e ▸ h), Or.inl (Or.inl (Or.inr h))⟩
  · intro x y
    rw [he6, he5, he4, hbwd, E3]
    unfold backOf frontOf
    constructor
    · rintro ⟨(⟨h1, h2⟩ | ⟨rfl, h1⟩), hxt, hyt⟩
      · rcases h1 with ⟨h1, h3⟩ | h1 | ⟨rfl, h1⟩
        · exact Or.inr ⟨x, y, h1, by simp [h3], by simp [hyt]⟩
        · exact Or.inl h1
        · exact Or.inr ⟨t, y, h1, by simp, by simp [hyt]⟩
      · rcases (E3 x t).1 h1 with ⟨h1, h3⟩ | h1 | ⟨rfl, h1⟩
        · exact Or.inr ⟨x, t, h1, by simp [h3], by simp⟩
        · exact absurd (hconsec h1).2 hmemt
        · exact Or.inr ⟨t, t, h1, by simp, by simp⟩
    · rintro (h | ⟨a, b, e, rfl, rfl⟩)
      · have hx : x ≠ t := fun e => hmemt (e ▸ (hconsec h).1)
        have hy : y ≠ t := fun e => hmemt (e ▸ (hconsec h).2)
        exact ⟨Or.inl ⟨Or.inr (Or.inl h), fun h => hy h.1⟩, hx, hy⟩
      · by_cases ha : a = t
        · subst ha
          by_cases hb : b = a
          · subst hb
            refine ⟨Or.inr ⟨by simp, ?_⟩, by simpa using hlt, by simpa using hr0t⟩
            exact (E3 _ _).2 (Or.inr (Or.inr ⟨by simp, e⟩))
          · refine ⟨Or.inl ⟨Or.inr (Or.inr ⟨by simp, by simpa [hb] using e⟩), fun h => ?_⟩, by simpa using hlt, by simpa [hb]⟩
            simp [hb] at h
        · by_cases hb : b = t
          · subst hb
            refine ⟨Or.inr ⟨by simp, ?_⟩, by simpa [ha], by simpa using hr0t⟩
            exact (E3 _ _).2 (Or.inl (by simpa [ha] using e))
          · refine ⟨Or.inl ⟨Or.inl ?_, fun h => ?_⟩, by simpa [ha], by simpa [hb]⟩
            · simpa [ha, hb] using e
            · simp [hb] at h

theorem expand_ok {g g' : Graph} {t : Label} {r : List Label} (h : g.expand t r = .ok g') :
    t ∈ g.nodes ∧ ∃ r0 rs, r = r0 :: rs ∧ ∀ x ∈ r, x ∉ g.nodes := by
  unfold Graph.expand at h
  split at h
  · simp at h
  · rename_i ht
    refine ⟨by simpa using ht, ?_⟩
    split at h
    · simp at h
    · rename_i r0 rs
      split at h
      · simp at h
      · rename_i hn
        refine ⟨r0, rs, rfl, ?_⟩
        intro x hx hg
        apply hn
        rw [List.any_eq_true]
        exact ⟨x, hx, by simpa using hg⟩

theorem Graph.WF.step {g g' : Graph} (hw : g.WF) {op : Op} (h : g.step op = .ok g') : g'.WF := by
  cases op with
  | addNode l => simp [Graph.step] at h; subst h; exact hw.addNode l
  | addEdge a b => simp [Graph.step] at h; subst h; exact hw.addEdge a b
  | removeEdge a b => exact hw.removeEdge h
  | removeNode l =>
    simp only [Graph.step] at h
    by_cases hl : l ∈ g.nodes
    · obtain ⟨g1, h1, hw1, _⟩ := removeNode_spec hw hl
      rw [h1] at h; cases h; exact hw1
    · simp [Graph.removeNode, hl] at h
  | expand t r =>
    simp only [Graph.step] at h
    obtain ⟨ht, r0, rs, rfl, hr⟩ := expand_ok h
    obtain ⟨g1, h1, hw1, _⟩ := expand_spec hw ht hr
    rw [h1] at h; cases h; exact hw1

theorem Graph.WF.run {ops : List Op} {g g' : Graph} (hw : g.WF) (h : g.run ops = .ok g') : g'.WF := by
  induction ops generalizing g with
  | nil => cases h; exact hw
  | cons op ops ih =>
    simp only [Graph.run, Outcome.bind_eq_ok] at h
    obtain ⟨g1, h1, h2⟩ := h
    exact ih (hw.step h1) h2

end Verif.Dag
