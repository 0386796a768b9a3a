import Verif.DagLemmas

/-!
# C17, C20, C21: the dependency graph

Statements use only the public queries of `DirectedGraph` (`successors`, `predecessors`,
`heads`, `topological_order_tails_first`) and plain relations.
-/

namespace Verif.Dag.Spec
open Graph

/-- The client sees `b` among `successors(a)`. -/
def ListedSucc (g : Graph) (a b : Nat) : Prop := ∃ l, g.successors a = .ok l ∧ b ∈ l

/-- The client sees `a` among `predecessors(b)`. -/
def ListedPred (g : Graph) (a b : Nat) : Prop := ∃ l, g.predecessors b = .ok l ∧ a ∈ l

theorem listedSucc_iff {g : Graph} {a b : Nat} : ListedSucc g a b ↔ g.Edge a b := by
  unfold ListedSucc Graph.successors Graph.Edge
  by_cases h : a ∈ g.nodes <;> simp [h]

theorem listedPred_iff {g : Graph} {a b : Nat} : ListedPred g a b ↔ g.BackEdge a b := by
  unfold ListedPred Graph.predecessors Graph.BackEdge
  by_cases h : b ∈ g.nodes <;> simp [h]

/-- **C17**. After any history of calls, predecessors and successors mirror each other, every
listed neighbour is a node, and nothing is listed twice. -/
theorem c17_mirror (ops : List Op) (g : Graph) (h : Graph.empty.run ops = .ok g) :
    (∀ a b, ListedSucc g a b ↔ ListedPred g a b) ∧
    (∀ a b, ListedSucc g a b → a ∈ g.nodes ∧ b ∈ g.nodes) ∧
    g.nodes.Nodup ∧ (∀ a l, g.successors a = .ok l → l.Nodup) ∧ (∀ a l, g.predecessors a = .ok l → l.Nodup) := by
  have hw : g.WF := WF_empty.run h
  have hi := WF_iff.1 hw
  refine ⟨fun a b => ?_, fun a b e => ?_, hw.nodup, ?_, ?_⟩
  · rw [listedSucc_iff, listedPred_iff]; exact hi.2.2.2.2 a b
  · rw [listedSucc_iff] at e; exact ⟨e.1, hi.2.2.2.1 a b e⟩
  · intro a l hl
    unfold Graph.successors at hl
    split at hl
    · rename_i ha; cases hl; exact hw.snodup a ha
    · simp at hl
  · intro a l hl
    unfold Graph.predecessors at hl
    split at hl
    · rename_i ha; cases hl; exact hw.pnodup a ha
    · simp at hl

/-- Abstract graph: a set of nodes and a set of arrows. -/
structure AGraph where
  node : Nat → Prop
  arrow : Nat → Nat → Prop

/-- What each call is meant to do to the abstract graph. -/
def AGraph.After (A : AGraph) : Op → AGraph → Prop
  | .addNode l, B => (∀ x, B.node x ↔ A.node x ∨ x = l) ∧ ∀ x y, B.arrow x y ↔ A.arrow x y
  | .addEdge a b, B => (∀ x, B.node x ↔ A.node x ∨ x = a ∨ x = b) ∧ ∀ x y, B.arrow x y ↔ A.arrow x y ∨ (x = a ∧ y = b)
  | .removeEdge a b, B => (∀ x, B.node x ↔ A.node x) ∧ ∀ x y, B.arrow x y ↔ A.arrow x y ∧ ¬ (x = a ∧ y = b)
  | .removeNode l, B => (∀ x, B.node x ↔ A.node x ∧ x ≠ l) ∧ ∀ x y, B.arrow x y ↔ A.arrow x y ∧ x ≠ l ∧ y ≠ l
  | .expand t r, B =>
      (∀ x, B.node x ↔ (A.node x ∧ x ≠ t) ∨ x ∈ r) ∧
      ∀ x y, B.arrow x y ↔
        (∃ l1 l2, r = l1 ++ x :: y :: l2) ∨
        ∃ a b, A.arrow a b ∧ (if a = t then r.getLast? = some x else x = a) ∧ (if b = t then r.head? = some y else y = b)

/-- The abstract graph a client sees. -/
def seen (g : Graph) : AGraph := ⟨fun x => x ∈ g.nodes, ListedSucc g⟩

/-- **C17 (effects)**. In every reachable state each successful call has exactly its intended
effect on nodes and arrows, and the only call with undefined behaviour is removing an arrow that
is not there between two existing nodes. -/
theorem c17_effect (ops : List Op) (g : Graph) (h : Graph.empty.run ops = .ok g) (op : Op) :
    (∀ g', g.step op = .ok g' → (seen g).After op (seen g')) ∧
    (g.step op = .ub ↔ ∃ a b, op = .removeEdge a b ∧ a ∈ g.nodes ∧ b ∈ g.nodes ∧ ¬ ListedSucc g a b) := by
  have hw : g.WF := WF_empty.run h
  constructor
  · intro g' hs
    cases op with
    | addNode l =>
      simp only [Graph.step, Outcome.ok.injEq] at hs; subst hs
      exact ⟨fun x => mem_addNode, fun x y => by simp only [seen, listedSucc_iff, edge_addNode]⟩
    | addEdge a b =>
      simp only [Graph.step, Outcome.ok.injEq] at hs; subst hs
      refine ⟨fun x => ?_, fun x y => by simp only [seen, listedSucc_iff, edge_addEdge]⟩
      simp only [seen, mem_addEdge]
      constructor <;> rintro (h | h | h) <;> simp [h]
    | removeEdge a b =>
      simp only [Graph.step] at hs
      refine ⟨fun x => by simp only [seen, nodes_removeEdge hs], fun x y => ?_⟩
      simp only [seen, listedSucc_iff, edge_removeEdge hw hs]
    | removeNode l =>
      simp only [Graph.step] at hs
      have hl : l ∈ g.nodes := by
        unfold Graph.removeNode at hs; by_cases hl : l ∈ g.nodes
        · exact hl
        · simp [hl] at hs
      obtain ⟨g1, h1, h2, h3, h4⟩ := removeNode_spec hw hl
      rw [h1] at hs; cases hs
      refine ⟨fun x => ?_, fun x y => by simp only [seen, listedSucc_iff, h4]⟩
      simp only [seen, h3, hw.nodup.mem_erase_iff]; exact And.comm
    | expand t r =>
      simp only [Graph.step] at hs
      obtain ⟨ht, r0, rs, hr, hnew⟩ := expand_ok hs
      subst hr
      obtain ⟨h1, h2, h3⟩ := expand_eq_spec hw hs
      refine ⟨h2, fun x y => ?_⟩
      simp only [seen, listedSucc_iff, h3]
      refine or_congr Iff.rfl ?_
      constructor
      · rintro ⟨a, b, e, rfl, rfl⟩
        refine ⟨a, b, e, ?_, ?_⟩
        · unfold backOf; split <;> simp [List.getLast?_eq_some_getLast]
        · unfold frontOf; split <;> simp
      · rintro ⟨a, b, e, hx, hy⟩
        refine ⟨a, b, e, ?_, ?_⟩
        · unfold backOf; split at hx
          · rename_i ha; simp only [ha, if_true]
            rw [List.getLast?_eq_some_getLast (by simp)] at hx; simpa using hx.symm
          · rename_i ha; simp [ha, hx]
        · unfold frontOf; split at hy
          · rename_i ha; simp only [ha, if_true]; simpa using hy.symm
          · rename_i ha; simp [ha, hy]
  · constructor
    · intro hub
      cases op with
      | addNode l => simp [Graph.step] at hub
      | addEdge a b => simp [Graph.step] at hub
      | removeEdge a b =>
        simp only [Graph.step, Graph.removeEdge] at hub
        refine ⟨a, b, rfl, ?_⟩
        split at hub
        · simp at hub
        · rename_i ha; simp at ha
          split at hub
          · simp at hub
          · rename_i hb; simp at hb
            refine ⟨ha, hb, ?_⟩
            rw [listedSucc_iff]
            intro e
            have e' := ((WF_iff.1 hw).2.2.2.2 a b).1 e
            simp [e.2, e'.2] at hub
      | removeNode l =>
        simp only [Graph.step] at hub
        by_cases hl : l ∈ g.nodes
        · obtain ⟨g1, h1, _⟩ := removeNode_spec hw hl
          rw [h1] at hub; simp at hub
        · unfold Graph.removeNode at hub; simp [hl] at hub
      | expand t r =>
        simp only [Graph.step] at hub
        exfalso
        by_cases ht : t ∈ g.nodes
        · cases r with
          | nil => simp [Graph.expand, ht] at hub
          | cons r0 rs =>
            by_cases hn : ∀ x ∈ r0 :: rs, x ∉ g.nodes
            · obtain ⟨g1, h1, _⟩ := expand_spec hw ht hn
              rw [h1] at hub; simp at hub
            · have : (r0 :: rs).any (fun l => decide (l ∈ g.nodes)) = true := by
                simp only [List.any_eq_true, decide_eq_true_eq]
                exact Classical.byContradiction fun hc => hn fun x hx hg => hc ⟨x, hx, hg⟩
              simp only [Graph.expand, this, ht] at hub
              simp at hub
        · simp [Graph.expand, ht] at hub
    · rintro ⟨a, b, rfl, ha, hb, hn⟩
      rw [listedSucc_iff] at hn
      have : b ∉ g.succ a := fun hc => hn ⟨ha, hc⟩
      simp [Graph.step, Graph.removeEdge, ha, hb, this]

/-- A history that adds, links, expands and removes; it succeeds. -/
example : (Graph.empty.run [.addEdge 0 1, .addEdge 1 2, .addEdge 0 2, .expand 1 [7, 8], .removeNode 0]).isOk = true := by decide

/-- Removing an absent arrow between existing nodes is undefined behaviour. -/
theorem c17_remove_absent_edge_ub : Graph.empty.run [.addNode 0, .addNode 1, .removeEdge 0 1] = .ub := rfl

/-- Under the strict reading of the standard (erasing from a set invalidates the iterator of the
range-for walking it) removing a node is undefined exactly when an arrow touches it. -/
theorem c17_remove_node_strict (ops : List Op) (g : Graph) (h : Graph.empty.run ops = .ok g) (l : Nat) (hl : l ∈ g.nodes) :
    (g.removeNodeStrict l = .ub ↔ ∃ x, ListedSucc g l x ∨ ListedSucc g x l) ∧
    (∀ g', g.removeNodeStrict l = .ok g' → ∃ g'', g.removeNode l = .ok g'' ∧ g''.nodes = g'.nodes) := by
  have hw : g.WF := WF_empty.run h
  have hi := WF_iff.1 hw
  constructor
  · unfold Graph.removeNodeStrict
    simp only [hl, not_true_eq_false, if_false]
    constructor
    · intro hub
      split at hub
      · rename_i hc
        rcases hc with hc | hc
        · obtain ⟨x, hx⟩ := List.exists_mem_of_ne_nil _ hc
          exact ⟨x, Or.inl (listedSucc_iff.2 ⟨hl, hx⟩)⟩
        · obtain ⟨x, hx⟩ := List.exists_mem_of_ne_nil _ hc
          exact ⟨x, Or.inr (listedSucc_iff.2 ((hi.2.2.2.2 x l).2 ⟨hl, hx⟩))⟩
      · simp at hub
    · rintro ⟨x, hx | hx⟩ <;> rw [listedSucc_iff] at hx
      · rw [if_pos (Or.inl (List.ne_nil_of_mem hx.2))]
      · rw [if_pos (Or.inr (List.ne_nil_of_mem ((hi.2.2.2.2 x l).1 hx).2))]
  · intro g' hg'
    obtain ⟨g1, h1, _, h3, _⟩ := removeNode_spec hw hl
    refine ⟨g1, h1, ?_⟩
    unfold Graph.removeNodeStrict at hg'
    simp only [hl, not_true_eq_false, if_false] at hg'
    split at hg'
    · simp at hg'
    · cases hg'; rw [h3]; rfl

/-- A path of one or more listed arrows. -/
inductive Path (g : Graph) : Nat → Nat → Prop
  | one {a b : Nat} : ListedSucc g a b → Path g a b
  | step {a b c : Nat} : ListedSucc g a b → Path g b c → Path g a c

theorem path_iff {g : Graph} {a b : Nat} : Path g a b ↔ g.Reach a b := by
  constructor
  · intro h
    induction h with
    | one e => exact Relation.TransGen.single (listedSucc_iff.1 e)
    | step e _ ih => exact Relation.TransGen.trans (Relation.TransGen.single (listedSucc_iff.1 e)) ih
  · intro h
    induction h with
    | single e => exact .one (listedSucc_iff.2 e)
    | tail hr e ih =>
      clear hr
      induction ih with
      | one e' => exact .step e' (.one (listedSucc_iff.2 e))
      | step e' _ ih => exact .step e' (ih e)

/-- No node can be reached from itself. -/
def NoCycle (g : Graph) : Prop := ∀ x, ¬ Path g x x

theorem noCycle_iff {g : Graph} : NoCycle g ↔ g.Acyclic := by
  unfold NoCycle Graph.Acyclic; simp only [path_iff]

theorem idxOf_lt_of_split {o l1 l2 : List Nat} {x y : Nat} (hd : o.Nodup) (h : o = l1 ++ x :: l2) (hy : y ∈ l1) :
    o.idxOf y < o.idxOf x := by
  subst h
  have hx : x ∉ l1 := by
    intro hm; exact (List.nodup_append.1 hd).2.2 x hm x (by simp) rfl
  rw [List.idxOf_append, if_pos hy, List.idxOf_append, if_neg hx]
  have := List.idxOf_lt_length_of_mem hy
  omega

/-- **C20**. For every reachable acyclic graph the recursion terminates and the tails-first order
is a permutation of the nodes in which each node comes after all of its successors. -/
theorem c20_topological (ops : List Op) (g : Graph) (h : Graph.empty.run ops = .ok g) (hac : NoCycle g) :
    ∃ o, g.topoOrder = some o ∧ o.Perm g.nodes ∧ ∀ a b, ListedSucc g a b → o.idxOf b < o.idxOf a := by
  have hw : g.WF := WF_empty.run h
  obtain ⟨o, h1, h2, h3, h4⟩ := topoOrder_spec hw (noCycle_iff.1 hac)
  refine ⟨o, h1, (List.perm_ext_iff_of_nodup h2 hw.nodup).2 h3, fun a b e => ?_⟩
  rw [listedSucc_iff] at e
  obtain ⟨l1, l2, hs⟩ := List.append_of_mem ((h3 a).2 e.1)
  exact idxOf_lt_of_split h2 hs (h4 l1 a l2 hs b e)

/-- A diamond is acyclic and its order is computed. -/
def diamond : List Op := [.addEdge 0 1, .addEdge 0 2, .addEdge 1 3, .addEdge 2 3]

theorem diamond_ok : ∃ g, Graph.empty.run diamond = .ok g ∧ NoCycle g ∧ g.topoOrder = some [3, 1, 2, 0] := by
  refine ⟨_, rfl, ?_, by decide⟩
  rw [noCycle_iff]
  refine acyclic_of_lt fun x y e => ?_
  have e : ((((((Graph.empty.addEdge 0 1).addEdge 0 2).addEdge 1 3).addEdge 2 3)).Edge x y) := e
  simp only [edge_addEdge] at e
  simp only [Graph.Edge, Graph.empty, List.not_mem_nil, false_and, false_or] at e
  omega

/-- **C21**. Expanding node `t` into the chain `r` (distinct labels): the other nodes keep exactly
their mutual reachability, every chain node takes over all of `t`'s ancestors and descendants,
the chain is ordered front to back, and no cycle appears. -/
theorem c21_expand (ops : List Op) (g g' : Graph) (h : Graph.empty.run ops = .ok g) (t : Nat) (r : List Nat)
    (hd : r.Nodup) (hx : g.expand t r = .ok g') :
    (∀ a b, a ∈ g.nodes → b ∈ g.nodes → a ≠ t → b ≠ t → (Path g' a b ↔ Path g a b)) ∧
    (∀ a c, a ∈ g.nodes → a ≠ t → c ∈ r → ((Path g' a c ↔ Path g a t) ∧ (Path g' c a ↔ Path g t a))) ∧
    (NoCycle g → ∀ i j (hi : i < r.length) (hj : j < r.length), Path g' r[i] r[j] ↔ i < j) ∧
    (NoCycle g → NoCycle g') := by
  have hw : g.WF := WF_empty.run h
  obtain ⟨ht, r0, rs, hr, hnew⟩ := expand_ok hx
  subst hr
  have hmemB : ∀ {x y}, Before (r0 :: rs) x y → x ∈ r0 :: rs ∧ y ∈ r0 :: rs := by
    rintro x y ⟨l1, l2, l3, e⟩; rw [e]; simp
  have himg : ∀ a x, x ∈ g.nodes → x ≠ t → Img t (r0 :: rs) a x → a = x := by
    rintro a x hx hne (⟨_, h2⟩ | ⟨_, h2⟩)
    · exact h2.symm
    · exact absurd hx (hnew _ h2)
  have himgr : ∀ a x, a ∈ g.nodes → x ∈ r0 :: rs → Img t (r0 :: rs) a x → a = t := by
    rintro a x ha hx (⟨_, h2⟩ | ⟨h2, _⟩)
    · subst h2; exact absurd ha (hnew _ hx)
    · exact h2
  have hmem : ∀ {a b}, g.Reach a b → a ∈ g.nodes ∧ b ∈ g.nodes := by
    intro a b hab
    induction hab with
    | single e => exact ⟨e.1, (WF_iff.1 hw).2.2.2.1 _ _ e⟩
    | tail _ e ih => exact ⟨ih.1, (WF_iff.1 hw).2.2.2.1 _ _ e⟩
  have hac : g.Acyclic → g'.Acyclic := fun hac => acyclic_expand hw hac hx hd
  refine ⟨?_, ?_, ?_, ?_⟩
  · intro a b ha hb hat hbt
    rw [path_iff, path_iff]
    constructor
    · intro hr
      rcases reach_expand_back hw hx hd hr with ⟨a', b', h1, h2, h3⟩ | hB
      · rw [himg a' a ha hat h2, himg b' b hb hbt h3] at h1; exact h1
      · exact absurd ha (hnew _ (hmemB hB).1)
    · intro hr; exact reach_expand_fwd hw hx hr (Or.inl ⟨hat, rfl⟩) (Or.inl ⟨hbt, rfl⟩)
  · intro a c ha hat hc
    simp only [path_iff]
    refine ⟨⟨?_, ?_⟩, ⟨?_, ?_⟩⟩
    · intro hr
      rcases reach_expand_back hw hx hd hr with ⟨a', b', h1, h2, h3⟩ | hB
      · rw [himg a' a ha hat h2, himgr b' c (hmem h1).2 hc h3] at h1; exact h1
      · exact absurd ha (hnew _ (hmemB hB).1)
    · intro hr; exact reach_expand_fwd hw hx hr (Or.inl ⟨hat, rfl⟩) (Or.inr ⟨rfl, hc⟩)
    · intro hr
      rcases reach_expand_back hw hx hd hr with ⟨a', b', h1, h2, h3⟩ | hB
      · rw [himg b' a ha hat h3, himgr a' c (hmem h1).1 hc h2] at h1; exact h1
      · exact absurd ha (hnew _ (hmemB hB).2)
    · intro hr; exact reach_expand_fwd hw hx hr (Or.inr ⟨rfl, hc⟩) (Or.inl ⟨hat, rfl⟩)
  · intro hnc i j hi hj
    rw [noCycle_iff] at hnc
    rw [path_iff]
    have hbef : ∀ i j (hi : i < (r0 :: rs).length) (hj : j < (r0 :: rs).length), i < j →
        Before (r0 :: rs) (r0 :: rs)[i] (r0 :: rs)[j] := by
      intro i j hi hj hij
      refine ⟨(r0 :: rs).take i, ((r0 :: rs).take j).drop (i + 1), (r0 :: rs).drop (j + 1), ?_⟩
      have h1 : (r0 :: rs) = (r0 :: rs).take j ++ (r0 :: rs)[j] :: (r0 :: rs).drop (j + 1) := by
        rw [List.getElem_cons_drop, List.take_append_drop]
      have h2 : (r0 :: rs).take j = (r0 :: rs).take i ++ (r0 :: rs)[i] :: ((r0 :: rs).take j).drop (i + 1) := by
        have hlen : i < ((r0 :: rs).take j).length := by simp; simp at hi hj; omega
        have h3 := List.take_append_drop i ((r0 :: rs).take j)
        rw [List.take_take, Nat.min_eq_left (by omega), List.drop_eq_getElem_cons hlen] at h3
        rw [List.getElem_take] at h3
        exact h3.symm
      rw [← h2, ← h1]
    obtain ⟨_, _, he⟩ := expand_eq_spec hw hx
    constructor
    · intro hr
      rcases reach_expand_back hw hx hd hr with ⟨a', b', h1, h2, h3⟩ | hB
      · rw [himgr a' _ (hmem h1).1 (List.getElem_mem _) h2, himgr b' _ (hmem h1).2 (List.getElem_mem _) h3] at h1
        exact absurd h1 (hnc t)
      · rcases Nat.lt_trichotomy i j with hij | hij | hij
        · exact hij
        · subst hij; exact absurd hB (Before.irrefl hd)
        · exact absurd (hB.trans hd (hbef j i hj hi hij)) (Before.irrefl hd)
    · intro hij
      obtain ⟨l1, l2, l3, e⟩ := hbef i j hi hj hij
      exact consec_reach (fun a b hab => (he a b).2 (Or.inl hab)) l1 _ l2 _ l3 e
  · rw [noCycle_iff, noCycle_iff]; exact hac

/-- Hypotheses of `c21_expand` are met by expanding a middle node of the diamond. -/
example : ∃ g g', Graph.empty.run diamond = .ok g ∧ [10, 11, 12].Nodup ∧ g.expand 1 [10, 11, 12] = .ok g' :=
  ⟨_, _, rfl, by decide, rfl⟩

end Verif.Dag.Spec
