import Verif.GraphLemmas

namespace Verif.Dag
open Graph

/-- In an acyclic graph every non-empty finite collection of labels contains one with no
predecessor inside the collection. -/
theorem exists_min {g : Graph} (hac : g.Acyclic) (S : List Label) {x : Label} (hx : x ∈ S) :
    ∃ m ∈ S, ∀ p ∈ S, ¬ g.Edge p m := by
  classical
  generalize hn : (S.filter (fun y => decide (g.Reach y x))).length = n
  induction n using Nat.strongRecOn generalizing x with
  | _ n ih =>
    by_cases h : ∃ p ∈ S, g.Edge p x
    · obtain ⟨p, hp, e⟩ := h
      refine ih _ ?_ hp rfl
      subst hn
      have hsub : ∀ y, g.Reach y p → g.Reach y x := fun y hy => Relation.TransGen.tail hy e
      have hlen : (S.filter (fun y => decide (g.Reach y p))).length
          < (S.filter (fun y => decide (g.Reach y x))).length := by
        clear ih
        have aux : ∀ (T : List Label), (T.filter (fun y => decide (g.Reach y p))).length
            ≤ (T.filter (fun y => decide (g.Reach y x))).length := by
          intro T
          induction T with
          | nil => simp
          | cons a T iht =>
            simp only [List.filter_cons]
            by_cases h1 : g.Reach a p
            · have := hsub a h1; simp [h1, this]; exact iht
            · by_cases h2 : g.Reach a x <;> simp [h1, h2] <;> omega
        clear hx
        induction S with
        | nil => simp at hp
        | cons a S ihs =>
          simp only [List.filter_cons]
          rcases List.mem_cons.1 hp with rfl | hp
          · have h1 : ¬ g.Reach p p := hac p
            have h2 : g.Reach p x := Relation.TransGen.single e
            simp [h1, h2]
            have := aux S; omega
          · have := ihs hp
            by_cases h1 : g.Reach a p
            · have h2 := hsub a h1; simp [h1, h2]; exact this
            · by_cases h2 : g.Reach a x <;> simp [h1, h2] <;> omega
      exact hlen
    · exact ⟨x, hx, fun p hp e => h ⟨p, hp, e⟩⟩

/-- Every edge out of an element of the order leads to an earlier element. -/
def ClosedOrder (g : Graph) (o : List Label) : Prop :=
  ∀ l1 x l2, o = l1 ++ x :: l2 → ∀ y, g.Edge x y → y ∈ l1

structure TInv (g : Graph) (v o : List Label) : Prop where
  vnodup : v.Nodup
  vsub : ∀ x ∈ v, x ∈ g.nodes
  onodup : o.Nodup
  osub : ∀ x ∈ o, x ∈ v
  closed : ClosedOrder g o

/-- The relation between the states before and after a call of the helper. -/
structure TStep (v o v' o' : List Label) : Prop where
  ext : ∃ e, o' = o ++ e
  mono : ∀ x ∈ v, x ∈ v'
  gray : ∀ y, (y ∈ v' ∧ y ∉ o') ↔ (y ∈ v ∧ y ∉ o)

theorem TStep.refl (v o : List Label) : TStep v o v o := ⟨⟨[], by simp⟩, fun _ h => h, fun _ => Iff.rfl⟩

theorem TStep.trans {v o v' o' v'' o'' : List Label} (h1 : TStep v o v' o') (h2 : TStep v' o' v'' o'') :
    TStep v o v'' o'' := by
  obtain ⟨e1, rfl⟩ := h1.ext
  obtain ⟨e2, rfl⟩ := h2.ext
  exact ⟨⟨e1 ++ e2, by simp⟩, fun x hx => h2.mono x (h1.mono x hx), fun y => (h2.gray y).trans (h1.gray y)⟩

def unvisited (g : Graph) (v : List Label) : Nat := (g.nodes.filter (fun x => decide (x ∉ v))).length

theorem unvisited_mono {g : Graph} {v v' : List Label} (h : ∀ x ∈ v, x ∈ v') : unvisited g v' ≤ unvisited g v := by
  unfold unvisited
  induction g.nodes with
  | nil => simp
  | cons a t ih =>
    simp only [List.filter_cons]
    by_cases h1 : a ∈ v
    · have h2 := h a h1; simp [h1, h2] at ih ⊢; exact ih
    · by_cases h2 : a ∈ v' <;> simp [h1, h2] at ih ⊢ <;> omega

theorem unvisited_lt {g : Graph} {v : List Label} {c : Label} (hc : c ∈ g.nodes) (hv : c ∉ v) :
    unvisited g (v ++ [c]) < unvisited g v := by
  unfold unvisited
  have aux : ∀ T : List Label, (T.filter (fun x => decide (x ∉ v ++ [c]))).length
      ≤ (T.filter (fun x => decide (x ∉ v))).length := by
    intro T
    induction T with
    | nil => simp
    | cons a t ih =>
      simp only [List.filter_cons]
      by_cases h1 : a ∈ v
      · simp [h1] at ih ⊢; exact ih
      · by_cases h2 : a = c <;> simp [h1, h2] at ih ⊢ <;> grind
  generalize g.nodes = ns at hc ⊢
  induction ns with
  | nil => simp at hc
  | cons a t ih =>
    simp only [List.filter_cons]
    rcases List.mem_cons.1 hc with rfl | hc
    · have := aux t
      simp [hv] at this ⊢; omega
    · have := ih hc
      by_cases h1 : a ∈ v
      · simp [h1] at this ⊢; exact this
      · by_cases h2 : a = c
        · have h3 := aux t; simp [h2, hv] at h3 ⊢; omega
        · simp [h1, h2] at this ⊢; omega

theorem topoHelper_spec {g : Graph} (hw : g.WF) (hac : g.Acyclic) :
    ∀ n v o cur, TInv g v o → cur ∈ g.nodes → (∀ y ∈ v, y ∉ o → g.Reach y cur) → unvisited g v < n →
      ∃ v' o', g.topoHelper n (v, o) cur = some (v', o') ∧ TInv g v' o' ∧ TStep v o v' o' ∧ cur ∈ o' := by
  intro n
  induction n with
  | zero => intro v o cur _ _ _ h; omega
  | succ n ih =>
    intro v o cur hi hcur hg hn
    unfold topoHelper
    by_cases hv : cur ∈ v
    · refine ⟨v, o, by simp [hv], hi, TStep.refl _ _, ?_⟩
      by_cases ho : cur ∈ o
      · exact ho
      · exact absurd (hg cur hv ho) (hac cur)
    · have hco : cur ∉ o := fun h => hv (hi.osub _ h)
      -- the loop over successors
      have loop : ∀ (ss : List Label) (v1 o1 : List Label), (∀ s ∈ ss, g.Edge cur s) → TInv g v1 o1 →
          TStep (v ++ [cur]) o v1 o1 →
          ∃ v2 o2, ss.foldlM (g.topoHelper n) (v1, o1) = some (v2, o2) ∧ TInv g v2 o2 ∧
            TStep (v ++ [cur]) o v2 o2 ∧ TStep v1 o1 v2 o2 ∧ ∀ s ∈ ss, s ∈ o2 := by
        intro ss
        induction ss with
        | nil => intro v1 o1 _ h1 h2; exact ⟨v1, o1, rfl, h1, h2, TStep.refl _ _, by simp⟩
        | cons s ss ihs =>
          intro v1 o1 he h1 h2
          have es : g.Edge cur s := he s (by simp)
          have hs : s ∈ g.nodes := (WF_iff.1 hw).2.2.2.1 _ _ es
          obtain ⟨v2, o2, r2, i2, t2, c2⟩ := ih v1 o1 s h1 hs (by
              intro y hy ho
              have := (h2.gray y).1 ⟨hy, ho⟩
              rcases List.mem_append.1 this.1 with h | h
              · exact Relation.TransGen.tail (hg y h this.2) es
              · simp at h; subst h; exact Relation.TransGen.single es)
            (by
              have h3 := unvisited_mono (g := g) h2.mono
              have h4 := unvisited_lt hcur hv
              omega)
          obtain ⟨v3, o3, r3, i3, t3, t3', c3⟩ := ihs v2 o2 (fun s hs => he s (by simp [hs])) i2 (h2.trans t2)
          refine ⟨v3, o3, ?_, i3, t3, t2.trans t3', ?_⟩
          · simp only [List.foldlM_cons, r2, Option.bind_eq_bind, Option.bind_some]; exact r3
          · intro x hx
            rcases List.mem_cons.1 hx with rfl | hx
            · obtain ⟨e, rfl⟩ := t3'.ext; simp [c2]
            · exact c3 x hx
      have hi0 : TInv g (v ++ [cur]) o := by
        refine ⟨?_, ?_, hi.onodup, fun x hx => by simp [hi.osub x hx], hi.closed⟩
        · rw [List.nodup_append]; refine ⟨hi.vnodup, by simp, ?_⟩
          intro a ha b hb; simp at hb; subst hb; intro e; subst e; contradiction
        · intro x hx; rcases List.mem_append.1 hx with h | h
          · exact hi.vsub x h
          · simp at h; subst h; exact hcur
      obtain ⟨v2, o2, r2, i2, t2, _, c2⟩ := loop (g.succ cur) (v ++ [cur]) o (fun s hs => ⟨hcur, hs⟩) hi0 (TStep.refl _ _)
      have hc2 : cur ∈ v2 ∧ cur ∉ o2 := (t2.gray cur).2 ⟨by simp, hco⟩
      refine ⟨v2, o2 ++ [cur], by simp [hv, r2], ?_, ?_, by simp⟩
      · refine ⟨i2.vnodup, i2.vsub, ?_, ?_, ?_⟩
        · rw [List.nodup_append]; refine ⟨i2.onodup, by simp, ?_⟩
          intro a ha b hb; simp at hb; subst hb; intro e; subst e; exact hc2.2 ha
        · intro x hx; rcases List.mem_append.1 hx with h | h
          · exact i2.osub x h
          · simp at h; subst h; exact hc2.1
        · intro l1 x l2 hl y e
          rcases List.eq_nil_or_concat l2 with rfl | ⟨l3, z, rfl⟩
          · have hl' : o2 ++ [cur] = l1 ++ [x] := hl
            have := List.append_inj' hl' rfl
            obtain ⟨rfl, h⟩ := this
            simp at h; subst h
            exact c2 y e.2
          · have hl' : o2 ++ [cur] = (l1 ++ x :: l3) ++ [z] := by simpa using hl
            have := List.append_inj' hl' rfl
            exact i2.closed l1 x l3 this.1 y e
      · obtain ⟨e, he⟩ := t2.ext
        refine ⟨⟨e ++ [cur], by simp [he]⟩, fun x hx => t2.mono x (by simp [hx]), ?_⟩
        intro y
        have := t2.gray y
        constructor
        · rintro ⟨h1, h2⟩
          have h3 : y ≠ cur ∧ y ∉ o2 := by
            constructor
            · rintro rfl; exact h2 (by simp)
            · intro h; exact h2 (by simp [h])
          have h4 := this.1 ⟨h1, h3.2⟩
          refine ⟨?_, h4.2⟩
          rcases List.mem_append.1 h4.1 with h | h
          · exact h
          · simp at h; exact absurd h h3.1
        · rintro ⟨h1, h2⟩
          have h3 := this.2 ⟨by simp [h1], h2⟩
          refine ⟨h3.1, ?_⟩
          intro h
          rcases List.mem_append.1 h with h | h
          · exact h3.2 h
          · simp at h; subst h; exact hv h1

theorem topoOrder_spec {g : Graph} (hw : g.WF) (hac : g.Acyclic) :
    ∃ o, g.topoOrder = some o ∧ o.Nodup ∧ (∀ x, x ∈ o ↔ x ∈ g.nodes) ∧ ClosedOrder g o := by
  have loop : ∀ (hs : List Label) (v o : List Label), (∀ h ∈ hs, h ∈ g.nodes) → TInv g v o → (∀ y ∈ v, y ∈ o) →
      ∃ v' o', hs.foldlM (g.topoHelper (g.nodes.length + 1)) (v, o) = some (v', o') ∧ TInv g v' o' ∧
        (∀ y ∈ v', y ∈ o') ∧ (∀ y ∈ o, y ∈ o') ∧ ∀ h ∈ hs, h ∈ o' := by
    intro hs
    induction hs with
    | nil => intro v o _ hi hv; exact ⟨v, o, rfl, hi, hv, fun _ h => h, by simp⟩
    | cons h hs ih =>
      intro v o hh hi hv
      obtain ⟨v1, o1, r1, i1, t1, c1⟩ := topoHelper_spec hw hac (g.nodes.length + 1) v o h hi (hh h (by simp))
        (fun y hy ho => absurd (hv y hy) ho)
        (by unfold unvisited; have := List.length_filter_le (fun x => decide (x ∉ v)) g.nodes; omega)
      have hv1 : ∀ y ∈ v1, y ∈ o1 := by
        intro y hy
        by_cases ho : y ∈ o1
        · exact ho
        · have := (t1.gray y).1 ⟨hy, ho⟩
          exact absurd (hv y this.1) this.2
      obtain ⟨v2, o2, r2, i2, g2, m2, c2⟩ := ih v1 o1 (fun x hx => hh x (by simp [hx])) i1 hv1
      refine ⟨v2, o2, ?_, i2, g2, ?_, ?_⟩
      · simp only [List.foldlM_cons, r1, Option.bind_eq_bind, Option.bind_some]; exact r2
      · intro y hy; apply m2; obtain ⟨e, rfl⟩ := t1.ext; simp [hy]
      · intro x hx; rcases List.mem_cons.1 hx with rfl | hx
        · exact m2 _ c1
        · exact c2 x hx
  obtain ⟨v, o, r, i, gv, _, c⟩ := loop g.heads [] [] (by intro h hh; unfold heads at hh; exact (List.mem_filter.1 hh).1)
    ⟨by simp, by simp, by simp, by simp, by intro l1 x l2 h; simp at h⟩ (by simp)
  have hclosed : ∀ x ∈ o, ∀ y, g.Edge x y → y ∈ o := by
    intro x hx y e
    obtain ⟨l1, l2, h⟩ := List.append_of_mem hx
    have := i.closed l1 x l2 h y e
    rw [h]; simp [this]
  refine ⟨o, by simp [topoOrder, r], i.onodup, ?_, i.closed⟩
  intro x
  constructor
  · intro hx; exact i.vsub x (i.osub x hx)
  · intro hx
    by_cases ho : x ∈ o
    · exact ho
    · exfalso
      obtain ⟨m, hm, hmin⟩ := exists_min hac (g.nodes.filter (fun z => decide (z ∉ o))) (x := x) (by simp [hx, ho])
      simp at hm
      have hpred : g.pred m = [] := by
        cases hp : g.pred m with
        | nil => rfl
        | cons p ps =>
          have hpm : p ∈ g.pred m := by simp [hp]
          have hpn := hw.pclosed m hm.1 p hpm
          have e : g.Edge p m := ((WF_iff.1 hw).2.2.2.2 p m).2 ⟨hm.1, hpm⟩
          by_cases hpo : p ∈ o
          · exact absurd (hclosed p hpo m e) hm.2
          · exact absurd e (hmin p (by simp [hpn, hpo]))
      have : m ∈ g.heads := by unfold heads; simp [hm.1, hpred]
      exact hm.2 (c m this)

end Verif.Dag
