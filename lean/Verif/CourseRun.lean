import Verif.Course
import Verif.StayProps

/-! # The steps in which instructions are carried out, over whole runs: lemmas (C68) -/

namespace Verif.Course

open Verif Apply Verif.Wave Verif.Wave.Spec Verif.Pipe Verif.Pipe.Spec Verif.Real Verif.Real.Spec Spec

/-! ### What has begun can be completed -/

theorem going_begun {e : Bool} {x : Operation} {l : List Operation} {i : Operation} (h : Going e x l i) : l = [] ∨ ∃ more, Done e x (l ++ more) := by
  cases h with
  | fresh => exact .inl rfl
  | multi => exact .inl rfl
  | routed => exact .inl rfl
  | phase => exact .inr ⟨[_], .phase⟩
  | @rotate t r p k hp hr hk =>
    right
    have : k = 0 ∨ k = 1 ∨ k = 2 := by omega
    rcases this with rfl | rfl | rfl
    · exact ⟨[_], .rotate hp hr⟩
    · exact ⟨[_, _], .rotate hp hr⟩
    · exact ⟨[_, _, _], .rotate hp hr⟩
  | @bell b L l k n hne hl h =>
    refine .inr ⟨[.bell { b with localInstrs := some L, counter := some (n, L.length) }], .bell (L := L) (by simp) ?_ ?_⟩
    · intro o ho
      rcases List.mem_append.1 ho with ho | ho
      · exact hl o ho
      · rw [List.mem_singleton.1 ho]; exact ⟨_, rfl⟩
    · rw [List.flatMap_append, h]
      simp only [List.flatMap_cons, List.flatMap_nil, List.append_nil, performed, share]
      rw [List.take_of_length_le (l := L.drop n) (by simp), List.take_append_drop]
  | @cnot c L l k n he hne hl h =>
    refine .inr ⟨[.bellCnot { c with localSets := some [L], counterPairs := some [(n, L.length)] }], .cnot (L := L) he (by simp) ?_ ?_⟩
    · intro o ho
      rcases List.mem_append.1 ho with ho | ho
      · exact hl o ho
      · rw [List.mem_singleton.1 ho]; exact ⟨_, rfl⟩
    · rw [List.flatMap_append, h]
      simp only [List.flatMap_cons, List.flatMap_nil, List.append_nil, performed, share, List.zip_cons_cons, List.zip_nil_right]
      rw [List.take_of_length_le (l := L.drop n) (by simp), List.take_append_drop]
  | @crossing c R S ws l k he hS hw hk hl h hlow hhigh hnil =>
    right
    obtain ⟨A, B, C, D, rfl⟩ := four hS
    have key : ∀ v rest, (([A, B, C, D].zip v).flatMap fun x => share x.1 x.2) = rest →
        l.flatMap performed ++ rest = (if C = [] then A ++ B else A ++ B ++ C ++ D) → ∃ more, Done e (.bellCnot c) (l ++ more) := by
      intro v rest h1 h2
      refine ⟨[.bellCnot { c with route := some R, localSets := some [A, B, C, D], counterPairs := some v, phase := some k }], .crossing (R := R) (A := A) (B := B) (C := C) (D := D) he (by simp) ?_ ?_⟩
      · intro o ho
        rcases List.mem_append.1 ho with ho | ho
        · exact hl o ho
        · rw [List.mem_singleton.1 ho]; exact ⟨_, _, rfl⟩
      · rw [List.flatMap_append, ← h2]
        simp only [List.flatMap_cons, List.flatMap_nil, List.append_nil, performed, ← h1]
    have all : ∀ (L : List LocalInstr), share L (0, L.length) = L := fun L => by simp [share]
    have rest : ∀ (L : List LocalInstr) (n : Nat), share L (n, L.length) = L.drop n := fun L n => by
      unfold share
      rw [List.take_of_length_le]; simp
    have emp : ∀ (L : List LocalInstr) (n : Nat), share L (n, n) = [] := share_empty
    have tad : ∀ (L X : List LocalInstr) (n : Nat), L.take n ++ (L.drop n ++ X) = L ++ X := fun L X n => by rw [← List.append_assoc, List.take_append_drop]
    generalize ((ws[k]?).getD (0, 0)).2 = n at h
    have c4 : k = 0 ∨ k = 1 ∨ k = 2 ∨ k = 3 := by omega
    by_cases hC : C = []
    · rcases c4 with rfl | rfl | rfl | rfl
      · refine key [(n, A.length), (0, B.length), (0, 0), (0, 0)] _ rfl ?_
        simp [h, hC, all, rest, emp, tad]
      · refine key [(0, 0), (n, B.length), (0, 0), (0, 0)] _ rfl ?_
        simp [h, hC, all, rest, emp, tad]
      · exact absurd (by simp [hC]) (hnil (by omega))
      · exact absurd (by simp [hC]) (hnil (by omega))
    · rcases c4 with rfl | rfl | rfl | rfl
      · refine key [(n, A.length), (0, B.length), (0, C.length), (0, D.length)] _ rfl ?_
        simp [h, hC, all, rest, emp, tad]
      · refine key [(0, 0), (n, B.length), (0, C.length), (0, D.length)] _ rfl ?_
        simp [h, hC, all, rest, emp, tad]
      · refine key [(0, 0), (0, 0), (n, C.length), (0, D.length)] _ rfl ?_
        simp [h, hC, all, rest, emp, tad]
      · refine key [(0, 0), (0, 0), (0, 0), (n, D.length)] _ rfl ?_
        simp [h, hC, all, rest, emp, tad]

/-! ### The state carries what has been shown, and what has been shown can be attributed -/

theorem stepsOf_same {tags : List Nat} {is : List Instr} (hl : tags.length = is.length) (k : Nat) (i : Instr) :
    stepsOf (tags ++ [k]) (is ++ [i]) k = stepsOf tags is k ++ [i.op] := by
  unfold stepsOf
  rw [List.zip_append hl]
  simp

theorem stepsOf_other {tags : List Nat} {is : List Instr} (hl : tags.length = is.length) {k j : Nat} (h : j ≠ k) (i : Instr) :
    stepsOf (tags ++ [j]) (is ++ [i]) k = stepsOf tags is k := by
  unfold stepsOf
  rw [List.zip_append hl]
  simp [h]

structure Amb (e : Bool) (P is : List Instr) (w : List (Nat × Instr)) (tags : List Nat) : Prop where
  length : tags.length = is.length
  index : ∀ k ∈ tags, k < P.length
  nodup : (w.map (fun x => x.1)).Nodup
  bound : ∀ y ∈ w, y.1 < P.length
  going : ∀ k y, P[k]? = some y → ∀ i, (k, i) ∈ w → Going e y.op (stepsOf tags is k) i.op
  done : ∀ k y, P[k]? = some y → k ∉ w.map (fun x => x.1) → Done e y.op (stepsOf tags is k)
  order : tags.Pairwise fun a b => b < a → Apart P b a
  late : ∀ t ∈ tags, ∀ y ∈ w, y.1 < t → Apart P y.1 t

/-- Attempts lead where they should. -/
def Leads {σ : Type} (env : Env σ) (e : Bool) : Prop := ∀ s i r, env.apply s i = .ok r → ∀ x l, Going e x l i.op → Next e x l r

section
variable {σ : Type} {env : Env σ} {e : Bool} {P : List Instr}

theorem amb_start (hP : ∀ i ∈ P, Slices.Spec.Plain i) : Amb e P [] (indexed P) [] where
  length := rfl
  index := by simp
  nodup := by rw [indexed_fst]; exact List.nodup_range
  bound y hy := by
    have := mem_indexed.1 hy
    exact (List.getElem?_eq_some_iff.1 this).1
  going k y hy i hi := by
    have h1 := mem_indexed.1 hi
    rw [hy] at h1
    cases h1
    exact .fresh (show Slices.Spec.Plain i from hP _ (List.mem_of_getElem? hy))
  done k y hy hn := by
    rw [indexed_fst] at hn
    exact absurd (List.mem_range.2 (List.getElem?_eq_some_iff.1 hy).1) hn
  order := .nil
  late := by simp

theorem amb_apply (hL : Leads env e) (ho : OneFollowup env) {s : σ} {is : List Instr} {o : Nat} {i : Instr} {w : List (Nat × Instr)} {tags : List Nat} {r : Res σ}
    (h : Amb e P is ((o, i) :: w) tags) (ha : ∀ x ∈ w, x.1 < o → Apart P x.1 o) (hr : env.apply s i = .ok r) :
    ∃ tags', Amb e P (if r.err then is else is ++ [r.instr]) ((left r).map (fun j => (o, j)) ++ w) tags' := by
  have hnd := h.nodup
  rw [List.map_cons, List.nodup_cons] at hnd
  have hb := h.bound _ List.mem_cons_self
  have hone : (left r).length ≤ 1 := by
    unfold left
    split
    · simp
    · exact ho _ _ _ hr
  have hmem : ∀ k j, (k, j) ∈ (left r).map (fun j => (o, j)) ++ w ↔ (k = o ∧ j ∈ left r) ∨ (k, j) ∈ w := by
    intro k j
    simp only [List.mem_append, List.mem_map, Prod.mk.injEq]
    constructor
    · rintro (⟨a, h1, rfl, rfl⟩ | h1)
      · exact .inl ⟨rfl, h1⟩
      · exact .inr h1
    · rintro (⟨rfl, h1⟩ | h1)
      · exact .inl ⟨j, h1, rfl, rfl⟩
      · exact .inr h1
  have hnodup : (((left r).map (fun j => (o, j)) ++ w).map (fun x => x.1)).Nodup := by
    match hl : left r, hone with
    | [], _ => simpa using hnd.2
    | [a], _ => simpa using hnd
  have hbound : ∀ y ∈ (left r).map (fun j => (o, j)) ++ w, y.1 < P.length := by
    rintro ⟨k, j⟩ hy
    rcases (hmem k j).1 hy with ⟨rfl, -⟩ | hy
    · exact hb
    · exact h.bound _ (List.mem_cons_of_mem _ hy)
  have how : ∀ j, (o, j) ∉ w := fun j hj => hnd.1 (List.mem_map.2 ⟨_, hj, rfl⟩)
  obtain ⟨y0, hy0⟩ : ∃ y, P[o]? = some y := ⟨_, List.getElem?_eq_getElem hb⟩
  have hnext := hL _ _ _ hr _ _ (h.going o y0 hy0 i List.mem_cons_self)
  have hne : ∀ k j, (k, j) ∈ w → k ≠ o := fun k j hj hk => how j (hk ▸ hj)
  have hnot : ∀ k, k ≠ o → k ∉ ((left r).map (fun j => (o, j)) ++ w).map (fun x => x.1) → k ∉ ((o, i) :: w).map (fun x => x.1) := by
    intro k hk hn hc
    rw [List.map_cons, List.mem_cons] at hc
    rcases hc with hc | hc
    · exact hk hc
    · rw [List.map_append, List.mem_append] at hn
      exact hn (.inr hc)
  cases he : r.err with
  | true =>
    have hl : left r = [r.instr] := by simp [left, he]
    refine ⟨tags, h.length, h.index, hnodup, hbound, ?_, ?_, h.order, ?_⟩
    · intro k y hy j hj
      rcases (hmem k j).1 hj with ⟨rfl, hj1⟩ | hj1
      · rw [hl, List.mem_singleton] at hj1
        rw [hy0] at hy
        cases hy
        rw [hj1]
        exact hnext.1 he
      · exact h.going k y hy j (List.mem_cons_of_mem _ hj1)
    · intro k y hy hn
      by_cases hk : k = o
      · refine absurd ?_ hn
        rw [hl, hk]
        simp
      · exact h.done k y hy (hnot k hk hn)
    · rintro t ht ⟨k, j⟩ hj hlt
      rcases (hmem k j).1 hj with ⟨rfl, hj1⟩ | hj1
      · exact h.late t ht (_, i) List.mem_cons_self hlt
      · exact h.late t ht _ (List.mem_cons_of_mem _ hj1) hlt
  | false =>
    have hl : left r = r.followups := by simp [left, he]
    obtain ⟨hfin, hgo⟩ := hnext.2 he
    simp only [Bool.false_eq_true, if_false]
    refine ⟨tags ++ [o], by simp [h.length], ?_, hnodup, hbound, ?_, ?_, ?_, ?_⟩
    · intro k hk
      rcases List.mem_append.1 hk with hk | hk
      · exact h.index k hk
      · rw [List.mem_singleton.1 hk]; exact hb
    · intro k y hy j hj
      rcases (hmem k j).1 hj with ⟨rfl, hj1⟩ | hj1
      · rw [hl] at hj1
        rw [hy0] at hy
        cases hy
        rw [stepsOf_same h.length]
        exact hgo j hj1
      · rw [stepsOf_other h.length (hne k j hj1).symm]
        exact h.going k y hy j (List.mem_cons_of_mem _ hj1)
    · intro k y hy hn
      by_cases hk : k = o
      · subst hk
        rw [hy0] at hy
        cases hy
        rw [stepsOf_same h.length]
        refine hfin ?_
        rw [hl] at hn
        cases hf : r.followups with
        | nil => rfl
        | cons a b => rw [hf] at hn; simp at hn
      · rw [stepsOf_other h.length (Ne.symm hk)]
        exact h.done k y hy (hnot k hk hn)
    · rw [List.pairwise_append]
      refine ⟨h.order, List.pairwise_singleton _ _, ?_⟩
      intro a ha b hb hlt
      rw [List.mem_singleton.1 hb] at hlt ⊢
      exact h.late a ha _ List.mem_cons_self hlt
    · rintro t ht ⟨k, j⟩ hj hlt
      rcases List.mem_append.1 ht with ht1 | ht1
      · rcases (hmem k j).1 hj with ⟨rfl, hj1⟩ | hj1
        · exact h.late t ht1 (_, i) List.mem_cons_self hlt
        · exact h.late t ht1 _ (List.mem_cons_of_mem _ hj1) hlt
      · rw [List.mem_singleton.1 ht1] at hlt ⊢
        rcases (hmem k j).1 hj with ⟨rfl, hj1⟩ | hj1
        · exact absurd hlt (Nat.lt_irrefl _)
        · exact ha _ hj1 hlt

theorem amb_ambient (hL : Leads env e) (ho : OneFollowup env) : Ambient (ghost env) P (fun x w => ∃ tags, Amb e P x.2 w tags) where
  perm := by
    rintro s w w' ⟨tags, h⟩ hp
    have hm := hp.map (fun x : Nat × Instr => x.1)
    exact ⟨tags, h.length, h.index, hm.nodup_iff.1 h.nodup, fun y hy => h.bound y (hp.mem_iff.2 hy), fun k y hy i hi => h.going k y hy i (hp.mem_iff.2 hi),
      fun k y hy hn => h.done k y hy (fun hc => hn (hm.mem_iff.1 hc)), h.order, fun t ht y hy => h.late t ht y (hp.mem_iff.2 hy)⟩
  apply := by
    rintro s o i w r ⟨tags, h⟩ ha hr
    obtain ⟨r0, h1, rfl⟩ := ghost_apply hr
    exact amb_apply hL ho h ha h1
  waits := by
    rintro s o i w k ⟨tags, h⟩
    refine ⟨tags, h.length, h.index, h.nodup, ?_, ?_, h.done, h.order, ?_⟩
    · intro y hy
      rcases List.mem_cons.1 hy with rfl | hy
      · exact h.bound (o, i) List.mem_cons_self
      · exact h.bound y (List.mem_cons_of_mem _ hy)
    · intro j y hy i' hi'
      rcases List.mem_cons.1 hi' with e1 | hi'
      · cases e1
        exact h.going o y hy i List.mem_cons_self
      · exact h.going j y hy i' (List.mem_cons_of_mem _ hi')
    · intro t ht y hy
      rcases List.mem_cons.1 hy with rfl | hy
      · exact h.late t ht (o, i) List.mem_cons_self
      · exact h.late t ht y (List.mem_cons_of_mem _ hy)
  advance := by
    rintro s s' w ⟨tags, h⟩ hs
    unfold ghost at hs
    obtain ⟨t, -, hs⟩ := Outcome.bind_eq_ok.1 hs
    cases hs
    exact ⟨tags, h⟩
  reset := by
    rintro s s' w ⟨tags, h⟩ hs
    unfold ghost at hs
    obtain ⟨t, -, hs⟩ := Outcome.bind_eq_ok.1 hs
    cases hs
    exact ⟨tags, h⟩

theorem amb_carried {is : List Instr} {w : List (Nat × Instr)} {tags : List Nat} {whole : Prop} (h : Amb e P is w tags) (hw : whole → w = []) : Carried e P is whole tags where
  length := h.length
  index := h.index
  steps k x hx := by
    by_cases hk : k ∈ w.map (fun x => x.1)
    · obtain ⟨⟨k', i⟩, hi, rfl⟩ := List.mem_map.1 hk
      have hn : ¬ whole := fun hc => by rw [hw hc] at hi; cases hi
      rcases going_begun (h.going _ x hx i hi) with h1 | ⟨more, h1⟩
      · exact .inl ⟨h1, hn⟩
      · exact .inr ⟨more, h1, fun hc => absurd hc hn⟩
    · exact .inr ⟨[], by simpa using h.done k x hx hk, fun _ => rfl⟩
  order := h.order

end

/-! ### The end of a run -/

section
variable {σ : Type} {env : Env σ} {P : List Instr} {Φ : σ → List (Nat × Instr) → Prop}

theorem sstep_last (hA : Ambient env P Φ) (ho : OneFollowup env) (hf : FailsAlone env) {st st' : SSt σ} {c : Ctl} (h : sstep env st = .ok (c, st'))
    (hi : SAmb P Φ st) (hlt : ∀ it ∈ st.future, it.tag < st.read) (hseen : ∀ s, Ev.slice s ∈ st.events → ∃ w, Φ s w) (hc : c ≠ .go) : ∃ w, Φ st'.slice w ∧ (c = .finished → w = []) := by
  have hsee := (sstep_amb hA ho hf h hi hlt hseen).2
  unfold sstep at h
  split at h
  · rename_i ht
    cases h
    refine ⟨_, hi.amb, fun _ => ?_⟩
    unfold takeNext at ht
    split at ht
    · cases ht
    · rename_i hfut
      split at ht
      · cases ht
      · rename_i hst
        have h1 := hi.stream
        rw [hst] at h1
        unfold sleft
        rw [hfut, List.map_nil, List.nil_append, List.drop_eq_nil_iff]
        have h2 := List.drop_eq_nil_iff.1 h1.symm
        simpa [indexed] using h2
  · obtain ⟨r, hr, h⟩ := Outcome.bind_eq_ok.1 h
    unfold react at h
    dsimp only at h
    split at h
    · obtain ⟨s, -, h⟩ := Outcome.bind_eq_ok.1 h
      cases h
      exact absurd rfl hc
    · split at h
      · split at h
        · cases h
          obtain ⟨w, hw⟩ := hsee r.slice (by simp)
          exact ⟨w, hw, fun h => (nomatch h)⟩
        · obtain ⟨s, -, h⟩ := Outcome.bind_eq_ok.1 h
          cases h
          exact absurd rfl hc
      · cases h
        exact absurd rfl hc

theorem srun_last (hA : Ambient env P Φ) (ho : OneFollowup env) (hf : FailsAlone env) (n : Nat) : ∀ {st st' : SSt σ} {c : Ctl}, srun env n st = .ok (c, st') →
    SAmb P Φ st → (∀ it ∈ st.future, it.tag < st.read) → (∀ s, Ev.slice s ∈ st.events → ∃ w, Φ s w) → ∃ w, Φ st'.slice w ∧ (c = .finished → w = []) := by
  induction n with
  | zero =>
    intro st st' c h hi _ _
    cases h
    exact ⟨_, hi.amb, fun h => (nomatch h)⟩
  | succ n ih =>
    intro st st' c h hi hlt hs
    rw [srun] at h
    obtain ⟨⟨c1, s1⟩, h1, h⟩ := Outcome.bind_eq_ok.1 h
    obtain ⟨h2, h3⟩ := sstep_amb hA ho hf h1 hi hlt hs
    dsimp only at h
    split at h
    · rename_i e
      exact ih h (h2 e).1 (h2 e).2 h3
    · rename_i e
      cases h
      exact sstep_last hA ho hf h1 hi hlt hs e

theorem drun_last (n : Nat) : ∀ {st st' : DSt σ} {b : Bool}, drun env n st = .ok (b, st') → b = true → st'.run.dag.graph.nodes = [] := by
  induction n with
  | zero =>
    intro st st' b e hb
    cases e
    simpa using hb
  | succ n ih =>
    intro st st' b e hb
    rw [drun] at e
    split at e
    · rename_i h1
      cases e
      simpa using h1
    · obtain ⟨s1, h1, e⟩ := Outcome.bind_eq_ok.1 e
      exact ih e hb

theorem wrun_last (hA : Ambient env P Φ) {stage : Operation → Stage} {N : Nat} {D : Nat → List Nat} (hC : Chained P N D) (hD : Static N D) (hP : Protocol env stage) {depth : Nat} (n : Nat) :
    ∀ {w w' : WSt σ} {b : Bool}, Between Φ stage N D w.st → wrun env depth n w = .ok (b, w') → Between Φ stage N D w'.st ∧ b = Wave.done w'.st := by
  induction n with
  | zero => intro w w' b h e; cases e; exact ⟨h, rfl⟩
  | succ n ih =>
    intro w w' b hb e
    rw [wrun] at e
    split at e
    · rename_i h1
      cases e; exact ⟨hb, h1.symm⟩
    · obtain ⟨s1, h1, e⟩ := Outcome.bind_eq_ok.1 e
      obtain ⟨sl, h2, e⟩ := Outcome.bind_eq_ok.1 e
      obtain ⟨⟨L, hi⟩, hd, hn⟩ := scheduleWave_between hA hC hD hP h1 hb
      exact ih ⟨⟨L, hi.toInv.queues sl s1.cur s1.nxt, hA.advance hi.amb h2⟩, hd, hn⟩ e

theorem between_done {stage : Operation → Stage} {N : Nat} {D : Nat → List Nat} (hD : Static N D) {st : St σ} (h : Between Φ stage N D st) (hd : Wave.done st = true) : Φ st.slice [] := by
  obtain ⟨L, hi⟩ := h.inv
  unfold Wave.done at hd
  rw [Bool.and_eq_true, List.isEmpty_iff, List.isEmpty_iff] at hd
  rw [hd.1, hd.2] at hi
  have hnone : ∀ i, i ∉ L := by
    intro i
    induction i using Nat.strongRecOn with
    | ind i ih =>
      intro hL
      have hN := hi.fresh i hL (by simp)
      have hc := (hi.wait i hN).2 ⟨hL, by simp⟩
      rw [hi.cnt i hN] at hc
      simp only [List.count_nil, Nat.add_zero] at hc
      rw [need_zero] at hc
      · omega
      · intro d hdL hm
        have hdN := hi.fresh d hdL (by simp)
        rw [hi.originSrc d hdN] at hm
        exact ih d (hD d hdN i hm).1 hdL
  have hL : L = [] := List.eq_nil_iff_forall_not_mem.2 hnone
  have := hi.amb
  rw [hL] at this
  exact this

end

theorem ghost_protocol {σ : Type} {env : Env σ} {stage : Operation → Stage} (h : Protocol env stage) : Protocol (ghost env) stage where
  one s i r hr := by obtain ⟨r0, h1, rfl⟩ := ghost_apply hr; exact h.one _ _ _ h1
  defer s i r hr := by obtain ⟨r0, h1, rfl⟩ := ghost_apply hr; exact h.defer _ _ _ h1
  plain s i r hr := by obtain ⟨r0, h1, rfl⟩ := ghost_apply hr; exact h.plain _ _ _ h1
  follow s i r hr := by obtain ⟨r0, h1, rfl⟩ := ghost_apply hr; exact h.follow _ _ _ h1
  routed s i r hr := by obtain ⟨r0, h1, rfl⟩ := ghost_apply hr; exact h.routed _ _ _ h1
  compiled s i r hr := by obtain ⟨r0, h1, rfl⟩ := ghost_apply hr; exact h.compiled _ _ _ h1

/-! ### Whole runs -/

section
variable {σ : Type} {env : Env σ} {e : Bool} {P : List Instr} {s : σ}

theorem srun_carried (hL : Leads env e) (ho : OneFollowup env) (hf : FailsAlone env) (hP : ∀ i ∈ P, Slices.Spec.Plain i) {n : Nat} {c : Ctl} {st : SSt σ}
    (h : srun env n (sstart s P) = .ok (c, st)) : ∃ tags, Carried e P (instrs (st.events.filterMap Ev.obs)) (c = .finished) tags := by
  rw [show sstart s P = mapS Prod.fst (sstart (s, ([] : List Instr)) P) from rfl, srun_over (ghost_over env)] at h
  obtain ⟨⟨c', st'⟩, h1, h2⟩ := omap_eq_ok h
  cases h2
  obtain ⟨w, ⟨tags, hw⟩, hfin⟩ := srun_last (amb_ambient hL ho) (ghost_one ho) (ghost_alone hf) n h1 (sstart_amb (Φ := fun (x : σ × List Instr) w => ∃ tags, Amb e P x.2 w tags) ⟨[], amb_start hP⟩)
    (by simp [sstart]) (by simp [sstart])
  refine ⟨tags, ?_⟩
  have e1 : instrs ((mapS Prod.fst st').events.filterMap Ev.obs) = st'.slice.2 := by
    have e2 : (mapS Prod.fst st').events.filterMap Ev.obs = (st'.events.filterMap Ev.obs).map (mapObs Prod.fst) := by
      unfold mapS
      dsimp only
      rw [List.filterMap_map, List.map_filterMap]
      congr 1
      funext x
      cases x <;> rfl
    rw [e2, instrs_obs]
    obtain ⟨p1, p2⟩ := c57_streamed _ _ _ _ _ h1
    by_cases hc : c' = .go
    · exact (play_carries (p1 hc)).2.symm
    · obtain ⟨L, e3, hp⟩ := p2 hc
      rw [e3, (play_carries hp).2]
      simp [instrs]
  rw [e1]
  exact amb_carried hw hfin

theorem drun_carried (hL : Leads env e) (ho : OneFollowup env) (hP : ∀ i ∈ P, Slices.Spec.Plain i) {n : Nat} {b : Bool} {st0 st : DSt σ}
    (h0 : dstart s P = .ok st0) (h : drun env n st0 = .ok (b, st)) : ∃ tags, Carried e P (instrs st.obs) (b = true) tags := by
  rw [dstart_over (f := Prod.fst) (s, ([] : List Instr)) P] at h0
  obtain ⟨st0', h1, rfl⟩ := omap_eq_ok h0
  rw [drun_over (ghost_over env)] at h
  obtain ⟨⟨b', st'⟩, h2, h3⟩ := omap_eq_ok h
  cases h3
  have hA := amb_ambient (P := P) hL ho
  obtain ⟨tags, hw⟩ := (drun_amb hA (ghost_one ho) n (dstart_amb (Φ := fun (x : σ × List Instr) w => ∃ tags, Amb e P x.2 w tags) ⟨[], amb_start hP⟩ hA.perm h1) h2).amb
  refine ⟨tags, ?_⟩
  have e1 : instrs (mapD Prod.fst st').obs = st'.slice.2 := by
    unfold mapD
    rw [instrs_obs]
    exact (play_carries (c57_dag _ _ _ _ _ _ h1 h2).1).2.symm
  rw [e1]
  exact amb_carried hw (fun hb => by rw [drun_last n h2 hb]; rfl)

theorem wrun_carried {stage : Operation → Stage} (hL : Leads env e) (hp : Protocol env stage) (hf : Fits P) (hs : ∀ i ∈ P, stage i.op = .plain) (hP : ∀ i ∈ P, Slices.Spec.Plain i)
    {depth n : Nat} {b : Bool} {w : WSt σ} (h : wrun env depth n ⟨start s P, 1, [], []⟩ = .ok (b, w)) : ∃ tags, Carried e P (instrs w.obs) (b = true) tags := by
  have e1 : (⟨start s P, 1, [], []⟩ : WSt σ) = mapWSt Prod.fst ⟨start (s, ([] : List Instr)) P, 1, [], []⟩ := by
    unfold mapWSt
    rw [start_over (f := Prod.fst) (s, ([] : List Instr)) P]
    rfl
  rw [e1, wrun_over (ghost_over env)] at h
  obtain ⟨⟨b', w'⟩, h2, h3⟩ := omap_eq_ok h
  cases h3
  have hC := start_chained ((s, []) : σ × List Instr) P hf
  have hD := start_static ((s, []) : σ × List Instr) P hf
  obtain ⟨g1, g2⟩ := wrun_last (amb_ambient (P := P) hL hp.one) hC hD (ghost_protocol hp) n
    (start_between ((s, []) : σ × List Instr) P hf hs (Φ := fun (x : σ × List Instr) w => ∃ tags, Amb e P x.2 w tags) ⟨[], amb_start hP⟩) h2
  have e1 : instrs (mapWSt Prod.fst w').obs = w'.st.slice.2 := by
    unfold mapWSt
    rw [instrs_obs]
    exact (play_carries (c57_wave _ _ _ _ _ _ h2).1).2.symm
  rw [e1]
  by_cases hb : b' = true
  · obtain ⟨tags, hw⟩ := between_done hD g1 (g2 ▸ hb)
    exact ⟨tags, amb_carried hw (fun _ => rfl)⟩
  · obtain ⟨L, hi⟩ := g1.inv
    obtain ⟨tags, hw⟩ := hi.amb
    exact ⟨tags, amb_carried hw (fun h => absurd h hb)⟩

end

end Verif.Course
