import Verif.EdpcRun

/-!
# Edge-disjoint routes and where they cross
-/

namespace Verif.Edpc

open Verif Apply Router.Spec DSlice

/-- The route goes from `u` to the next cell `v`. -/
def Step (l : List Cell) (u v : Cell) : Prop := ∃ p q, l = p ++ u :: v :: q

/-- The route uses the side `d` of `c`. -/
def On (l : List Cell) (c : Cell) (d : CellDirection) : Prop := ∃ n, Faces c n d ∧ (Step l c n ∨ Step l n c)

/-- No two of the cells share a side. -/
def Apart (l : List Cell) : Prop := ∀ c ∈ l, ∀ n ∈ l, ¬ Touching c n

theorem step_mem {l : List Cell} {u v : Cell} (h : Step l u v) : u ∈ l ∧ v ∈ l := by
  obtain ⟨p, q, rfl⟩ := h
  simp

theorem on_mem {l : List Cell} {c : Cell} {d : CellDirection} (h : On l c d) : c ∈ l := by
  obtain ⟨n, -, h | h⟩ := h
  · exact (step_mem h).1
  · exact (step_mem h).2

theorem step_nil {u v : Cell} : ¬ Step [] u v := by
  rintro ⟨p, q, h⟩
  simp at h

theorem step_one {x u v : Cell} : ¬ Step [x] u v := by
  rintro ⟨p, q, h⟩
  have := congrArg List.length h
  simp at this
  omega

theorem step_snoc {pre : List Cell} {z w u v : Cell} (h : Step (pre ++ [z, w]) u v) : Step (pre ++ [z]) u v ∨ (u = z ∧ v = w) := by
  obtain ⟨p, q, h⟩ := h
  rcases List.eq_nil_or_concat q with rfl | ⟨q', y, rfl⟩
  · right
    have e1 : (pre ++ [z]) ++ [w] = (p ++ [u]) ++ [v] := by simpa using h
    have e2 := List.append_inj' e1 rfl
    have e3 := List.append_inj' e2.1 rfl
    exact ⟨(by simpa using e3.2.symm), (by simpa using e2.2.symm)⟩
  · left
    have e1 : (pre ++ [z]) ++ [w] = (p ++ u :: v :: q') ++ [y] := by simpa [List.concat_eq_append] using h
    exact ⟨p, q', (List.append_inj' e1 rfl).1⟩

theorem step_more {l m : List Cell} {u v : Cell} (h : Step l u v) : Step (l ++ m) u v := by
  obtain ⟨p, q, rfl⟩ := h
  exact ⟨p, q ++ m, by simp⟩

/-- The sides used once the route is a cell longer. -/
theorem on_snoc {pre : List Cell} {z w c : Cell} {d : CellDirection} (h : On (pre ++ [z, w]) c d) :
    On (pre ++ [z]) c d ∨ (c = z ∧ Faces z w d) ∨ (c = w ∧ Faces w z d) := by
  obtain ⟨n, hf, h | h⟩ := h
  · rcases step_snoc h with h | ⟨rfl, rfl⟩
    · exact .inl ⟨n, hf, .inl h⟩
    · exact .inr (.inl ⟨rfl, hf⟩)
  · rcases step_snoc h with h | ⟨rfl, rfl⟩
    · exact .inl ⟨n, hf, .inr h⟩
    · exact .inr (.inr ⟨rfl, hf⟩)

theorem count_one {α : Type} (P : α → Bool) : ∀ {l : List α}, l.countP P ≤ 1 → l.Pairwise fun a b => ¬ (P a = true ∧ P b = true)
  | [], _ => .nil
  | a :: l, h => by
    refine .cons (fun b hb hab => ?_) (count_one P ?_)
    · rw [List.countP_cons_of_pos hab.1] at h
      have := List.countP_pos_iff.2 ⟨b, hb, hab.2⟩
      omega
    · rw [List.countP_cons] at h
      omega

/-! ### A crossing with no crossing next to it -/

theorem flip_pair {a b : BoundaryType} (ha : reservedType a = true) (hb : reservedType b = true) (h : a ≠ b) : a.flip = b := by
  cases a <;> cases b <;> simp_all [reservedType, BoundaryType.flip]

theorem spread_none {L : Layout} {n : Cell} {d : CellDirection} {st st' : Crossing} (hn : n ∉ st.slice.crossing) (h : spread L n d st = .ok st') : st' = st := by
  unfold spread at h
  rw [if_neg hn] at h
  cases h; rfl

theorem crossReserved_apart {L : Layout} {c prev n : Cell} {d : CellDirection} {p : DensePatch} {st st' : Crossing}
    (hn : Faces c n d) (hnc : n ∉ st.slice.crossing) (hp : st.slice.cells c = some p) (hr : rsv st.slice c d) (hfst : ∀ f, st.first = some f → rsv st.slice c f)
    (h : crossReserved L c prev n false d p st = .ok st') :
    n ≠ prev ∧ st'.slice.crossing = st.slice.crossing ∧ (∃ f, st'.first = some f ∧ rsv st'.slice c f ∧ ty st'.slice c d = ty st'.slice c f) ∧
      (∀ f, st.first = some f → st'.first = some f ∧ ty st'.slice c f = ty st.slice c f) ∧ (∀ e, e ≠ d → side st'.slice c e = side st.slice c e) ∧
      (∀ x e, x ≠ c → ¬ Faces x c e → side st'.slice x e = side st.slice x e) := by
  unfold crossReserved at h
  simp only [Bool.false_eq_true, if_false] at h
  split at h
  · cases h
  · rename_i hne
    refine ⟨hne, ?_⟩
    have hw : ∀ {s : DSlice} {g : Boundary → Boundary}, conjugate (st.slice.setSide c d flipTy) n c g = .ok s →
        s.crossing = st.slice.crossing ∧ ty s c d = (ty st.slice c d).flip ∧ (∀ e, e ≠ d → side s c e = side st.slice c e) ∧
          (∀ x e, x ≠ c → ¬ Faces x c e → side s x e = side st.slice x e) := by
      intro s g hg
      obtain ⟨-, a2, -, -, a5⟩ := edge_write hn hg
      refine ⟨a2, ?_, fun e he => ?_, fun x e hx hf => ?_⟩
      · unfold ty
        rw [a5, if_pos ⟨rfl, rfl⟩, side_some hp]
        rfl
      · rw [a5, if_neg (fun g => he g.2), if_neg (fun g => faces_ne hn g.1)]
      · rw [a5, if_neg (fun g => hx g.1), if_neg]
        rintro ⟨rfl, rfl⟩
        exact hf (faces_back hn)
    split at h
    · rename_i hnone
      split at h
      · cases h
      · split at h
        · obtain ⟨s, h1, h⟩ := Outcome.bind_eq_ok.1 h
          obtain ⟨w1, w2, w3, w4⟩ := hw h1
          rw [spread_none (by rw [w1]; exact hnc) h]
          refine ⟨w1, ⟨d, rfl, ?_, rfl⟩, fun f hf => (by rw [hnone] at hf; cases hf), w3, w4⟩
          show rsv s c d
          unfold rsv at hr ⊢
          rw [w2, flip_reserved]; exact hr
        · cases h
          exact ⟨rfl, ⟨d, rfl, hr, rfl⟩, fun f hf => (by rw [hnone] at hf; cases hf), fun _ _ => rfl, fun _ _ _ _ => rfl⟩
    · rename_i f hsome
      have hrf := hfst f hsome
      split at h
      · rename_i hdf
        obtain ⟨s, h1, h⟩ := Outcome.bind_eq_ok.1 h
        obtain ⟨w1, w2, w3, w4⟩ := hw h1
        rw [spread_none (by rw [w1]; exact hnc) h]
        rw [← ty_some hp, ← ty_some hp] at hdf
        have hfd : f ≠ d := fun e => hdf (by rw [e])
        have hk : ty s c f = ty st.slice c f := by unfold ty; rw [w3 f hfd]
        refine ⟨w1, ⟨f, hsome, ?_, ?_⟩, fun f' hf' => ?_, w3, w4⟩
        · show rsv s c f
          unfold rsv at hrf ⊢; rw [hk]; exact hrf
        · show ty s c d = ty s c f
          rw [w2, hk]
          exact flip_pair hr hrf hdf
        · rw [hsome] at hf'; cases hf'
          exact ⟨hsome, hk⟩
      · rename_i hdf
        cases h
        refine ⟨rfl, ⟨f, hsome, hrf, ?_⟩, fun f' hf' => ⟨hf', rfl⟩, fun _ _ => rfl, fun _ _ _ _ => rfl⟩
        rw [ty_some hp, ty_some hp]
        exact Decidable.not_not.1 hdf

theorem crossSides_apart {L : Layout} {c prev : Cell} : ∀ {ds : List CellDirection} {st st' : Crossing},
    ds.Nodup → (∀ n d, Faces c n d → n ∉ st.slice.crossing) → (∀ f, st.first = some f → rsv st.slice c f) → crossSides L c prev false ds st = .ok st' →
    (∀ f, st.first = some f → st'.first = some f ∧ ty st'.slice c f = ty st.slice c f) ∧
      (∀ d ∈ ds, rsv st.slice c d → ¬ Faces c prev d ∧ ∃ f, st'.first = some f ∧ ty st'.slice c d = ty st'.slice c f) ∧ (∀ e, e ∉ ds → side st'.slice c e = side st.slice c e) ∧
      (∀ x e, x ≠ c → ¬ Faces x c e → side st'.slice x e = side st.slice x e)
  | [], st, st', _, _, _, h => by
    cases h
    exact ⟨fun f hf => ⟨hf, rfl⟩, fun d hd => (by cases hd), fun _ _ => rfl, fun _ _ _ _ => rfl⟩
  | d :: ds, st, st', hnd, hap, hfst, h => by
    obtain ⟨hd0, hnd⟩ := List.nodup_cons.1 hnd
    rw [crossSides] at h
    split at h
    · rename_i n p hd hp
      have hfn := directional_faces hd
      simp only at h
      split at h
      · rename_i hr
        have hr' : rsv st.slice c d := by unfold rsv; rw [ty_some hp]; exact hr
        obtain ⟨st1, h1, h⟩ := Outcome.bind_eq_ok.1 h
        obtain ⟨a0, a1, ⟨f, a2, a3, a4⟩, a5, a6, a7⟩ := crossReserved_apart hfn (hap n d hfn) hp hr' hfst h1
        obtain ⟨b1, b2, b3, b4⟩ := crossSides_apart hnd (fun n d hf => by rw [a1]; exact hap n d hf) (fun f' hf' => by rw [a2] at hf'; cases hf'; exact a3) h
        refine ⟨fun f' hf' => ?_, fun d' hd' hr1 => ?_, fun e he => ?_, fun x e hx hf => (b4 x e hx hf).trans (a7 x e hx hf)⟩
        · have k := a5 f' hf'
          exact ⟨(b1 f' k.1).1, ((b1 f' k.1).2).trans k.2⟩
        · rcases List.mem_cons.1 hd' with rfl | hd'
          · refine ⟨fun g => a0 (faces_unique hfn g), f, (b1 f a2).1, ?_⟩
            rw [(b1 f a2).2, ← a4]
            unfold ty; rw [b3 d' hd0]
          · have hne : d' ≠ d := fun e => hd0 (e ▸ hd')
            exact b2 d' hd' (by unfold rsv ty at hr1 ⊢; rw [a6 d' hne]; exact hr1)
        · simp only [List.mem_cons, not_or] at he
          rw [b3 e he.2, a6 e he.1]
      · rename_i hr
        have hr' : ¬ rsv st.slice c d := by unfold rsv; rw [ty_some hp]; exact hr
        split at h
        · cases h
        · obtain ⟨b1, b2, b3, b4⟩ := crossSides_apart hnd hap hfst h
          refine ⟨b1, fun d' hd' hr1 => ?_, fun e he => b3 e (fun g => he (List.mem_cons_of_mem _ g)), b4⟩
          rcases List.mem_cons.1 hd' with rfl | hd'
          · exact absurd hr1 hr'
          · exact b2 d' hd' hr1
    · cases h

/-- Crossing a marked cell away from other crossings: the route already there gets the other label. -/
theorem markCrossing_apart {L : Layout} {asserts : Bool} {s s' : DSlice} {c prev : Cell} {dp : CellDirection} {label : BoundaryType} (hp : Faces c prev dp)
    (hcl : ∀ x ∈ s.crossing, Closed s x) (hm : c ∈ s.crossing)
    (hap : ∀ n d, Faces c n d → n ∉ s.crossing) (h : markCrossing L asserts s c prev = .ok (s', label)) :
    ¬ rsv s c dp ∧ (∀ e, rsv s c e → ty s' c e = label.flip) ∧ ∀ x e, x ≠ c → ¬ Faces x c e → side s' x e = side s x e := by
  unfold markCrossing at h
  simp only at h
  have hpc : decide (prev ∈ s.crossing) = false := by simpa using hap prev dp hp
  rw [hpc] at h
  obtain ⟨pb, h0, h⟩ := Outcome.bind_eq_ok.1 h
  cases pb with
  | none => cases h
  | some pb =>
    simp only at h
    split at h
    · cases h
    · obtain ⟨st, h1, h⟩ := Outcome.bind_eq_ok.1 h
      obtain ⟨u, h2, h⟩ := Outcome.bind_eq_ok.1 h
      obtain ⟨e1, -, e3, e4⟩ := crossSides_ev (st := { slice := s, crossings := _ }) hcl hm h1
      obtain ⟨-, b2, -, b4⟩ := crossSides_apart (st := { slice := s, crossings := _ }) (by decide) hap (fun f hf => by cases hf) h1
      simp only [reduceCtorEq, false_or] at e1 e3 e4 b2 b4
      split at h
      · rename_i f p hf hpc
        obtain ⟨s2, h3, h⟩ := Outcome.bind_eq_ok.1 h
        cases h
        have hex : reservedType (p.bounds.get f).ty = true := by
          have := (e1.rsv_iff c f).2 (e3 f hf)
          unfold rsv at this; rw [ty_some hpc] at this; exact this
        have hlab' : (p.bounds.get f).ty.flip ≠ .none := by
          intro e
          rw [← flip_reserved, e] at hex; cases hex
        obtain ⟨-, -, -, -, c5, c6⟩ := crossFill_sides hlab' (by decide) (fun d hd => (e4 d hd).imp fun n hn => hn.1) ⟨p, hpc⟩ h3
        refine ⟨fun hr => (b2 dp (mem_directions dp) hr).1 hp, fun e hr => ?_, fun x e hx hno => ?_⟩
        · obtain ⟨-, f', hf', hty⟩ := b2 e (mem_directions e) hr
          rw [hf] at hf'; cases hf'
          have hne : ty st.slice c e ≠ .none := by
            intro g
            have := (e1.rsv_iff c e).2 hr
            unfold rsv at this; rw [g] at this; cases this
          have : ty s' c e = ty st.slice c e := by
            unfold ty
            rw [c5, if_neg (fun g => hne g.2)]
          rw [this, hty, ty_some hpc]
          cases (p.bounds.get f).ty <;> rfl
        · rw [(c6 x e hx).2 (fun g => hno g.1)]
          exact b4 x e hx hno
      · cases h

/-! ### What holds while a route is marked -/

/-- How many routes the cell is on. -/
def through (Rs : List (List Cell)) (c : Cell) : Nat := Rs.countP fun l => decide (c ∈ l)

/-- What holds of the labels at the crossings while the first of the routes is marked up to some cell, with this label. -/
structure Uniform (s : DSlice) (R : List Cell) (Rs : List (List Cell)) (label : BoundaryType) : Prop where
  same : ∀ c ∈ s.crossing, ∀ l ∈ R :: Rs, ∀ d e, On l c d → On l c e → ty s c d = ty s c e
  other : (R :: Rs).Pairwise fun l k => ∀ c ∈ s.crossing, ∀ d e, On l c d → On k c e → ty s c d ≠ ty s c e
  tip : ∀ z, R.getLast? = some z → z ∈ s.crossing → (∀ d, On R z d → ty s z d = label) ∧ ∀ l ∈ Rs, ∀ d, On l z d → ty s z d ≠ label

/-- What holds while the first of the routes is marked. -/
structure Tracked (t : DSlice) (Rs : List (List Cell)) (R : List Cell) (label : BoundaryType) (s : DSlice) : Prop where
  steps : ∀ l ∈ R :: Rs, ∀ u v, Step l u v → ∀ d, Faces u v d → rsv s u d ∧ rsv s v d.flip
  count : ∀ c, t.cells c = none → through (R :: Rs) c ≤ 2 ∧ (s.cells c = none ↔ through (R :: Rs) c = 0) ∧ (c ∈ s.crossing ↔ through (R :: Rs) c = 2)
  uniform : Apart s.crossing → Uniform s R Rs label

theorem through_cons (l : List Cell) (Rs : List (List Cell)) (c : Cell) : through (l :: Rs) c = (if c ∈ l then 1 else 0) + through Rs c := by
  unfold through
  rw [List.countP_cons]
  split
  · rename_i h; rw [if_pos (by simpa using h)]; omega
  · rename_i h; rw [if_neg (by simpa using h)]; omega

theorem through_snoc {pre : List Cell} {z w : Cell} {Rs : List (List Cell)} {c : Cell} (h : c ≠ w) : through ((pre ++ [z, w]) :: Rs) c = through ((pre ++ [z]) :: Rs) c := by
  rw [through_cons, through_cons]
  simp [h]

theorem rsv_side {s s' : DSlice} {x : Cell} {e : CellDirection} (h : side s' x e = side s x e) : rsv s' x e ↔ rsv s x e := by
  unfold rsv ty; rw [h]

theorem tracked_ends {t s s' : DSlice} {Rs : List (List Cell)} {R : List Cell} {label : BoundaryType} (h : Tracked t Rs R label s) {c : Cell} {d : CellDirection} (hc : t.cells c ≠ none)
    (hl : reservedType label = true)
    (hs : ∀ x e, side s' x e = if x = c ∧ e = d then (side s x e).map (fun z => { z with ty := label }) else side s x e) (hn : ∀ x, s'.cells x = none ↔ s.cells x = none)
    (hcr : s'.crossing = s.crossing) (hin : ∀ c ∈ s.crossing, t.cells c = none) : Tracked t Rs R label s' := by
  have hk : ∀ x ∈ s.crossing, ∀ e, ty s' x e = ty s x e := by
    intro x hx e
    unfold ty
    have hxc : x ≠ c := fun g => hc (g ▸ hin x hx)
    rw [hs, if_neg (fun g => hxc g.1)]
  have hr : ∀ x e, rsv s x e → rsv s' x e := by
    intro x e hr
    by_cases hx : x = c ∧ e = d
    · obtain ⟨q, hq⟩ := rsv_patch hr
      unfold rsv ty
      rw [hs, if_pos hx, side_some hq]
      exact hl
    · exact (rsv_side (by rw [hs, if_neg hx])).2 hr
  refine ⟨fun l hl u v hst d hf => (h.steps l hl u v hst d hf).imp (hr _ _) (hr _ _), fun x hx => ?_, fun hap => ?_⟩
  · rw [hn, hcr]; exact h.count x hx
  · rw [hcr] at hap
    obtain ⟨u1, u2, u3⟩ := h.uniform hap
    refine ⟨fun x hx l hl d e a b => ?_, u2.imp fun {l k} g x hx d e a b => ?_, fun z hz hx => ?_⟩
    · rw [hcr] at hx; rw [hk x hx, hk x hx]; exact u1 x hx l hl d e a b
    · rw [hcr] at hx; rw [hk x hx, hk x hx]; exact g x hx d e a b
    · rw [hcr] at hx
      exact ⟨fun d a => by rw [hk z hx]; exact (u3 z hz hx).1 d a, fun l hl d a => by rw [hk z hx]; exact (u3 z hz hx).2 l hl d a⟩

/-- The route is a cell longer, and the cell was not crossed. -/
theorem tracked_more {t s s' : DSlice} {Rs : List (List Cell)} {pre : List Cell} {prev cur : Cell} {label : BoundaryType} (h : Tracked t Rs (pre ++ [prev]) label s)
    (hr : ∀ x e, rsv s x e → rsv s' x e) (hcr : s'.crossing = s.crossing) (hk : ∀ x ∈ s.crossing, ∀ e, ty s' x e = ty s x e)
    (hp : ∀ d, Faces prev cur d → ty s prev d = label ∧ rsv s' prev d ∧ rsv s' cur d.flip) (hc : cur ∉ s.crossing)
    (hcount : ∀ c, t.cells c = none → through ((pre ++ [prev, cur]) :: Rs) c ≤ 2 ∧ (s'.cells c = none ↔ through ((pre ++ [prev, cur]) :: Rs) c = 0) ∧
      (c ∈ s.crossing ↔ through ((pre ++ [prev, cur]) :: Rs) c = 2)) : Tracked t Rs (pre ++ [prev, cur]) label s' := by
  refine ⟨fun l hl u v hst d hf => ?_, fun c hc => by rw [hcr]; exact hcount c hc, fun hap => ?_⟩
  · rcases List.mem_cons.1 hl with rfl | hl
    · rcases step_snoc hst with hst | ⟨rfl, rfl⟩
      · exact (h.steps _ (List.mem_cons_self ..) u v hst d hf).imp (hr _ _) (hr _ _)
      · exact (hp d hf).2
    · exact (h.steps l (List.mem_cons_of_mem _ hl) u v hst d hf).imp (hr _ _) (hr _ _)
  · rw [hcr] at hap
    obtain ⟨u1, u2, u3⟩ := h.uniform hap
    have hon : ∀ x ∈ s.crossing, ∀ d, On (pre ++ [prev, cur]) x d → On (pre ++ [prev]) x d ∨ (x = prev ∧ ty s x d = label) := by
      intro x hx d ho
      rcases on_snoc ho with g | ⟨rfl, g⟩ | ⟨rfl, g⟩
      · exact .inl g
      · exact .inr ⟨rfl, (hp d g).1⟩
      · exact absurd hx hc
    have hlast : (pre ++ [prev]).getLast? = some prev := by simp
    refine ⟨fun x hx l hl d e a b => ?_, ?_, fun z hz hx => ?_⟩
    · rw [hcr] at hx
      rw [hk x hx, hk x hx]
      rcases List.mem_cons.1 hl with rfl | hl
      · rcases hon x hx d a with a' | ⟨hxp, a'⟩ <;> rcases hon x hx e b with b' | ⟨hxp', b'⟩
        · exact u1 x hx _ (List.mem_cons_self ..) d e a' b'
        · rw [b']; exact (u3 x (hxp' ▸ hlast) hx).1 d a'
        · rw [a']; exact ((u3 x (hxp ▸ hlast) hx).1 e b').symm
        · rw [a', b']
      · exact u1 x hx l (List.mem_cons_of_mem _ hl) d e a b
    · obtain ⟨v1, v2⟩ := List.pairwise_cons.1 u2
      refine .cons (fun k hk' x hx d e a b => ?_) (v2.imp fun {l k} g x hx d e a b => ?_)
      · rw [hcr] at hx
        rw [hk x hx, hk x hx]
        rcases hon x hx d a with a' | ⟨hxp, a'⟩
        · exact v1 k hk' x hx d e a' b
        · rw [a']; exact ((u3 x (hxp ▸ hlast) hx).2 k hk' e b).symm
      · rw [hcr] at hx
        rw [hk x hx, hk x hx]
        exact g x hx d e a b
    · have : z = cur := by simpa using hz.symm
      subst this
      rw [hcr] at hx
      exact absurd hx hc

theorem tracked_follows {t : DSlice} {L : Layout} {asserts : Bool} {Rs : List (List Cell)} : Follows t L asserts (Tracked t Rs) := by
  constructor
  · intro s s' b y d hi hb hf hy hs hn hcr hk
    have h1 := tracked_ends hk hb rfl hs hn hcr (fun c hc => (hi.cross c hc).1)
    refine ⟨fun l hl u v hst => ?_, fun c hc => ?_, fun hap => ?_⟩
    · rcases List.mem_cons.1 hl with rfl | hl
      · exact absurd hst step_one
      · exact h1.steps l (List.mem_cons_of_mem _ hl) u v hst
    · have : through ([b] :: Rs) c = through ([] :: Rs) c := by
        rw [through_cons, through_cons, if_neg (by simp; rintro rfl; exact hb hc), if_neg (by simp)]
      rw [this]; exact h1.count c hc
    · obtain ⟨u1, u2, u3⟩ := h1.uniform hap
      have hno : ∀ x d, ¬ On [b] x d := by
        rintro x d ⟨n, -, g | g⟩ <;> exact step_one g
      refine ⟨fun x hx l hl d e a c => ?_, .cons (fun k _ x _ d e a => absurd a (hno x d)) (List.pairwise_cons.1 u2).2, fun z hz hx => ?_⟩
      · rcases List.mem_cons.1 hl with rfl | hl
        · exact absurd a (hno x d)
        · exact u1 x hx l (List.mem_cons_of_mem _ hl) d e a c
      · have : b = z := by simpa using hz
        subst this
        rw [hcr] at hx
        exact absurd (hi.cross _ hx).1 hb
  · intro s a da pre prev cur next rest label p hst htc hsc hb hpc hnew hpn hk
    have hne : ∀ x, x ≠ cur → (s.put cur (some p)).cells x = s.cells x := fun x hx => by rw [put_cells, upd_other _ _ hx]
    have heq : (s.put cur (some p)).cells cur = some p := by rw [put_cells, upd_same]
    have hside : ∀ x e, x ≠ cur → side (s.put cur (some p)) x e = side s x e := fun x e hx => by unfold side; rw [hne x hx]
    have hcross : ∀ c ∈ s.crossing, c ≠ cur := fun c hc e => (hst.inv.cross c hc).2 (e ▸ hsc)
    have hr : ∀ x e, rsv s x e → rsv (s.put cur (some p)) x e := by
      intro x e hr
      have hx : x ≠ cur := by
        rintro rfl
        obtain ⟨q, hq⟩ := rsv_patch hr
        rw [hsc] at hq; cases hq
      exact (rsv_side (hside x e hx)).2 hr
    refine tracked_more hk hr rfl (fun x hx e => by unfold ty; rw [hside x e (hcross x hx)]) (fun d hf => ?_) (fun g => hcross _ g rfl) (fun c hc => ?_)
    · refine ⟨(hst.prev d hf).1, hr _ _ (rsv_of (hst.prev d hf).1 hst.lab), ?_⟩
      refine rsv_of (l := label) ?_ hst.lab
      rw [ty_some heq, hb _ _ (faces_back hf), if_pos (.inl rfl)]
    · by_cases hcc : c = cur
      · subst hcc
        obtain ⟨-, k2, -⟩ := hk.count c hc
        have k0 := k2.1 hsc
        rw [through_cons, if_neg hnew] at k0
        rw [through_cons, if_pos (by simp)]
        refine ⟨by omega, by rw [heq]; simp, ?_⟩
        constructor
        · exact fun g => absurd rfl (hcross _ g)
        · intro g; omega
      · rw [through_snoc hcc, hne c hcc]
        exact hk.count c hc
  · intro s s' a da pre prev cur next rest label label' hst hst' htc hsc hnc hpc hcn hnew hpn hm hk
    have hi := hst.inv
    obtain ⟨dn, hdn⟩ := hcn
    obtain ⟨dp', hdp'⟩ := hpc
    have hdp := faces_back hdp'
    have hpcne : prev ≠ cur := faces_ne hdp'
    have hedge : ∀ n d, Faces cur n d → rsv s cur d → ty s n d.flip = ty s cur d := fun n d hf hr =>
      (hi.edge cur n d htc hr hf (fun g => hpcne g.1.symm)).1
    have hfr : ¬ rsv s cur dn := by
      intro hr
      exact hst.fresh.1 dn.flip (faces_back hdn) (rsv_of (hedge next dn hdn hr) hr)
    have hne : dp'.flip ≠ dn := by
      rintro rfl
      exact hpn (faces_unique hdp hdn)
    have hcl : ∀ x ∈ s.crossing ++ [cur], Closed { s with crossing := s.crossing ++ [cur] } x := by
      intro x hx n d hf hr
      rcases List.mem_append.1 hx with hx | hx
      · exact hi.closed x hx n d hf hr
      · rw [List.mem_singleton] at hx; subst hx
        exact .inr (hedge n d hf hr)
    have hmc : cur ∈ s.crossing ++ [cur] := List.mem_append_right _ (List.mem_singleton_self _)
    obtain ⟨s1, e1, hl, hcore, hcr, -, -, hun, hcs, hos⟩ := markCrossing_sides (s := { s with crossing := s.crossing ++ [cur] }) (dp := dp'.flip) (dn := dn) hcl hmc hdp hne hfr hm
    change s'.crossing = s.crossing ++ [cur] at hcr
    change (∀ e, side s' cur e = if rsv s cur e then side s1 cur e else some ⟨label', true⟩) at hcs
    change (∀ x e, x ≠ cur → (Faces x cur e → ¬ rsv s cur e.flip → side s' x e = (side s x e).map fun b => { b with ty := label' }) ∧
          (¬ (Faces x cur e ∧ ¬ rsv s cur e.flip) → side s' x e = side s1 x e)) at hos
    have hrv1 : ∀ x e, rsv s1 x e ↔ rsv s x e := e1.rsv_iff
    have hrc : ∀ e, rsv s' cur e := by
      intro e
      by_cases hr : rsv s cur e
      · exact (rsv_side (by rw [hcs, if_pos hr])).2 ((hrv1 _ _).2 hr)
      · unfold rsv ty
        rw [hcs, if_neg hr]
        exact hl
    have hr : ∀ x e, rsv s x e → rsv s' x e := by
      intro x e hr
      by_cases hx : x = cur
      · subst hx; exact hrc e
      · by_cases hf : Faces x cur e ∧ ¬ rsv s cur e.flip
        · obtain ⟨q, hq⟩ := rsv_patch hr
          unfold rsv ty
          rw [(hos x e hx).1 hf.1 hf.2, side_some hq]
          exact hl
        · exact (rsv_side ((hos x e hx).2 hf)).2 ((hrv1 _ _).2 hr)
    have hone : through ((pre ++ [prev]) :: Rs) cur = 1 := by
      obtain ⟨k1, k2, k3⟩ := hk.count cur htc
      have : through ((pre ++ [prev]) :: Rs) cur ≠ 0 := fun g => hsc (k2.2 g)
      have : through ((pre ++ [prev]) :: Rs) cur ≠ 2 := fun g => hnc (k3.2 g)
      omega
    refine ⟨fun l hl u v hstp d hf => ?_, fun c hc => ?_, fun hap => ?_⟩
    · rcases List.mem_cons.1 hl with rfl | hl
      · rcases step_snoc hstp with hstp | ⟨rfl, rfl⟩
        · exact (hk.steps _ (List.mem_cons_self ..) u v hstp d hf).imp (hr _ _) (hr _ _)
        · exact ⟨hr _ _ (rsv_of (hst.prev d hf).1 hst.lab), hrc _⟩
      · exact (hk.steps l (List.mem_cons_of_mem _ hl) u v hstp d hf).imp (hr _ _) (hr _ _)
    · have hnone : s'.cells c = none ↔ s.cells c = none := hcore.none_iff c
      rw [hnone, hcr]
      by_cases hcc : c = cur
      · subst hcc
        rw [through_cons, if_neg hnew] at hone
        rw [through_cons, if_pos (by simp)]
        refine ⟨by omega, ⟨fun g => absurd g hsc, fun g => by omega⟩, ⟨fun _ => by omega, fun _ => hmc⟩⟩
      · rw [through_snoc hcc]
        simpa [hcc] using hk.count c hc
    · rw [hcr] at hap
      have hap0 : Apart s.crossing := fun c hc n hn => hap c (List.mem_append_left _ hc) n (List.mem_append_left _ hn)
      have hno : ∀ x ∈ s.crossing, ∀ e, ¬ Faces x cur e := fun x hx e hf => hap x (List.mem_append_left _ hx) cur hmc ⟨e, hf⟩
      have hnear : ∀ n d, Faces cur n d → n ∉ s.crossing ++ [cur] := fun n d hf hn => hap cur hmc n hn ⟨d, hf⟩
      obtain ⟨m1, m2, m3⟩ := markCrossing_apart (s := { s with crossing := s.crossing ++ [cur] }) hdp hcl hmc hnear hm
      change ¬ rsv s cur dp'.flip at m1
      change ∀ e, rsv s cur e → ty s' cur e = label'.flip at m2
      change ∀ x e, x ≠ cur → ¬ Faces x cur e → side s' x e = side s x e at m3
      obtain ⟨u1, u2, u3⟩ := hk.uniform hap0
      obtain ⟨v1, v2⟩ := List.pairwise_cons.1 u2
      have hne' : ∀ x ∈ s.crossing, x ≠ cur := fun x hx e => hnc (e ▸ hx)
      have hty : ∀ x ∈ s.crossing, ∀ e, ty s' x e = ty s x e := by
        intro x hx e
        unfold ty
        rw [m3 x e (hne' x hx) (hno x hx e)]
      have hon : ∀ x ∈ s.crossing, ∀ d, On (pre ++ [prev, cur]) x d → On (pre ++ [prev]) x d := by
        intro x hx d ho
        rcases on_snoc ho with g | ⟨rfl, g⟩ | ⟨rfl, g⟩
        · exact g
        · exact absurd g (hno _ hx d)
        · exact absurd hx hnc
      have honc : ∀ d, On (pre ++ [prev, cur]) cur d → ty s' cur d = label' := by
        intro d ho
        rcases on_snoc ho with g | ⟨g, -⟩ | ⟨-, g⟩
        · exact absurd (on_mem g) hnew
        · exact absurd g.symm hpcne
        · have : d = dp'.flip := faces_dir g hdp
          subst this
          unfold ty
          rw [hcs, if_neg m1]
          rfl
      have hold : ∀ l ∈ Rs, ∀ d, On l cur d → ty s' cur d = label'.flip := by
        rintro l hl d ⟨n, hf, g | g⟩
        · exact m2 d (hk.steps l (List.mem_cons_of_mem _ hl) _ _ g d hf).1
        · have := (hk.steps l (List.mem_cons_of_mem _ hl) _ _ g d.flip (faces_back hf)).2
          rw [flip_flip] at this
          exact m2 d this
      have hlf : label' ≠ label'.flip := by
        have : ∀ b : BoundaryType, reservedType b = true → b ≠ b.flip := by intro b; cases b <;> simp [reservedType, BoundaryType.flip]
        exact this _ hl
      refine ⟨fun x hx l hl d e a b => ?_, ?_, fun z hz hx => ?_⟩
      · rw [hcr] at hx
        rcases List.mem_append.1 hx with hx | hx
        · rw [hty x hx, hty x hx]
          rcases List.mem_cons.1 hl with rfl | hl
          · exact u1 x hx _ (List.mem_cons_self ..) d e (hon x hx d a) (hon x hx e b)
          · exact u1 x hx l (List.mem_cons_of_mem _ hl) d e a b
        · rw [List.mem_singleton] at hx
          subst hx
          rcases List.mem_cons.1 hl with rfl | hl
          · rw [honc d a, honc e b]
          · rw [hold l hl d a, hold l hl e b]
      · refine .cons (fun k hk' x hx d e a b => ?_) ?_
        · rw [hcr] at hx
          rcases List.mem_append.1 hx with hx | hx
          · rw [hty x hx, hty x hx]
            exact v1 k hk' x hx d e (hon x hx d a) b
          · rw [List.mem_singleton] at hx
            subst hx
            rw [honc d a, hold k hk' e b]
            exact hlf
        · have hc1 : Rs.countP (fun l => decide (cur ∈ l)) ≤ 1 := by
            rw [through_cons] at hone
            unfold through at hone
            omega
          refine (v2.and (count_one _ hc1)).imp fun {l k} g x hx d e a b => ?_
          rw [hcr] at hx
          rcases List.mem_append.1 hx with hx | hx
          · rw [hty x hx, hty x hx]
            exact g.1 x hx d e a b
          · rw [List.mem_singleton] at hx
            subst hx
            exact absurd ⟨by simpa using on_mem a, by simpa using on_mem b⟩ g.2
      · have : cur = z := by simpa using hz
        subst this
        refine ⟨honc, fun l hl d a => ?_⟩
        rw [hold l hl d a]
        exact hlf.symm
  · intro s s' a da pre prev label hst ha hf hs hn hcr hk
    have hin : ∀ c ∈ s.crossing, t.cells c = none := fun c hc => (hst.inv.cross c hc).1
    have h1 := tracked_ends hk ha hst.lab hs hn hcr hin
    have hpa : prev ≠ a := fun e => faces_ne hf e.symm
    have hsp : ∀ d, side s' prev d = side s prev d := fun d => by rw [hs, if_neg (fun g => hpa g.1)]
    refine tracked_more h1 (fun _ _ h => h) rfl (fun _ _ _ => rfl) (fun d hd => ?_) (fun g => ha (hin a (hcr ▸ g))) (fun c hc => ?_)
    · have e1 : ty s' prev d = label := by unfold ty; rw [hsp]; exact (hst.prev d hd).1
      have e2 : d.flip = da := faces_dir (faces_back hd) hf
      have ha' : ∃ q, s.cells a = some q := by
        obtain ⟨q, hq⟩ := Option.ne_none_iff_exists'.1 ha
        obtain ⟨p, hp, -⟩ := hst.inv.data a q hq
        exact ⟨p, hp⟩
      obtain ⟨q, hq⟩ := ha'
      refine ⟨e1, rsv_of e1 hst.lab, ?_⟩
      unfold rsv ty
      rw [hs, if_pos ⟨rfl, e2⟩, side_some hq]
      exact hst.lab
    · have hca : c ≠ a := fun e => ha (e ▸ hc)
      rw [through_snoc hca]
      exact h1.count c hc

end Verif.Edpc
