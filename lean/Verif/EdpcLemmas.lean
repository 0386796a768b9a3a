import Verif.RouterProps
import Verif.SliceLemmas

/-!
# Lemmas on the labels of edge-disjoint routes
-/

namespace Verif.Edpc

open Verif Apply Router.Spec DSlice

/-! ### Directions -/

theorem faces_back {a b : Cell} {d : CellDirection} (h : Faces a b d) : Faces b a d.flip := by
  cases d <;> simp only [Faces, CellDirection.flip] at h ⊢ <;> omega

theorem faces_unique {a b c : Cell} {d : CellDirection} (h : Faces a b d) (h' : Faces a c d) : b = c := by
  obtain ⟨b1, b2⟩ := b
  obtain ⟨c1, c2⟩ := c
  cases d <;> simp only [Faces, Cell.mk.injEq] at h h' ⊢ <;> omega

theorem faces_dir {a b : Cell} {d e : CellDirection} (h : Faces a b d) (h' : Faces a b e) : d = e :=
  Option.some.inj ((Router.sideTowards_iff.2 h).symm.trans (Router.sideTowards_iff.2 h'))

theorem flip_flip (d : CellDirection) : d.flip.flip = d := by cases d <;> rfl

theorem faces_ne {a b : Cell} {d : CellDirection} (h : Faces a b d) : a ≠ b := by
  rintro rfl
  cases d <;> simp only [Faces] at h <;> omega

theorem faces_exists (a : Cell) (d : CellDirection) : ∃ b, Faces a b d := by
  cases d
  · exact ⟨⟨a.row - 1, a.col⟩, rfl, rfl⟩
  · exact ⟨⟨a.row + 1, a.col⟩, rfl, rfl⟩
  · exact ⟨⟨a.row, a.col - 1⟩, rfl, rfl⟩
  · exact ⟨⟨a.row, a.col + 1⟩, rfl, rfl⟩

theorem directional_faces {c f n : Cell} {d : CellDirection} (h : c.directional ⟨0, 0⟩ f d = some n) : Faces c n d := by
  cases d <;> simp only [Cell.directional] at h <;> split at h <;> cases h <;> exact ⟨rfl, rfl⟩

/-! ### Sides -/

/-- The side `d` of the patch on `x`. -/
def side (s : DSlice) (x : Cell) (d : CellDirection) : Option Boundary := (s.cells x).map (·.bounds.get d)

/-- Its type; none without a patch. -/
def ty (s : DSlice) (x : Cell) (d : CellDirection) : BoundaryType := ((side s x d).map (·.ty)).getD .none

/-- It carries a route. -/
def rsv (s : DSlice) (x : Cell) (d : CellDirection) : Prop := reservedType (ty s x d) = true

theorem get_set (b : CellBoundaries) (x : Boundary) (d e : CellDirection) : (b.set x d).get e = if e = d then x else b.get e := by
  cases d <;> cases e <;> rfl

theorem ty_some {s : DSlice} {x : Cell} {p : DensePatch} (h : s.cells x = some p) (d : CellDirection) : ty s x d = (p.bounds.get d).ty := by
  simp [ty, side, h]

theorem side_some {s : DSlice} {x : Cell} {p : DensePatch} (h : s.cells x = some p) (d : CellDirection) : side s x d = some (p.bounds.get d) := by
  simp [side, h]

theorem ty_side {s : DSlice} {x : Cell} {d : CellDirection} {b : Boundary} (h : side s x d = some b) : ty s x d = b.ty := by
  simp [ty, h]

theorem side_none {s : DSlice} {x : Cell} {d : CellDirection} : side s x d = none ↔ s.cells x = none := by
  simp [side]

theorem rsv_patch {s : DSlice} {x : Cell} {d : CellDirection} (h : rsv s x d) : ∃ p, s.cells x = some p := by
  cases hp : s.cells x with
  | none => simp [rsv, ty, side, hp, reservedType] at h
  | some p => exact ⟨p, rfl⟩

theorem flip_reserved (t : BoundaryType) : reservedType t.flip = reservedType t := by cases t <;> rfl

theorem side_setSide (s : DSlice) (c : Cell) (d : CellDirection) (f : Boundary → Boundary) (x : Cell) (e : CellDirection) :
    side (s.setSide c d f) x e = if x = c ∧ e = d then (side s x e).map f else side s x e := by
  unfold setSide
  cases h : s.cells c with
  | none =>
    dsimp only
    split
    · rename_i g; obtain ⟨rfl, rfl⟩ := g; simp [side, h]
    · rfl
  | some p =>
    simp only [side, put_cells]
    by_cases hx : x = c
    · subst hx
      simp only [upd_same, h, Option.map_some, get_set, true_and]
      split
      · rename_i g; subst g; rfl
      · rfl
    · rw [upd_other _ _ hx]
      simp [hx]

/-- Writing both sides of an edge. -/
theorem edge_write {s s' : DSlice} {c n : Cell} {d : CellDirection} {f g : Boundary → Boundary} (hn : Faces c n d)
    (h : conjugate (s.setSide c d f) n c g = .ok s') :
    SameCore s s' ∧ s'.crossing = s.crossing ∧ s'.markedRough = s.markedRough ∧ s'.markedSmooth = s.markedSmooth ∧
      ∀ x e, side s' x e = if x = c ∧ e = d then (side s x e).map f else if x = n ∧ e = d.flip then (side s x e).map g else side s x e := by
  refine ⟨(setSide_same _ _ _ _).trans (conjugate_same h), ?_⟩
  have key : ∀ (s : DSlice) (c : Cell) (d : CellDirection) (f : Boundary → Boundary),
      (s.setSide c d f).crossing = s.crossing ∧ (s.setSide c d f).markedRough = s.markedRough ∧ (s.setSide c d f).markedSmooth = s.markedSmooth := by
    intro s c d f; unfold setSide; split <;> exact ⟨rfl, rfl, rfl⟩
  unfold conjugate sideBetween at h
  obtain ⟨o, h1, h⟩ := Outcome.bind_eq_ok.1 h
  obtain ⟨p, h2, h1⟩ := Outcome.bind_eq_ok.1 h1
  obtain ⟨-, h2⟩ := patchAt_ok h2
  have hne : n ≠ c := fun e => faces_ne hn e.symm
  cases p with
  | none =>
    cases h1
    cases h
    refine ⟨(key _ _ _ _).1, (key _ _ _ _).2.1, (key _ _ _ _).2.2, fun x e => ?_⟩
    rw [side_setSide]
    split
    · rfl
    · split
      · rename_i g
        obtain ⟨rfl, rfl⟩ := g
        have : s.cells x = none := ((setSide_same s c d f).none_iff x).1 h2
        simp [side, this]
      · rfl
  | some p =>
    rw [Router.sideTowards_iff.2 (faces_back hn)] at h1
    cases h1
    cases h
    refine ⟨(key _ _ _ _).1.trans (key _ _ _ _).1, (key _ _ _ _).2.1.trans (key _ _ _ _).2.1, (key _ _ _ _).2.2.trans (key _ _ _ _).2.2, fun x e => ?_⟩
    rw [side_setSide, side_setSide]
    by_cases h1 : x = n ∧ e = d.flip
    · have : ¬ (x = c ∧ e = d) := fun h => hne (h1.1.symm.trans h.1)
      rw [if_pos h1, if_neg this, if_neg this, if_pos h1]
    · rw [if_neg h1, if_neg h1]

/-! ### Flipping labels -/

/-- Only labels of routes differ, and where they agreed across an edge they still do. -/
structure Ev (s s' : DSlice) : Prop where
  core : SameCore s s'
  crossing : s'.crossing = s.crossing
  rough : s'.markedRough = s.markedRough
  smooth : s'.markedSmooth = s.markedSmooth
  sides : ∀ x e, side s' x e = side s x e ∨ ∃ b b', side s x e = some b ∧ side s' x e = some b' ∧ reservedType b.ty = true ∧ reservedType b'.ty = true ∧
    b'.active = b.active
  edge : ∀ x n e, Faces x n e → rsv s x e → ty s n e.flip = ty s x e → ty s' n e.flip = ty s' x e
  near : ∀ x e, side s' x e ≠ side s x e → ∃ c ∈ s.crossing, x = c ∨ (Faces x c e ∧ rsv s c e.flip)

theorem Ev.refl (s : DSlice) : Ev s s := ⟨.refl s, rfl, rfl, rfl, fun _ _ => .inl rfl, fun _ _ _ _ _ h => h, fun _ _ h => absurd rfl h⟩

theorem Ev.rsv_iff {s s' : DSlice} (h : Ev s s') (x : Cell) (e : CellDirection) : rsv s' x e ↔ rsv s x e := by
  rcases h.sides x e with h1 | ⟨b, b', h1, h2, h3, h4, -⟩
  · unfold rsv ty; rw [h1]
  · unfold rsv ty; rw [h1, h2]; simp [h3, h4]

theorem Ev.trans {a b c : DSlice} (h : Ev a b) (h' : Ev b c) : Ev a c := by
  refine ⟨h.core.trans h'.core, h'.crossing.trans h.crossing, h'.rough.trans h.rough, h'.smooth.trans h.smooth, fun x e => ?_, fun x n e hf hr ht => ?_, fun x e hx => ?_⟩
  · rcases h'.sides x e with h1 | ⟨b1, b2, h1, h2, h3, h4, h5⟩
    · rw [h1]; exact h.sides x e
    · rcases h.sides x e with g1 | ⟨c1, c2, g1, g2, g3, g4, g5⟩
      · exact .inr ⟨b1, b2, g1 ▸ h1, h2, h3, h4, h5⟩
      · rw [g2] at h1; cases h1
        exact .inr ⟨c1, b2, g1, h2, g3, h4, h5.trans g5⟩
  · exact h'.edge x n e hf ((h.rsv_iff x e).2 hr) (h.edge x n e hf hr ht)
  · by_cases h1 : side b x e = side a x e
    · obtain ⟨c', g1, g2⟩ := h'.near x e (fun g => hx (g.trans h1))
      exact ⟨c', h.crossing ▸ g1, g2.imp id (fun g => ⟨g.1, (h.rsv_iff c' _).1 g.2⟩)⟩
    · exact h.near x e h1

theorem Ev.none_iff {s s' : DSlice} (h : Ev s s') (x : Cell) : s'.cells x = none ↔ s.cells x = none := h.core.none_iff x

/-- The labels on the sides of the cell agree with those of its neighbours. -/
def Closed (s : DSlice) (c : Cell) : Prop := ∀ n d, Faces c n d → rsv s c d → s.cells n = none ∨ ty s n d.flip = ty s c d

theorem Ev.closed {s s' : DSlice} (h : Ev s s') {c : Cell} (hc : Closed s c) : Closed s' c := by
  intro n d hf hr
  have hr' := (h.rsv_iff c d).1 hr
  rcases hc n d hf hr' with h1 | h1
  · exact .inl ((h.none_iff n).2 h1)
  · exact .inr (h.edge c n d hf hr' h1)

theorem flip_edge {s s' : DSlice} {c n : Cell} {d : CellDirection} {g : Boundary → Boundary} (hm : c ∈ s.crossing) (hn : Faces c n d) (hr : rsv s c d)
    (hc : s.cells n = none ∨ ty s n d.flip = ty s c d) (hg : g = flipTy ∨ g = fun x => { x with ty := (ty s c d).flip })
    (h : conjugate (s.setSide c d flipTy) n c g = .ok s') : Ev s s' := by
  obtain ⟨h1, h2, h3, h4, h5⟩ := edge_write hn h
  obtain ⟨p, hp⟩ := rsv_patch hr
  have hg' : ∀ x, side s n d.flip = some x → (side s n d.flip).map g = some (flipTy x) := by
    intro x hx
    rw [hx]
    rcases hg with rfl | rfl
    · rfl
    · have : ty s n d.flip = x.ty := ty_side hx
      rcases hc with hc | hc
      · rw [side_none.2 hc] at hx; cases hx
      · rw [← hc, this]; rfl
  have hty : ∀ x e, (x = c ∧ e = d) ∨ (x = n ∧ e = d.flip) → s.cells x ≠ none → ty s' x e = (ty s x e).flip := by
    intro x e hxe hne
    obtain ⟨q, hq⟩ := Option.ne_none_iff_exists'.1 hne
    have hsx := side_some hq e
    unfold ty
    rw [h5 x e]
    rcases hxe with hxe | hxe
    · rw [if_pos hxe, hsx]; rfl
    · obtain ⟨rfl, rfl⟩ := hxe
      split
      · rw [hsx]; rfl
      · rw [if_pos ⟨rfl, rfl⟩, hg' _ hsx, hsx]; rfl
  have hoth : ∀ x e, ¬ ((x = c ∧ e = d) ∨ (x = n ∧ e = d.flip)) → ty s' x e = ty s x e := by
    intro x e hxe
    unfold ty
    rw [h5 x e, if_neg (fun h => hxe (.inl h)), if_neg (fun h => hxe (.inr h))]
  refine ⟨h1, h2, h3, h4, fun x e => ?_, fun x n' e hf hr' ht => ?_, fun x e hx => ?_⟩
  · rw [h5]
    split
    · rename_i hxe
      obtain ⟨rfl, rfl⟩ := hxe
      refine .inr ⟨_, flipTy (p.bounds.get e), side_some hp e, by rw [side_some hp]; rfl, ?_, ?_, rfl⟩
      · unfold rsv at hr; rw [ty_some hp] at hr; exact hr
      · unfold rsv at hr; rw [ty_some hp] at hr; simp only [flipTy, flip_reserved]; exact hr
    · split
      · rename_i hxe
        obtain ⟨rfl, rfl⟩ := hxe
        cases hs : side s x d.flip with
        | none => exact .inl rfl
        | some b =>
          right
          have := hg' b hs
          rw [hs] at this
          refine ⟨b, flipTy b, rfl, this, ?_, ?_, rfl⟩
          all_goals
            rcases hc with hc | hc
            · rw [side_none.2 hc] at hs; cases hs
            · unfold rsv at hr
              rw [← hc, ty_side hs] at hr
              first | exact hr | (simp only [flipTy, flip_reserved]; exact hr)
      · exact .inl rfl
  · have hx : s.cells x ≠ none := by obtain ⟨q, hq⟩ := rsv_patch hr'; simp [hq]
    have hn' : s.cells n' ≠ none := by
      have : rsv s n' e.flip := by unfold rsv at hr' ⊢; rw [ht]; exact hr'
      obtain ⟨q, hq⟩ := rsv_patch this; simp [hq]
    by_cases hxe : (x = c ∧ e = d) ∨ (x = n ∧ e = d.flip)
    · have hxe' : (n' = c ∧ e.flip = d) ∨ (n' = n ∧ e.flip = d.flip) := by
        rcases hxe with ⟨rfl, rfl⟩ | ⟨rfl, rfl⟩
        · exact .inr ⟨faces_unique hf hn, rfl⟩
        · exact .inl ⟨faces_unique hf (faces_back hn), flip_flip d⟩
      rw [hty _ _ hxe hx, hty _ _ hxe' hn', ht]
    · have hxe' : ¬ ((n' = c ∧ e.flip = d) ∨ (n' = n ∧ e.flip = d.flip)) := by
        rintro (⟨rfl, rfl⟩ | ⟨rfl, he⟩)
        · exact hxe (.inr ⟨faces_unique (faces_back hf) hn, (flip_flip e).symm⟩)
        · have : e = d := by rw [← flip_flip e, he, flip_flip]
          subst this
          exact hxe (.inl ⟨faces_unique (faces_back hf) (faces_back hn), rfl⟩)
      rw [hoth _ _ hxe, hoth _ _ hxe', ht]
  · refine ⟨c, hm, ?_⟩
    by_cases h6 : x = c ∧ e = d
    · exact .inl h6.1
    · by_cases h7 : x = n ∧ e = d.flip
      · obtain ⟨rfl, rfl⟩ := h7
        exact .inr ⟨faces_back hn, by rw [flip_flip]; exact hr⟩
      · rw [h5, if_neg h6, if_neg h7] at hx
        exact absurd rfl hx

theorem flipSides_ev {L : Layout} {c : Cell} {dir : CellDirection} : ∀ {ds : List CellDirection} {s s' : DSlice},
    c ∈ s.crossing → Closed s c → flipSides L c dir ds s = .ok s' → Ev s s'
  | [], s, s', _, _, h => by cases h; exact .refl _
  | d :: ds, s, s', hm, hc, h => by
    rw [flipSides] at h
    split at h
    · rename_i n p hd hp
      split at h
      · rename_i hr
        split at h
        · obtain ⟨s1, h1, h⟩ := Outcome.bind_eq_ok.1 h
          have hr' : rsv s c d := by unfold rsv; rw [ty_some hp]; exact hr
          have e1 := flip_edge hm (directional_faces hd) hr' (hc n d (directional_faces hd) hr') (.inl rfl) h1
          exact e1.trans (flipSides_ev (e1.crossing ▸ hm) (e1.closed hc) h)
        · exact flipSides_ev hm hc h
      · cases h
    · cases h

theorem flipChain_ev {L : Layout} {dir : CellDirection} : ∀ {n : Nat} {c : Cell} {s s' : DSlice},
    (∀ x ∈ s.crossing, Closed s x) → flipChain L dir n c s = .ok s' → Ev s s'
  | 0, _, _, _, _, h => by cases h
  | n + 1, c, s, s', hc, h => by
    rw [flipChain] at h
    split at h
    · cases h
    · rename_i hm
      obtain ⟨p, -, h⟩ := Outcome.bind_eq_ok.1 h
      cases p with
      | none => cases h
      | some p =>
        obtain ⟨s1, h1, h⟩ := Outcome.bind_eq_ok.1 h
        have e1 := flipSides_ev (Decidable.not_not.1 hm) (hc c (Decidable.not_not.1 hm)) h1
        split at h
        · split at h
          · exact e1.trans (flipChain_ev (fun x hx => e1.closed (hc x (e1.crossing ▸ hx))) h)
          · cases h; exact e1
        · cases h; exact e1

theorem spread_ev {L : Layout} {n : Cell} {d : CellDirection} {st st' : Crossing} (hc : ∀ x ∈ st.slice.crossing, Closed st.slice x)
    (h : spread L n d st = .ok st') : Ev st.slice st'.slice ∧ st'.first = st.first ∧ st'.reserved = st.reserved := by
  unfold spread at h
  split at h
  · obtain ⟨s1, h1, h⟩ := Outcome.bind_eq_ok.1 h
    cases h
    exact ⟨flipChain_ev hc h1, rfl, rfl⟩
  · cases h; exact ⟨.refl _, rfl, rfl⟩

theorem crossReserved_ev {L : Layout} {c prev n : Cell} {pc : Bool} {d : CellDirection} {p : DensePatch} {st st' : Crossing}
    (hc : ∀ x ∈ st.slice.crossing, Closed st.slice x) (hm : c ∈ st.slice.crossing) (hn : Faces c n d) (hp : st.slice.cells c = some p)
    (hr : rsv st.slice c d) (h : crossReserved L c prev n pc d p st = .ok st') :
    Ev st.slice st'.slice ∧ st'.reserved = st.reserved + 1 ∧ (n = prev → pc = true) ∧ (∀ f, st'.first = some f → st.first = some f ∨ f = d) := by
  unfold crossReserved at h
  simp only at h
  split at h
  · split at h
    · rename_i hpc
      cases h
      exact ⟨.refl _, rfl, fun _ => hpc, fun f hf => .inl hf⟩
    · cases h
  · rename_i hne
    split at h
    · rename_i hfst
      split at h
      · cases h
      · split at h
        · obtain ⟨s1, h1, h⟩ := Outcome.bind_eq_ok.1 h
          have e1 := flip_edge hm hn hr (hc c hm n d hn hr) (.inl rfl) h1
          obtain ⟨e2, e3, e4⟩ := spread_ev (fun x hx => e1.closed (hc x (e1.crossing ▸ hx))) h
          exact ⟨e1.trans e2, e4, fun e => absurd e hne, fun f hf => by rw [e3] at hf; cases hf; exact .inr rfl⟩
        · cases h
          exact ⟨.refl _, rfl, fun e => absurd e hne, fun f hf => by cases hf; exact .inr rfl⟩
    · rename_i f hfst
      split at h
      · obtain ⟨s1, h1, h⟩ := Outcome.bind_eq_ok.1 h
        have e1 := flip_edge hm hn hr (hc c hm n d hn hr) (.inr (by rw [ty_some hp])) h1
        obtain ⟨e2, e3, e4⟩ := spread_ev (fun x hx => e1.closed (hc x (e1.crossing ▸ hx))) h
        exact ⟨e1.trans e2, e4, fun e => absurd e hne, fun f' hf => by rw [e3] at hf; exact .inl hf⟩
      · cases h
        exact ⟨.refl _, rfl, fun e => absurd e hne, fun f' hf => .inl hf⟩

instance (s : DSlice) (c : Cell) : DecidablePred (rsv s c) := fun _ => inferInstanceAs (Decidable (_ = true))

theorem Ev.ty_of_not {s s' : DSlice} (h : Ev s s') {x : Cell} {e : CellDirection} (hr : ¬ rsv s x e) : side s' x e = side s x e := by
  rcases h.sides x e with h1 | ⟨b, b', h1, h2, h3, -⟩
  · exact h1
  · exact absurd (by unfold rsv; rw [ty_side h1]; exact h3) hr

theorem crossSides_ev {L : Layout} {c prev : Cell} {pc : Bool} : ∀ {ds : List CellDirection} {st st' : Crossing},
    (∀ x ∈ st.slice.crossing, Closed st.slice x) → c ∈ st.slice.crossing → crossSides L c prev pc ds st = .ok st' →
    Ev st.slice st'.slice ∧ st'.reserved = st.reserved + ds.countP (fun d => decide (rsv st.slice c d)) ∧
      (∀ f, st'.first = some f → st.first = some f ∨ rsv st.slice c f) ∧
      ∀ d ∈ ds, ∃ n, c.directional ⟨0, 0⟩ L.furthest d = some n ∧ (rsv st.slice c d ∨ ty st.slice c d = .none) ∧ (n = prev → rsv st.slice c d → pc = true)
  | [], st, st', _, _, h => by cases h; exact ⟨.refl _, rfl, fun f hf => .inl hf, by simp⟩
  | d :: ds, st, st', hc, hm, h => by
    rw [crossSides] at h
    split at h
    · rename_i n p hd hp
      simp only at h
      split at h
      · rename_i hr
        have hr' : rsv st.slice c d := by unfold rsv; rw [ty_some hp]; exact hr
        obtain ⟨st1, h1, h⟩ := Outcome.bind_eq_ok.1 h
        obtain ⟨e1, e2, e3, e4⟩ := crossReserved_ev hc hm (directional_faces hd) hp hr' h1
        obtain ⟨g1, g2, g3, g4⟩ := crossSides_ev (fun x hx => e1.closed (hc x (e1.crossing ▸ hx))) (e1.crossing ▸ hm) h
        refine ⟨e1.trans g1, ?_, fun f hf => ?_, fun d' hd' => ?_⟩
        · rw [g2, e2, List.countP_cons_of_pos (by simpa using hr')]
          have : ds.countP (fun d => decide (rsv st1.slice c d)) = ds.countP (fun d => decide (rsv st.slice c d)) := by
            apply List.countP_congr
            intro d' _
            simp [e1.rsv_iff]
          omega
        · rcases g3 f hf with g | g
          · rcases e4 f g with g | rfl
            · exact .inl g
            · exact .inr hr'
          · exact .inr ((e1.rsv_iff c f).1 g)
        · rcases List.mem_cons.1 hd' with rfl | hd'
          · exact ⟨n, hd, .inl hr', fun hn _ => e3 hn⟩
          · obtain ⟨n', q1, q2, q3⟩ := g4 d' hd'
            refine ⟨n', q1, ?_, fun a b => q3 a ((e1.rsv_iff c d').2 b)⟩
            by_cases hq : rsv st.slice c d'
            · exact .inl hq
            · right
              rcases q2 with q2 | q2
              · exact absurd ((e1.rsv_iff c d').1 q2) hq
              · unfold ty at q2 ⊢; rw [← e1.ty_of_not hq]; exact q2
      · rename_i hr
        have hr' : ¬ rsv st.slice c d := by unfold rsv; rw [ty_some hp]; exact hr
        split at h
        · cases h
        · rename_i hty
          obtain ⟨g1, g2, g3, g4⟩ := crossSides_ev hc hm h
          refine ⟨g1, ?_, g3, fun d' hd' => ?_⟩
          · rw [g2, List.countP_cons_of_neg (by simpa using hr')]
          · rcases List.mem_cons.1 hd' with rfl | hd'
            · exact ⟨n, hd, .inr (by rw [ty_some hp]; exact Decidable.not_not.1 hty), fun _ h => absurd h hr'⟩
            · exact g4 d' hd'
    · cases h

/-- What filling the remaining sides of a crossing does. -/
theorem crossFill_sides {L : Layout} {c : Cell} {t : BoundaryType} (htn : t ≠ .none) : ∀ {ds : List CellDirection} {s s' : DSlice},
    ds.Nodup → (∀ d ∈ ds, ∃ n, c.directional ⟨0, 0⟩ L.furthest d = some n) → (∃ p, s.cells c = some p) → crossFill L c t ds s = .ok s' →
    SameCore s s' ∧ s'.crossing = s.crossing ∧ s'.markedRough = s.markedRough ∧ s'.markedSmooth = s.markedSmooth ∧
      (∀ e, side s' c e = if e ∈ ds ∧ ty s c e = .none then some ⟨t, true⟩ else side s c e) ∧
      ∀ x e, x ≠ c → (Faces x c e → e.flip ∈ ds → ty s c e.flip = .none → side s' x e = (side s x e).map fun b => { b with ty := t }) ∧
        (¬ (Faces x c e ∧ e.flip ∈ ds ∧ ty s c e.flip = .none) → side s' x e = side s x e)
  | [], s, s', _, _, _, h => by
    cases h
    exact ⟨.refl _, rfl, rfl, rfl, fun e => by simp, fun x e _ => ⟨fun _ h => (by cases h), fun _ => rfl⟩⟩
  | d :: ds, s, s', hnd, hin, ⟨p, hp⟩, h => by
    obtain ⟨hd0, hnd⟩ := List.nodup_cons.1 hnd
    obtain ⟨n, hn⟩ := hin d (List.mem_cons_self ..)
    have hf := directional_faces hn
    have hne : n ≠ c := fun e => faces_ne hf e.symm
    rw [crossFill, hn, hp] at h
    dsimp only at h
    split at h
    · rename_i hty
      obtain ⟨s1, h1, h⟩ := Outcome.bind_eq_ok.1 h
      obtain ⟨a1, a2, a3, a4, a5⟩ := edge_write hf h1
      have hp1 : ∃ p, s1.cells c = some p := by obtain ⟨q, hq, -⟩ := a1.get hp; exact ⟨q, hq⟩
      obtain ⟨b1, b2, b3, b4, b5, b6⟩ := crossFill_sides htn hnd (fun d' h' => hin d' (List.mem_cons_of_mem _ h')) hp1 h
      have hc1 : ∀ e, side s1 c e = if e = d then some ⟨t, true⟩ else side s c e := by
        intro e
        rw [a5]
        by_cases he : e = d
        · rw [if_pos ⟨rfl, he⟩, if_pos he, side_some hp]; rfl
        · rw [if_neg (fun h => he h.2), if_neg (fun h => hne h.1.symm), if_neg he]
      have hty1 : ∀ e, ty s1 c e = if e = d then t else ty s c e := by
        intro e
        unfold ty
        rw [hc1 e]
        split <;> simp
      refine ⟨a1.trans b1, b2.trans a2, b3.trans a3, b4.trans a4, fun e => ?_, fun x e hx => ⟨fun hfx hed het => ?_, fun hno => ?_⟩⟩
      · rw [b5, hty1, hc1]
        by_cases he : e = d
        · subst he
          rw [if_neg (fun h => hd0 h.1), if_pos rfl, if_pos ⟨List.mem_cons_self .., by rw [ty_some hp]; exact hty⟩]
        · rw [if_neg he, if_neg he]
          simp [he]
      · by_cases he : e.flip = d
        · have hxn : x = n := faces_unique (faces_back hfx) (he ▸ hf)
          subst hxn
          rw [(b6 x e hx).2 (fun h => hd0 (he ▸ h.2.1)), a5, if_neg (fun h => hx h.1), if_pos ⟨rfl, by rw [← he, flip_flip]⟩]
        · have hed' : e.flip ∈ ds := (List.mem_cons.1 hed).resolve_left he
          rw [(b6 x e hx).1 hfx hed' (by rw [hty1, if_neg he]; exact het), a5, if_neg (fun h => hx h.1), if_neg (fun h => he (by rw [h.2, flip_flip]))]
      · have h1 : ¬ (x = n ∧ e = d.flip) := by
          rintro ⟨rfl, rfl⟩
          refine hno ⟨faces_back hf, by rw [flip_flip]; exact List.mem_cons_self .., by rw [flip_flip, ty_some hp]; exact hty⟩
        rw [(b6 x e hx).2 ?_, a5, if_neg (fun h => hx h.1), if_neg h1]
        rintro ⟨q1, q2, q3⟩
        rw [hty1] at q3
        split at q3
        · exact htn q3
        · exact hno ⟨q1, List.mem_cons_of_mem _ q2, q3⟩
    · rename_i hty
      have hty' : ty s c d ≠ .none := by rw [ty_some hp]; exact hty
      obtain ⟨b1, b2, b3, b4, b5, b6⟩ := crossFill_sides htn hnd (fun d' h' => hin d' (List.mem_cons_of_mem _ h')) ⟨p, hp⟩ h
      refine ⟨b1, b2, b3, b4, fun e => ?_, fun x e hx => ⟨fun hfx hed het => ?_, fun hno => ?_⟩⟩
      · rw [b5]
        by_cases he : e = d
        · subst he
          rw [if_neg (fun h => hty' h.2), if_neg (fun h => hty' h.2)]
        · simp [he]
      · refine (b6 x e hx).1 hfx ((List.mem_cons.1 hed).resolve_left (fun h => hty' (h ▸ het))) het
      · exact (b6 x e hx).2 (fun h => hno ⟨h.1, List.mem_cons_of_mem _ h.2.1, h.2.2⟩)

theorem count_two (P : CellDirection → Bool) {a b e : CellDirection} (hab : a ≠ b) (ha : P a = false) (hb : P b = false)
    (h : directions.countP P = 2) (he : P e = false) : e = a ∨ e = b := by
  simp only [directions, List.countP_cons, List.countP_nil] at h
  cases a <;> cases b <;> first | exact absurd rfl hab | skip
  all_goals
    cases e <;> first | exact .inl rfl | exact .inr rfl | skip
    all_goals
      rw [ha, hb, he] at h
      simp only [Bool.false_eq_true, if_false] at h
      split at h <;> omega

theorem count_three (P : CellDirection → Bool) {b e : CellDirection} (hb : P b = false)
    (h : directions.countP P = 3) (he : P e = false) : e = b := by
  simp only [directions, List.countP_cons, List.countP_nil] at h
  cases b <;> cases e <;> first | rfl | skip
  all_goals
    rw [hb, he] at h
    simp only [Bool.false_eq_true, if_false] at h
    split at h <;> split at h <;> omega

theorem mem_directions (d : CellDirection) : d ∈ directions := by cases d <;> simp [directions]

/-- What crossing a marked cell does. -/
theorem markCrossing_sides {L : Layout} {asserts : Bool} {s s' : DSlice} {c prev : Cell} {dp dn : CellDirection} {label : BoundaryType}
    (hc : ∀ x ∈ s.crossing, Closed s x) (hm : c ∈ s.crossing) (hp : Faces c prev dp) (hne : dp ≠ dn) (hdn : ¬ rsv s c dn)
    (h : markCrossing L asserts s c prev = .ok (s', label)) :
    ∃ s1, Ev s s1 ∧ reservedType label = true ∧ SameCore s s' ∧ s'.crossing = s.crossing ∧ s'.markedRough = s.markedRough ∧ s'.markedSmooth = s.markedSmooth ∧
      (∀ e, ¬ rsv s c e → e = dp ∨ e = dn) ∧
      (∀ e, side s' c e = if rsv s c e then side s1 c e else some ⟨label, true⟩) ∧
      ∀ x e, x ≠ c → (Faces x c e → ¬ rsv s c e.flip → side s' x e = (side s x e).map fun b => { b with ty := label }) ∧
        (¬ (Faces x c e ∧ ¬ rsv s c e.flip) → side s' x e = side s1 x e) := by
  unfold markCrossing at h
  simp only at h
  obtain ⟨pb, h0, h⟩ := Outcome.bind_eq_ok.1 h
  cases pb with
  | none => cases h
  | some pb =>
    simp only at h
    split at h
    · cases h
    · obtain ⟨st, h1, h⟩ := Outcome.bind_eq_ok.1 h
      obtain ⟨u, h2, h⟩ := Outcome.bind_eq_ok.1 h
      obtain ⟨e1, e2, e3, e4⟩ := crossSides_ev (st := { slice := s, crossings := _ }) hc hm h1
      simp only [Nat.zero_add, reduceCtorEq, false_or] at e1 e2 e3 e4
      split at h
      · rename_i f p hf hpc
        obtain ⟨s2, h3, h⟩ := Outcome.bind_eq_ok.1 h
        cases h
        have hfr : rsv st.slice c f := (e1.rsv_iff c f).2 (e3 f hf)
        have hlab : reservedType (p.bounds.get f).ty.flip = true := by
          rw [flip_reserved]; unfold rsv at hfr; rw [ty_some hpc] at hfr; exact hfr
        have hlab' : (p.bounds.get f).ty.flip ≠ .none := by intro e; rw [e] at hlab; cases hlab
        obtain ⟨b1, b2, b3, b4, b5, b6⟩ := crossFill_sides hlab' (by decide) (fun d hd => (e4 d hd).imp fun n hn => hn.1) ⟨p, hpc⟩ h3
        have hnone : ∀ e, ty st.slice c e = .none ↔ ¬ rsv s c e := by
          intro e
          obtain ⟨n', -, g, -⟩ := e4 e (mem_directions e)
          constructor
          · intro h hr
            have := (e1.rsv_iff c e).2 hr
            unfold rsv at this; rw [h] at this; cases this
          · intro hr
            unfold ty
            rw [e1.ty_of_not hr]
            exact g.resolve_left hr
        have hun : ∀ e, ¬ rsv s c e → e = dp ∨ e = dn := by
          intro e he
          have hle : directions.countP (fun d => decide (rsv s c d)) ≤ 4 := List.countP_le_length
          unfold crossChecks at h2
          simp only at h2
          split at h2
          · cases h2
          · obtain ⟨-, -, h2⟩ := Outcome.bind_eq_ok.1 h2
            split at h2
            · cases h2
            · split at h2
              · cases h2
              · split at h2
                · cases h2
                · split at h2
                  · cases h2
                  · rename_i k4 k3 k2 k1
                    rw [e2] at k1 k2 k3 k4
                    by_cases hpc' : prev ∈ s.crossing
                    · have : directions.countP (fun d => decide (rsv s c d)) = 3 := by
                        simp only [hpc', decide_true, and_true] at k2
                        omega
                      exact .inr (count_three (fun d => decide (rsv s c d)) (by simpa using hdn) this (by simpa using he))
                    · have h2' : directions.countP (fun d => decide (rsv s c d)) = 2 := by
                        simp only [hpc', decide_false, and_true] at k3
                        omega
                      have hdp : ¬ rsv s c dp := by
                        intro hr
                        obtain ⟨n', g1, -, g2⟩ := e4 dp (mem_directions dp)
                        have := g2 (faces_unique (directional_faces g1) hp) hr
                        simp [hpc'] at this
                      exact count_two (fun d => decide (rsv s c d)) hne (by simpa using hdp) (by simpa using hdn) h2' (by simpa using he)
        refine ⟨st.slice, e1, hlab, e1.core.trans b1, b2.trans e1.crossing, b3.trans e1.rough, b4.trans e1.smooth, hun, fun e => ?_, fun x e hx => ⟨fun hfx hr => ?_, fun hno => ?_⟩⟩
        · rw [b5]
          by_cases hr : rsv s c e
          · rw [if_neg (fun h => (hnone e).1 h.2 hr), if_pos hr]
          · rw [if_pos ⟨mem_directions e, (hnone e).2 hr⟩, if_neg hr]
        · rw [(b6 x e hx).1 hfx (mem_directions _) ((hnone _).2 hr)]
          rcases e1.sides x e with g | ⟨b, b', g1, g2, -, -, g3⟩
          · rw [g]
          · rw [g1, g2]; simp [g3]
        · exact (b6 x e hx).2 (fun h => hno ⟨h.1, (hnone _).1 h.2.2⟩)
      · cases h

end Verif.Edpc
