import Verif.EdpcLemmas

/-!
# Marking one edge-disjoint route
-/

namespace Verif.Edpc

open Verif Apply Router.Spec DSlice

/-- The side is noted, with the type it had. -/
def Noted (s : DSlice) (x : Cell) (d : CellDirection) (t : BoundaryType) : Prop :=
  ((x, d) ∈ s.markedRough ∧ (x, d) ∉ s.markedSmooth ∧ t = .rough) ∨ ((x, d) ∈ s.markedSmooth ∧ (x, d) ∉ s.markedRough ∧ t = .smooth)

def Unnoted (s : DSlice) (x : Cell) (d : CellDirection) : Prop := (x, d) ∉ s.markedRough ∧ (x, d) ∉ s.markedSmooth

/-- Nothing is marked. -/
structure Bare (t : DSlice) : Prop where
  act : ∀ x p, t.cells x = some p → p.activity ≠ .edpc
  rough : t.markedRough = []
  smooth : t.markedSmooth = []
  crossing : t.crossing = []

/-- `s` is `t` with routes marked; `X` are edges and `P` sides still to be seen to. -/
structure Inv (t s : DSlice) (X : Cell → Cell → Prop) (P : Cell → CellDirection → Prop) : Prop where
  rows : s.rows = t.rows
  cols : s.cols = t.cols
  free : ∀ x p, t.cells x = none → s.cells x = some p → p.activity = .edpc ∧ p.id = none
  data : ∀ x q, t.cells x = some q → ∃ p, s.cells x = some p ∧ p.toPatch = q.toPatch
  kept : ∀ x q d, t.cells x = some q → ∃ b, side s x d = some b ∧ b.active = (q.bounds.get d).active ∧
    ((Noted s x d (q.bounds.get d).ty ∧ reservedType b.ty = true) ∨ (Unnoted s x d ∧ (b = q.bounds.get d ∨ P x d)))
  noted : ∀ x d, ¬ Unnoted s x d → t.cells x ≠ none
  cross : ∀ c ∈ s.crossing, t.cells c = none ∧ s.cells c ≠ none
  closed : ∀ c ∈ s.crossing, Closed s c
  edge : ∀ x n d, t.cells x = none → rsv s x d → Faces x n d → ¬ X x n → ty s n d.flip = ty s x d ∧ (t.cells n ≠ none → ¬ Unnoted s n d.flip)

theorem Inv.start {t : DSlice} (h : Bare t) : Inv t t (fun _ _ => False) (fun _ _ => False) := by
  have hu : ∀ x d, Unnoted t x d := fun x d => by unfold Unnoted; rw [h.rough, h.smooth]; simp
  refine ⟨rfl, rfl, fun x p a b => (by rw [a] at b; cases b), fun x q a => ⟨q, a, rfl⟩, fun x q d a => ⟨_, side_some a d, rfl, .inr ⟨hu x d, .inl rfl⟩⟩,
    fun x d a => absurd (hu x d) a, fun c hc => (by rw [h.crossing] at hc; cases hc), fun c hc => (by rw [h.crossing] at hc; cases hc),
    fun x n d hx hr => ?_⟩
  obtain ⟨p, hp⟩ := rsv_patch hr
  rw [hx] at hp; cases hp

theorem Inv.weaken {t s : DSlice} {X Y : Cell → Cell → Prop} {P Q : Cell → CellDirection → Prop} (h : Inv t s X P) (hX : ∀ x n, X x n → Y x n) (hP : ∀ x d, P x d → Q x d) : Inv t s Y Q :=
  ⟨h.rows, h.cols, h.free, h.data, fun x q d a => by
    obtain ⟨b, h1, h2, h3⟩ := h.kept x q d a
    exact ⟨b, h1, h2, h3.imp id (fun g => ⟨g.1, g.2.imp id (hP x d)⟩)⟩, h.noted, h.cross, h.closed,
    fun x n d a b c e => h.edge x n d a b c (fun g => e (hX x n g))⟩

/-- A side that carries no route is as it was. -/
theorem Inv.plain {t s : DSlice} {X : Cell → Cell → Prop} (h : Inv t s X (fun _ _ => False)) {x : Cell} {q : DensePatch} {d : CellDirection} (hq : t.cells x = some q)
    (hr : ¬ rsv s x d) : Unnoted s x d ∧ side s x d = some (q.bounds.get d) := by
  obtain ⟨b, h1, -, h3⟩ := h.kept x q d hq
  rcases h3 with ⟨-, h3⟩ | ⟨h3, h4⟩
  · exact absurd (by unfold rsv; rw [ty_side h1]; exact h3) hr
  · rcases h4 with rfl | h4
    · exact ⟨h3, h1⟩
    · exact absurd h4 id

/-- No side of a cell further on in the route carries a route towards the cell before it. -/
def Fresh (s : DSlice) : List Cell → Prop := Linked fun u v => ∀ d, Faces v u d → ¬ rsv s v d

theorem Fresh.step {s s' : DSlice} {c : Cell} (h : ∀ x e, x ≠ c → ¬ Faces x c e → rsv s' x e → rsv s x e) : ∀ {l : List Cell}, c ∉ l → Fresh s l → Fresh s' l
  | [], _, _ => trivial
  | [_], _, _ => trivial
  | u :: v :: l, hc, hf => by
    simp only [List.mem_cons, not_or] at hc
    refine ⟨fun d hd hr => hf.1 d hd (h v d (fun e => hc.2.1 e.symm) (fun g => hc.1 (faces_unique g hd)) hr), ?_⟩
    exact Fresh.step h (by simp only [List.mem_cons, not_or]; exact hc.2) hf.2

/-- The state before the cell `cur` is marked. -/
structure Stage (t s : DSlice) (a : Cell) (da : CellDirection) (prev cur : Cell) (rest : List Cell) (label : BoundaryType) : Prop where
  inv : Inv t s (fun x n => x = prev ∧ n = cur) (fun x d => x = a ∧ d = da)
  lab : reservedType label = true
  prev : ∀ d, Faces prev cur d → ty s prev d = label ∧ (t.cells prev ≠ none → ¬ Unnoted s prev d)
  fresh : Fresh s (cur :: rest)
  fin : Unnoted s a da

theorem rsv_of {s : DSlice} {x : Cell} {d : CellDirection} {l : BoundaryType} (h : ty s x d = l) (hl : reservedType l = true) : rsv s x d := by
  unfold rsv; rw [h]; exact hl

/-- A free cell of the route is filled. -/
theorem stage_place {t s : DSlice} {a : Cell} {da : CellDirection} {prev cur next : Cell} {rest : List Cell} {label : BoundaryType} {p : DensePatch}
    (h : Stage t s a da prev cur (next :: rest) label) (hcur : s.cells cur = none) (hpa : p.activity = .edpc) (hid : p.id = none)
    (hb : ∀ n d, Faces cur n d → (p.bounds.get d).ty = if n = prev ∨ n = next then label else .none) (hpc : Touching prev cur) (hcn : Touching cur next)
    (hno : cur ∉ next :: rest) (hpn : prev ≠ cur) : Stage t (s.put cur (some p)) a da cur next rest label := by
  have hi := h.inv
  have htc : t.cells cur = none := by
    cases hq : t.cells cur with
    | none => rfl
    | some q => obtain ⟨p', h1, -⟩ := hi.data cur q hq; rw [hcur] at h1; cases h1
  have hne : ∀ x, x ≠ cur → (s.put cur (some p)).cells x = s.cells x := fun x hx => by rw [put_cells, upd_other _ _ hx]
  have heq : (s.put cur (some p)).cells cur = some p := by rw [put_cells, upd_same]
  have hside : ∀ x e, x ≠ cur → side (s.put cur (some p)) x e = side s x e := fun x e hx => by unfold side; rw [hne x hx]
  have hty : ∀ x e, x ≠ cur → ty (s.put cur (some p)) x e = ty s x e := fun x e hx => by unfold ty; rw [hside x e hx]
  have hrs : ∀ x e, x ≠ cur → (rsv (s.put cur (some p)) x e ↔ rsv s x e) := fun x e hx => by unfold rsv; rw [hty x e hx]
  have hl0 : label ≠ .none := fun e => by have := h.lab; rw [e] at this; cases this
  have hcross : ∀ c ∈ s.crossing, c ≠ cur := fun c hc e => (hi.cross c hc).2 (e ▸ hcur)
  have hrc : ∀ n d, Faces cur n d → rsv (s.put cur (some p)) cur d → (n = prev ∨ n = next) ∧ ty (s.put cur (some p)) cur d = label := by
    intro n d hf hr
    have := hb n d hf
    rw [ty_some heq]
    unfold rsv at hr; rw [ty_some heq] at hr
    by_cases hn : n = prev ∨ n = next
    · rw [if_pos hn] at this; exact ⟨hn, this⟩
    · rw [if_neg hn] at this; rw [this] at hr; cases hr
  have hto : ∀ x d, Faces x cur d → rsv s x d → ¬ (x = prev) → t.cells x = none → False := by
    intro x d hf hr hx htx
    have := (hi.edge x cur d htx hr hf (fun g => hx g.1)).1
    obtain ⟨q, hq⟩ := rsv_patch (rsv_of (s := s) (x := cur) (d := d.flip) this hr)
    rw [hcur] at hq; cases hq
  refine ⟨⟨hi.rows, hi.cols, ?_, ?_, ?_, hi.noted, ?_, ?_, ?_⟩, h.lab, ?_, ?_, h.fin⟩
  · intro x p' hx hp'
    by_cases hxc : x = cur
    · subst hxc; rw [heq] at hp'; cases hp'; exact ⟨hpa, hid⟩
    · rw [hne x hxc] at hp'; exact hi.free x p' hx hp'
  · intro x q hq
    have hxc : x ≠ cur := fun e => by rw [e, htc] at hq; cases hq
    rw [hne x hxc]; exact hi.data x q hq
  · intro x q d hq
    have hxc : x ≠ cur := fun e => by rw [e, htc] at hq; cases hq
    rw [hside x d hxc]
    exact hi.kept x q d hq
  · intro c hc
    exact ⟨(hi.cross c hc).1, by rw [hne c (hcross c hc)]; exact (hi.cross c hc).2⟩
  · intro c hc n d hf hr
    have hcc := hcross c hc
    rw [hrs c d hcc] at hr
    by_cases hn : n = cur
    · subst hn
      right
      by_cases hcp : c = prev
      · subst hcp
        rw [hty _ _ hcc, (h.prev d hf).1, ty_some heq, hb _ _ (faces_back hf), if_pos (.inl rfl)]
      · exact absurd (hto c d hf hr hcp (hi.cross c hc).1) id
    · rw [hne n hn, hty _ _ hn, hty _ _ hcc]
      exact hi.closed c hc n d hf hr
  · intro x n d hx hr hf hX
    by_cases hxc : x = cur
    · subst hxc
      obtain ⟨g1, g2⟩ := hrc n d hf hr
      rcases g1 with rfl | rfl
      · rw [g2, hty _ _ hpn]
        exact ⟨(h.prev _ (faces_back hf)).1, (h.prev _ (faces_back hf)).2⟩
      · exact absurd ⟨rfl, rfl⟩ hX
    · rw [hrs x d hxc] at hr
      rw [hty _ _ hxc]
      by_cases hn : n = cur
      · subst hn
        by_cases hxp : x = prev
        · subst hxp
          refine ⟨?_, fun g => absurd htc g⟩
          rw [ty_some heq, hb _ _ (faces_back hf), if_pos (.inl rfl)]
          exact (h.prev d hf).1.symm
        · exact absurd (hto x d hf hr hxp hx) id
      · rw [hty _ _ hn]
        exact hi.edge x n d hx hr hf (fun g => hn g.2)
  · intro d hf
    exact ⟨by rw [ty_some heq, hb _ _ hf, if_pos (.inr rfl)], fun g => absurd htc g⟩
  · exact Fresh.step (c := cur) (fun x e hx _ hr => (hrs x e hx).1 hr) hno h.fresh.2

/-- A marked cell of the route is crossed. -/
theorem stage_cross {t s s' : DSlice} {L : Layout} {asserts : Bool} {a : Cell} {da : CellDirection} {prev cur next : Cell} {rest : List Cell} {label label' : BoundaryType}
    (ht : Bare t) (h : Stage t s a da prev cur (next :: rest) label) (htc : t.cells cur = none) (hsc : s.cells cur ≠ none)
    (hpc : Touching prev cur) (hcn : Touching cur next)
    (hno : cur ∉ next :: rest) (hpn : prev ≠ next) (hlast : t.cells next ≠ none → next = a ∧ Faces a cur da)
    (hm : markCrossing L asserts { s with crossing := s.crossing ++ [cur] } cur prev = .ok (s', label')) : Stage t s' a da cur next rest label' := by
  have hi := h.inv
  obtain ⟨dn, hdn⟩ := hcn
  obtain ⟨dp', hdp'⟩ := hpc
  have hdp := faces_back hdp'
  have hpcne : prev ≠ cur := faces_ne hdp'
  have hedge : ∀ n d, Faces cur n d → rsv s cur d → ty s n d.flip = ty s cur d ∧ (t.cells n ≠ none → ¬ Unnoted s n d.flip) := fun n d hf hr =>
    hi.edge cur n d htc hr hf (fun g => hpcne g.1.symm)
  have hfr : ¬ rsv s cur dn := by
    intro hr
    exact h.fresh.1 dn.flip (faces_back hdn) (rsv_of (hedge next dn hdn hr).1 hr)
  have hne : dp'.flip ≠ dn := by
    rintro rfl
    exact hpn (faces_unique hdp hdn)
  have hcl : ∀ x ∈ s.crossing ++ [cur], Closed { s with crossing := s.crossing ++ [cur] } x := by
    intro x hx n d hf hr
    rcases List.mem_append.1 hx with hx | hx
    · exact hi.closed x hx n d hf hr
    · rw [List.mem_singleton] at hx; subst hx
      exact .inr (hedge n d hf hr).1
  obtain ⟨s1, e1, hl, hcore, hcr, hro, hsm, hun, hcs, hos⟩ := markCrossing_sides (s := { s with crossing := s.crossing ++ [cur] }) (dp := dp'.flip) (dn := dn) hcl (List.mem_append_right _ (List.mem_singleton_self _)) hdp hne hfr hm
  change (∀ e, ¬ rsv s cur e → e = dp'.flip ∨ e = dn) at hun
  change (∀ e, side s' cur e = if rsv s cur e then side s1 cur e else some ⟨label', true⟩) at hcs
  change (∀ x e, x ≠ cur → (Faces x cur e → ¬ rsv s cur e.flip → side s' x e = (side s x e).map fun b => { b with ty := label' }) ∧
        (¬ (Faces x cur e ∧ ¬ rsv s cur e.flip) → side s' x e = side s1 x e)) at hos
  have hrv1 : ∀ x e, rsv s1 x e ↔ rsv s x e := e1.rsv_iff
  have hed1 : ∀ x n e, Faces x n e → rsv s x e → ty s n e.flip = ty s x e → ty s1 n e.flip = ty s1 x e := e1.edge
  -- the edges of the new route
  have hnew : ∀ x e, Faces x cur e → ¬ rsv s cur e.flip → x = prev ∨ x = next := by
    intro x e hf hr
    rcases hun _ hr with g | g
    · exact .inl (faces_unique (faces_back hf) (g ▸ hdp))
    · exact .inr (faces_unique (faces_back hf) (g ▸ hdn))
  have hnone : ∀ x, s'.cells x = none ↔ s.cells x = none := fun x => hcore.none_iff x
  have htyc : ∀ e, ty s' cur e = if rsv s cur e then ty s1 cur e else label' := by
    intro e
    unfold ty
    rw [hcs e]
    split <;> simp
  have hrvc : ∀ e, rsv s' cur e := by
    intro e
    unfold rsv
    rw [htyc e]
    split
    · rename_i g; exact (hrv1 cur e).2 g
    · exact hl
  have htyo : ∀ x e, x ≠ cur → ¬ (Faces x cur e ∧ ¬ rsv s cur e.flip) → ty s' x e = ty s1 x e := by
    intro x e hx hno
    unfold ty
    rw [(hos x e hx).2 hno]
  have htyn : ∀ x e, x ≠ cur → Faces x cur e → ¬ rsv s cur e.flip → s.cells x ≠ none → ty s' x e = label' := by
    intro x e hx hf hr hxn
    obtain ⟨q, hq⟩ := Option.ne_none_iff_exists'.1 hxn
    unfold ty
    rw [(hos x e hx).1 hf hr, side_some hq]
    rfl
  -- sides of `cur` agree with the neighbours
  have hclc : ∀ n d, Faces cur n d → s.cells n ≠ none → ty s' n d.flip = ty s' cur d := by
    intro n d hf hn
    have hnc : n ≠ cur := fun e => faces_ne hf e.symm
    by_cases hr : rsv s cur d
    · rw [htyc, if_pos hr, htyo n d.flip hnc (fun g => g.2 (by rw [flip_flip]; exact hr))]
      exact hed1 cur n d hf hr (hedge n d hf hr).1
    · rw [htyc, if_neg hr, htyn n d.flip hnc (faces_back hf) (by rw [flip_flip]; exact hr) hn]
  have hprevP : s.cells prev ≠ none := by
    obtain ⟨q, hq⟩ := rsv_patch (rsv_of (h.prev dp' hdp').1 h.lab)
    simp [hq]
  refine ⟨⟨hcore.rows.trans hi.rows, hcore.cols.trans hi.cols, ?_, ?_, ?_, ?_, ?_, ?_, ?_⟩, hl, ?_, ?_, ?_⟩
  · intro x p hx hp
    obtain ⟨p0, g1, g2⟩ := hcore.get' hp
    have := hi.free x p0 hx g1
    rw [g2]; exact this
  · intro x q hq
    obtain ⟨p0, g1, g2⟩ := hi.data x q hq
    obtain ⟨p, g3, g4⟩ := hcore.get g1
    exact ⟨p, g3, g4.trans g2⟩
  · intro x q d hq
    have hxc : x ≠ cur := fun e => by rw [e, htc] at hq; cases hq
    obtain ⟨b, g1, g2, g3⟩ := hi.kept x q d hq
    have hnu : Noted s' x d (q.bounds.get d).ty = Noted s x d (q.bounds.get d).ty := by unfold Noted; rw [hro, hsm]
    have huu : Unnoted s' x d = Unnoted s x d := by unfold Unnoted; rw [hro, hsm]
    rw [hnu, huu]
    by_cases hf : Faces x cur d ∧ ¬ rsv s cur d.flip
    · rw [(hos x d hxc).1 hf.1 hf.2, g1]
      refine ⟨_, rfl, g2, ?_⟩
      rcases hnew x d hf.1 hf.2 with hxe | hxe
      · have hnt := (h.prev d (hxe ▸ hf.1)).2 (by rw [← hxe, hq]; simp)
        rw [← hxe] at hnt
        exact .inl ⟨(g3.resolve_right (fun g => hnt g.1)).1, hl⟩
      · have hxa := hlast (by rw [← hxe, hq]; simp)
        have hda : d = da := faces_dir hf.1 (by rw [hxe, hxa.1]; exact hxa.2)
        have hx : x = a := hxe.trans hxa.1
        refine .inr ⟨?_, .inr ⟨hx, hda⟩⟩
        rw [hx, hda]; exact h.fin
    · rw [(hos x d hxc).2 hf]
      rcases e1.sides x d with g | ⟨b1, b2, k1, k2, k3, k4, k5⟩
      · change side s1 x d = side s x d at g
        rw [g]; exact ⟨b, g1, g2, g3⟩
      · change side s x d = some b1 at k1
        rw [g1] at k1; cases k1
        refine ⟨b2, k2, k5.trans g2, ?_⟩
        rcases g3 with g3 | ⟨g3, g4⟩
        · exact .inl ⟨g3.1, k4⟩
        · rcases g4 with rfl | g4
          · by_cases hch : side s1 x d = side s x d
            · rw [k2, g1] at hch
              exact .inr ⟨g3, .inl (Option.some.inj hch)⟩
            · obtain ⟨c', m1, m2⟩ := e1.near x d hch
              have htc' : t.cells c' = none := by
                rcases List.mem_append.1 m1 with m1 | m1
                · exact (hi.cross c' m1).1
                · rw [List.mem_singleton] at m1; rw [m1]; exact htc
              rcases m2 with rfl | ⟨m2, m3⟩
              · rw [hq] at htc'; cases htc'
              · have := (hi.edge c' x d.flip htc' m3 (faces_back m2) (fun g => hxc g.2)).2 (by rw [hq]; simp)
                rw [flip_flip] at this
                exact absurd g3 this
          · exact .inr ⟨g3, .inr g4⟩
  · intro x d hx
    exact hi.noted x d (fun g => hx (by unfold Unnoted at g ⊢; rw [hro, hsm]; exact g))
  · intro c hc
    rw [hcr] at hc
    rcases List.mem_append.1 hc with hc | hc
    · exact ⟨(hi.cross c hc).1, fun g => (hi.cross c hc).2 ((hnone c).1 g)⟩
    · rw [List.mem_singleton] at hc; subst hc
      exact ⟨htc, fun g => hsc ((hnone _).1 g)⟩
  · intro c hc n d hf hr
    rw [hcr] at hc
    by_cases hcc : c = cur
    · subst hcc
      by_cases hn : s.cells n = none
      · exact .inl ((hnone n).2 hn)
      · exact .inr (hclc n d hf hn)
    · replace hc : c ∈ s.crossing := (List.mem_append.1 hc).resolve_right (fun g => hcc (List.mem_singleton.1 g))
      by_cases hn : n = cur
      · subst hn
        right
        have := hclc c d.flip (faces_back hf) (hi.cross c hc).2
        rw [flip_flip] at this
        exact this.symm
      · by_cases hnn : s.cells n = none
        · exact .inl ((hnone n).2 hnn)
        · have h1 : ty s' c d = ty s1 c d := htyo c d hcc (fun g => hn (faces_unique hf g.1))
          have h2 : ty s' n d.flip = ty s1 n d.flip := htyo n d.flip hn (fun g => hcc (faces_unique (faces_back hf) g.1))
          have hr' : rsv s c d := by rw [← hrv1]; unfold rsv at hr ⊢; rw [← h1]; exact hr
          rcases hi.closed c hc n d hf hr' with g | g
          · exact absurd g hnn
          · right; rw [h1, h2]; exact hed1 c n d hf hr' g
  · intro x n d hx hr hf hX
    have huu : ∀ y e, Unnoted s' y e = Unnoted s y e := fun y e => by unfold Unnoted; rw [hro, hsm]
    rw [huu]
    by_cases hxc : x = cur
    · subst hxc
      by_cases hr0 : rsv s x d
      · obtain ⟨g1, g2⟩ := hedge n d hf hr0
        have : s.cells n ≠ none := by obtain ⟨q, hq⟩ := rsv_patch (rsv_of (s := s) g1 hr0); simp [hq]
        exact ⟨hclc n d hf this, g2⟩
      · have hnp : n = prev := by
          rcases hnew n d.flip (faces_back hf) (by rw [flip_flip]; exact hr0) with g | g
          · exact g
          · exact absurd ⟨rfl, g⟩ hX
        subst hnp
        exact ⟨hclc n d hf hprevP, (h.prev _ (faces_back hf)).2⟩
    · by_cases hn : n = cur
      · subst hn
        refine ⟨?_, fun g => absurd htc g⟩
        have hxp : s.cells x ≠ none := by
          obtain ⟨q, hq⟩ := rsv_patch hr
          intro g; rw [(hnone x).2 g] at hq; cases hq
        have := hclc x d.flip (faces_back hf) hxp
        rw [flip_flip] at this
        exact this.symm
      · have h1 : ty s' x d = ty s1 x d := htyo x d hxc (fun g => hn (faces_unique hf g.1))
        have h2 : ty s' n d.flip = ty s1 n d.flip := htyo n d.flip hn (fun g => hxc (faces_unique (faces_back hf) g.1))
        have hr' : rsv s x d := by rw [← hrv1]; unfold rsv at hr ⊢; rw [← h1]; exact hr
        obtain ⟨g1, g2⟩ := hi.edge x n d hx hr' hf (fun g => hn g.2)
        exact ⟨by rw [h1, h2]; exact hed1 x n d hf hr' g1, g2⟩
  · intro d hf
    have : d = dn := faces_dir hf hdn
    subst this
    exact ⟨by rw [htyc, if_neg hfr], fun g => absurd htc g⟩
  · refine Fresh.step (c := cur) (fun x e hx hnf hr => ?_) hno h.fresh.2
    rw [← hrv1]
    unfold rsv at hr ⊢
    rw [← htyo x e hx (fun g => hnf g.1)]
    exact hr
  · have := h.fin
    unfold Unnoted at this ⊢
    rw [hro, hsm]; exact this

/-- An end of the route is marked and noted. -/
theorem inv_end {t s s' : DSlice} {X : Cell → Cell → Prop} {P : Cell → CellDirection → Prop} {c y : Cell} {d : CellDirection} {q : DensePatch} {label : BoundaryType} (r : Bool)
    (hi : Inv t s X P) (hq : t.cells c = some q) (hf : Faces c y d) (hu : Unnoted s c d) (hl : reservedType label = true)
    (hX : ∀ x n, X x n → x = y ∧ n = c) (hP : ∀ x e, P x e → x = c ∧ e = d) (hy : t.cells y = none → rsv s y d.flip → ty s y d.flip = label)
    (hr : (q.bounds.get d).ty = if r then .rough else .smooth) (h1 : s'.cells = (s.setSide c d fun x => { x with ty := label }).cells)
    (h2 : s'.markedRough = s.markedRough ++ if r then [(c, d)] else []) (h3 : s'.markedSmooth = s.markedSmooth ++ if r then [] else [(c, d)])
    (h4 : s'.crossing = s.crossing) (h5 : s'.rows = s.rows) (h6 : s'.cols = s.cols) : Inv t s' (fun _ _ => False) (fun _ _ => False) := by
  have hside : ∀ x e, side s' x e = if x = c ∧ e = d then (side s x e).map (fun x => { x with ty := label }) else side s x e := by
    intro x e
    rw [← side_setSide]
    unfold side
    rw [h1]
  have hcore : ∀ x, s'.core x = s.core x := fun x => by
    unfold DSlice.core; rw [h1]; exact (setSide_same s c d _).core x
  have hnone : ∀ x, s'.cells x = none ↔ s.cells x = none := fun x => by rw [← core_eq_none, ← core_eq_none, hcore]
  obtain ⟨pc, hpc, -⟩ := hi.data c q hq
  have hty : ∀ x e, ty s' x e = if x = c ∧ e = d then label else ty s x e := by
    intro x e
    unfold ty
    rw [hside]
    split
    · rename_i g; rw [g.1, side_some hpc]; rfl
    · rfl
  have hun : ∀ x e, Unnoted s' x e ↔ Unnoted s x e ∧ ¬ (x = c ∧ e = d) := by
    intro x e
    unfold Unnoted
    rw [h2, h3]
    cases r <;> simp <;> tauto
  have hto : ∀ x e, t.cells x = none → Faces x c e → e.flip = d → rsv s x e → ty s x e = label := by
    intro x e hx hfx he hrx
    have : x = y := faces_unique (faces_back hfx) (he ▸ hf)
    subst this
    have he' : d.flip = e := by rw [← he, flip_flip]
    have := hy hx (he' ▸ hrx)
    rw [he'] at this; exact this
  have hnc : ∀ x, t.cells x = none → x ≠ c := fun x hx e => by rw [e, hq] at hx; cases hx
  refine ⟨h5.trans hi.rows, h6.trans hi.cols, ?_, ?_, ?_, ?_, ?_, ?_, ?_⟩
  · intro x p hx hp
    have := hcore x
    unfold DSlice.core at this
    rw [hp] at this
    cases hp0 : s.cells x with
    | none => rw [hp0] at this; cases this
    | some p0 =>
      rw [hp0] at this
      have h7 : p.toPatch = p0.toPatch := Option.some.inj this
      rw [h7]; exact hi.free x p0 hx hp0
  · intro x q' hq'
    obtain ⟨p0, g1, g2⟩ := hi.data x q' hq'
    have := hcore x
    unfold DSlice.core at this
    rw [g1] at this
    cases hp : s'.cells x with
    | none => rw [hp] at this; cases this
    | some p => rw [hp] at this; exact ⟨p, rfl, (Option.some.inj this).trans g2⟩
  · intro x q' e hq'
    obtain ⟨b, g1, g2, g3⟩ := hi.kept x q' e hq'
    by_cases hxe : x = c ∧ e = d
    · rw [hside, if_pos hxe, g1]
      refine ⟨_, rfl, g2, .inl ⟨?_, hl⟩⟩
      obtain ⟨rfl, rfl⟩ := hxe
      rw [hq] at hq'; cases hq'
      unfold Noted
      rw [h2, h3, hr]
      unfold Unnoted at hu
      cases r <;> simp [hu]
    · rw [hside, if_neg hxe]
      refine ⟨b, g1, g2, ?_⟩
      rcases g3 with ⟨g3, g4⟩ | ⟨g3, g4⟩
      · refine .inl ⟨?_, g4⟩
        unfold Noted at g3 ⊢
        rw [h2, h3]
        cases r <;> simp [hxe] <;> exact g3
      · exact .inr ⟨(hun x e).2 ⟨g3, hxe⟩, g4.imp id (fun g => absurd (hP x e g) hxe)⟩
  · intro x e hx
    by_cases hxe : x = c ∧ e = d
    · rw [hxe.1, hq]; simp
    · exact hi.noted x e (fun g => hx ((hun x e).2 ⟨g, hxe⟩))
  · intro x hx
    rw [h4] at hx
    exact ⟨(hi.cross x hx).1, fun g => (hi.cross x hx).2 ((hnone x).1 g)⟩
  · intro x hx n e hfx hrx
    rw [h4] at hx
    have htx := (hi.cross x hx).1
    have hxc := hnc x htx
    have hx0 : ty s' x e = ty s x e := by rw [hty, if_neg (fun g => hxc g.1)]
    have hrx' : rsv s x e := by unfold rsv at hrx ⊢; rw [← hx0]; exact hrx
    rw [hx0, hnone, hty]
    by_cases hn : n = c ∧ e.flip = d
    · rw [if_pos hn]
      exact .inr (hto x e htx (hn.1 ▸ hfx) hn.2 hrx').symm
    · rw [if_neg hn]
      exact hi.closed x hx n e hfx hrx'
  · intro x n e htx hrx hfx _
    have hxc := hnc x htx
    have hx0 : ty s' x e = ty s x e := by rw [hty, if_neg (fun g => hxc g.1)]
    have hrx' : rsv s x e := by unfold rsv at hrx ⊢; rw [← hx0]; exact hrx
    rw [hx0, hty, hun]
    by_cases hn : n = c ∧ e.flip = d
    · rw [if_pos hn]
      exact ⟨(hto x e htx (hn.1 ▸ hfx) hn.2 hrx').symm, fun _ g => g.2 hn⟩
    · rw [if_neg hn]
      have : ¬ X x n := by
        intro g
        obtain ⟨rfl, rfl⟩ := hX x n g
        exact hn ⟨rfl, faces_dir (faces_back hfx) hf⟩
      obtain ⟨g1, g2⟩ := hi.edge x n e htx hrx' hfx this
      exact ⟨g1, fun g k => g2 g k.1⟩

theorem markEnd_first {s s' : DSlice} {c y : Cell} {cells : List Cell} {d : CellDirection} {label : BoundaryType} (hf : Faces c y d)
    (h : markEnd s (c :: y :: cells) 0 c label = .ok s') :
    s' = { s.setSide c d (fun x => { x with ty := label }) with markedRough := s.markedRough ++ [(c, d)] } := by
  unfold markEnd at h
  rw [if_pos rfl] at h
  simp only [List.getElem?_cons_succ, List.getElem?_cons_zero] at h
  obtain ⟨o, h1, h⟩ := Outcome.bind_eq_ok.1 h
  unfold sideBetween at h1
  obtain ⟨p, -, h1⟩ := Outcome.bind_eq_ok.1 h1
  cases p with
  | none => cases h1; cases h
  | some p => rw [Router.sideTowards_iff.2 hf] at h1; cases h1; cases h; rfl

theorem markEnd_last {s s' : DSlice} {c y : Cell} {pre : List Cell} {d : CellDirection} {label : BoundaryType} (hf : Faces c y d)
    (h : markEnd s (pre ++ [y, c]) (pre.length + 1) c label = .ok s') :
    s' = { s.setSide c d (fun x => { x with ty := label }) with markedSmooth := s.markedSmooth ++ [(c, d)] } := by
  unfold markEnd at h
  have e1 : (pre ++ [y, c]).length = pre.length + 2 := by simp
  have e2 : (pre ++ [y, c])[pre.length]? = some y := by simp
  rw [if_neg (by omega), e1, if_pos (by omega), show pre.length + 2 - 2 = pre.length by omega, e2] at h
  simp only at h
  obtain ⟨o, h1, h⟩ := Outcome.bind_eq_ok.1 h
  unfold sideBetween at h1
  obtain ⟨p, -, h1⟩ := Outcome.bind_eq_ok.1 h1
  cases p with
  | none => cases h1; cases h
  | some p => rw [Router.sideTowards_iff.2 hf] at h1; cases h1; cases h; rfl

theorem setSide_fields (s : DSlice) (c : Cell) (d : CellDirection) (f : Boundary → Boundary) :
    (s.setSide c d f).crossing = s.crossing ∧ (s.setSide c d f).markedRough = s.markedRough ∧ (s.setSide c d f).markedSmooth = s.markedSmooth ∧
      (s.setSide c d f).rows = s.rows ∧ (s.setSide c d f).cols = s.cols := by
  unfold setSide; split <;> exact ⟨rfl, rfl, rfl, rfl, rfl⟩

theorem relabel_ty {label : BoundaryType} {b : CellBoundaries} {d : CellDirection} : ((relabel label b).get d).ty = if (b.get d).ty = .none then .none else label := by
  have key : ∀ x : Boundary, (if x.ty ≠ .none ∧ x.ty ≠ label then { x with ty := label } else x : Boundary).ty = if x.ty = .none then .none else label := by
    intro x
    by_cases h1 : x.ty = .none
    · rw [if_neg (fun g => g.1 h1), if_pos h1, h1]
    · rw [if_neg h1]
      by_cases h2 : x.ty = label
      · rw [if_neg (fun g => g.2 h2), h2]
      · rw [if_pos ⟨h1, h2⟩]
  cases d <;> exact key _

/-- A statement on the cells marked so far, the current label and the slice, kept while a route is marked. -/
structure Follows (t : DSlice) (L : Layout) (asserts : Bool) (K : List Cell → BoundaryType → DSlice → Prop) : Prop where
  first : ∀ {s s' : DSlice} {b y : Cell} {d : CellDirection}, Inv t s (fun _ _ => False) (fun _ _ => False) → t.cells b ≠ none → Faces b y d → t.cells y = none →
    (∀ x e, side s' x e = if x = b ∧ e = d then (side s x e).map (fun z => { z with ty := .reserved1 }) else side s x e) → (∀ x, s'.cells x = none ↔ s.cells x = none) →
    s'.crossing = s.crossing → K [] .reserved1 s → K [b] .reserved1 s'
  place : ∀ {s : DSlice} {a : Cell} {da : CellDirection} {pre : List Cell} {prev cur next : Cell} {rest : List Cell} {label : BoundaryType} {p : DensePatch},
    Stage t s a da prev cur (next :: rest) label → t.cells cur = none → s.cells cur = none →
    (∀ n d, Faces cur n d → (p.bounds.get d).ty = if n = prev ∨ n = next then label else .none) → Touching prev cur → cur ∉ pre ++ [prev] → prev ≠ next →
    K (pre ++ [prev]) label s → K (pre ++ [prev, cur]) label (s.put cur (some p))
  cross : ∀ {s s' : DSlice} {a : Cell} {da : CellDirection} {pre : List Cell} {prev cur next : Cell} {rest : List Cell} {label label' : BoundaryType},
    Stage t s a da prev cur (next :: rest) label → Stage t s' a da cur next rest label' → t.cells cur = none → s.cells cur ≠ none → cur ∉ s.crossing →
    Touching prev cur → Touching cur next → cur ∉ pre ++ [prev] → prev ≠ next →
    markCrossing L asserts { s with crossing := s.crossing ++ [cur] } cur prev = .ok (s', label') → K (pre ++ [prev]) label s → K (pre ++ [prev, cur]) label' s'
  last : ∀ {s s' : DSlice} {a : Cell} {da : CellDirection} {pre : List Cell} {prev : Cell} {label : BoundaryType}, Stage t s a da prev a [] label → t.cells a ≠ none → Faces a prev da →
    (∀ x e, side s' x e = if x = a ∧ e = da then (side s x e).map (fun z => { z with ty := label }) else side s x e) → (∀ x, s'.cells x = none ↔ s.cells x = none) →
    s'.crossing = s.crossing → K (pre ++ [prev]) label s → K (pre ++ [prev, a]) label s'

/-- The rest of a route is marked. -/
theorem go_rest {t : DSlice} {L : Layout} {asserts : Bool} {K : List Cell → BoundaryType → DSlice → Prop} (hK : Follows t L asserts K) {rid : Option Nat} {a : Cell} {da : CellDirection}
    {qa : DensePatch} (ht : Bare t) (hqa : t.cells a = some qa)
    (hsm : (qa.bounds.get da).ty = .smooth) : ∀ (os : List OccCell) (pre : List Cell) (prev : Cell) (s : DSlice) (label : BoundaryType) {x : DSlice × List OccCell},
    (∀ cur rest, os.map (·.cell) ++ [a] = cur :: rest → Stage t s a da prev cur rest label) →
    Marked ⟨.reserved1, true⟩ prev os a → Linked Touching (prev :: (os.map (·.cell) ++ [a])) → (os.map (·.cell) ++ [a]).Nodup → prev ∉ os.map (·.cell) →
    (prev = a → 2 ≤ os.length) → (∀ o ∈ os, t.cells o.cell = none) → (∀ y, (prev :: os.map (·.cell)).getLast? = some y → Faces a y da) →
    markGo L asserts .edpc rid (pre ++ prev :: (os.map (·.cell) ++ [a])) (os ++ [bareCell a]) (pre.length + 1) s label = .ok x →
    K (pre ++ [prev]) label s → (∀ o ∈ os, o.cell ∉ pre) →
    Inv t x.1 (fun _ _ => False) (fun _ _ => False) ∧ ∃ l, K (pre ++ prev :: (os.map (·.cell) ++ [a])) l x.1
  | [], pre, prev, s, label, x, hst, _, _, _, _, _, _, hda, h, hk, _ => by
    have hS := hst a [] rfl
    have hi := hS.inv
    have hfa := hda prev rfl
    simp only [List.map_nil, List.nil_append] at h
    rw [markGo] at h
    obtain ⟨r, h1, h⟩ := Outcome.bind_eq_ok.1 h
    rw [markGo] at h
    cases h
    unfold markOne at h1
    obtain ⟨p, h2, h1⟩ := Outcome.bind_eq_ok.1 h1
    obtain ⟨p0, g1, g2⟩ := hi.data a qa hqa
    obtain ⟨-, h2⟩ := patchAt_ok h2
    change s.cells a = p at h2
    rw [g1] at h2; subst h2
    have hne : p0.activity ≠ .edpc := by
      have : p0.activity = qa.activity := congrArg Patch.activity g2
      rw [this]; exact ht.act a qa hqa
    dsimp only at h1
    rw [if_pos rfl, if_neg hne] at h1
    obtain ⟨s1, h3, h1⟩ := Outcome.bind_eq_ok.1 h1
    cases h1
    rw [show pre ++ prev :: [a] = pre ++ [prev, a] from rfl] at h3
    have hs1 := markEnd_last (c := a) hfa h3
    refine ⟨?_, label, hK.last hS (by rw [hqa]; simp) hfa ?_ ?_ ?_ hk⟩
    rotate_left
    · intro x e; rw [← side_setSide]; unfold side; rw [hs1]
    · intro x; rw [hs1]; exact (setSide_same s a da _).none_iff x
    · rw [hs1]; exact (setSide_fields s a da (fun x => { x with ty := label })).1
    rw [hs1]
    obtain ⟨f1, f2, f3, f4, f5⟩ := setSide_fields s a da (fun x => { x with ty := label })
    refine inv_end (d := da) (y := prev) (label := label) false hi hqa hfa hS.fin hS.lab (fun _ _ g => g) (fun _ _ g => g) ?_ hsm rfl (by simpa using f2) (by simp) f1 f4 f5
    intro _ _
    exact (hS.prev da.flip (faces_back hfa)).1
  | o :: os, pre, prev, s, label, x, hst, hmk, hlk, hnd, hpm, hpa, hfree, hda, h, hk, hpre => by
    obtain ⟨next, rest, hnr⟩ : ∃ next rest, os.map (·.cell) ++ [a] = next :: rest := by cases os <;> exact ⟨_, _, rfl⟩
    have hcons : (o :: os).map (·.cell) ++ [a] = o.cell :: next :: rest := by rw [List.map_cons, List.cons_append, hnr]
    have hS := hst o.cell (next :: rest) hcons
    rw [hcons] at hlk hnd
    obtain ⟨ht1, ht2, hlk'⟩ := hlk
    have hcr := (List.nodup_cons.1 hnd)
    have hpo : prev ≠ o.cell := fun e => hpm (by simp [e])
    have htc : t.cells o.cell = none := hfree o (List.mem_cons_self ..)
    have hpnext : prev ≠ next := by
      rintro rfl
      cases os with
      | nil => cases hnr; have := hpa rfl; simp at this
      | cons o' os' => cases hnr; exact hpm (by simp)
    have hnextb : next = nextCell a os := by cases os <;> (cases hnr; rfl)
    rw [List.cons_append, markGo] at h
    obtain ⟨r, h1, h⟩ := Outcome.bind_eq_ok.1 h
    obtain ⟨rest', h4, h⟩ := Outcome.bind_eq_ok.1 h
    cases h
    have hlastf : ∀ y, (o.cell :: os.map (·.cell)).getLast? = some y → Faces a y da := by
      intro y hy
      apply hda y
      rw [List.map_cons, List.getLast?_cons_cons]; exact hy
    have hnew : o.cell ∉ pre ++ [prev] := by
      simp only [List.mem_append, List.mem_singleton, not_or]
      exact ⟨hpre o (List.mem_cons_self ..), fun e => hpo e.symm⟩
    have key : Stage t r.1 a da o.cell next rest r.2.1 ∧ K (pre ++ [prev, o.cell]) r.2.1 r.1 := by
      unfold markOne at h1
      obtain ⟨p, h2, h1⟩ := Outcome.bind_eq_ok.1 h1
      obtain ⟨-, h2⟩ := patchAt_ok h2
      cases p with
      | none =>
        dsimp only at h1
        obtain ⟨s1, h3, h1⟩ := Outcome.bind_eq_ok.1 h1
        cases h1
        rw [if_pos rfl] at h3
        unfold DSlice.place at h3
        obtain ⟨z, h5, h3⟩ := Outcome.bind_eq_ok.1 h3
        cases h3
        obtain ⟨-, -, rfl⟩ := placeSingle_ok rfl h5
        have hbd : ∀ n d, Faces o.cell n d → ((relabel label o.bounds).get d).ty = if n = prev ∨ n = next then label else .none := by
          intro n d hf
          rw [relabel_ty, hmk.1 n d hf, ← hnextb]
          by_cases hn : n = prev ∨ n = next
          · rw [if_pos hn, if_pos hn]; rfl
          · rw [if_neg hn, if_neg hn]; rfl
        exact ⟨stage_place hS h2 rfl rfl hbd ht1 ht2 hcr.1 hpo, hK.place hS htc h2 hbd ht1 hnew hpnext hk⟩
      | some p =>
        have hact := (hS.inv.free o.cell p htc h2).1
        dsimp only at h1
        rw [if_pos rfl, if_pos hact] at h1
        split at h1
        · cases h1
        · rename_i hnc
          rw [if_neg (by omega), show pre.length + 1 - 1 = pre.length by omega] at h1
          have hg : (pre ++ prev :: ((o :: os).map (·.cell) ++ [a]))[pre.length]? = some prev := by simp
          rw [hg] at h1
          dsimp only at h1
          obtain ⟨z, h3, h1⟩ := Outcome.bind_eq_ok.1 h1
          cases h1
          have hst' : Stage t z.1 a da o.cell next rest z.2 := by
            refine stage_cross ht hS htc (by rw [h2]; simp) ht1 ht2 hcr.1 hpnext ?_ h3
            intro hn
            cases os with
            | nil => cases hnr; exact ⟨rfl, hlastf _ rfl⟩
            | cons o' os' => cases hnr; exact absurd (hfree o' (by simp)) hn
          exact ⟨hst', hK.cross hS hst' htc (by rw [h2]; simp) hnc ht1 ht2 hnew hpnext h3 hk⟩
    have e1 : pre ++ prev :: ((o :: os).map (·.cell) ++ [a]) = (pre ++ [prev]) ++ o.cell :: (os.map (·.cell) ++ [a]) := by simp
    rw [e1]
    refine go_rest hK (rid := rid) ht hqa hsm os (pre ++ [prev]) o.cell r.1 r.2.1 ?_ hmk.2 ?_ ?_ ?_ ?_ ?_ hlastf (x := rest') ?_ ?_ ?_
    · intro cur rst hcur
      rw [hnr] at hcur; cases hcur; exact key.1
    · rw [hnr]; exact ⟨ht2, hlk'⟩
    · rw [hnr]; exact hcr.2
    · intro g
      exact hcr.1 (hnr ▸ List.mem_append_left _ g)
    · intro e
      exact absurd (hnr ▸ List.mem_append_right _ (by simp [e])) hcr.1
    · exact fun o' ho' => hfree o' (List.mem_cons_of_mem _ ho')
    · rw [← e1]
      simpa using h4
    · have := key.2
      simpa using this
    · intro o' ho'
      simp only [List.mem_append, List.mem_singleton, not_or]
      exact ⟨hpre o' (List.mem_cons_of_mem _ ho'), fun e => hpm (by simp only [List.map_cons, List.mem_cons, List.mem_map]; exact .inr ⟨o', ho', e⟩)⟩

theorem linked_snoc {α : Type} {R : α → α → Prop} {a : α} : ∀ {l : List α}, Linked R l → (∀ y, l.getLast? = some y → R y a) → Linked R (l ++ [a])
  | [], _, _ => trivial
  | [_], _, h => ⟨h _ rfl, trivial⟩
  | x :: y :: l, h, h' => ⟨h.1, linked_snoc (l := y :: l) h.2 (fun z hz => h' z (by rw [List.getLast?_cons_cons]; exact hz))⟩

theorem linked_mem {α : Type} {R S : α → α → Prop} : ∀ {l : List α}, (∀ u v, v ∈ l → R u v → S u v) → Linked R l → Linked S l
  | [], _, _ => trivial
  | [_], _, _ => trivial
  | x :: y :: l, h, h' => ⟨h x y (by simp) h'.1, linked_mem (l := y :: l) (fun u v hv => h u v (List.mem_cons_of_mem _ hv)) h'.2⟩

/-- A route found by the router is marked. -/
theorem inv_route_follows {t s : DSlice} {L : Layout} {asserts : Bool} {K : List Cell → BoundaryType → DSlice → Prop} (hK : Follows t L asserts K) (hk : K [] .reserved1 s) {pick : Search.Pick} {stop : Bool} {c : BellCNOT} {r R : RoutingRegion} {x : DSlice × RoutingRegion}
    (ht : Bare t) (hi : Inv t s (fun _ _ => False) (fun _ _ => False)) (hfit : Fits L s) (h : Router.find L pick stop true s c.control .Z c.target .X = .ok (some r))
    (hlen : ¬ r.cells.length < 2) (hw : withEnds s c r = .ok R) (hm : mark L asserts s R .edpc = .ok x) :
    (Inv t x.1 (fun _ _ => False) (fun _ _ => False) ∧ ∃ l, K (R.cells.map (·.cell)) l x.1) ∧
      Linked (fun u v => ∀ d, Faces u v d → ¬ rsv s u d ∨ ¬ rsv s v d.flip) (R.cells.map (·.cell)) ∧ Linked Touching (R.cells.map (·.cell)) ∧
      ∃ b mid a, R.cells.map (·.cell) = b :: (mid ++ [a]) ∧ 2 ≤ mid.length ∧ mid.Nodup ∧ (∀ y ∈ mid, t.cells y = none) ∧ t.cells a ≠ none ∧ t.cells b ≠ none := by
  have hreal : RealEnds true s c.control c.target := by
    intro _ y p hy hid
    cases hq : t.cells y with
    | none =>
      have := (hi.free y p hq hy).2
      rw [this] at hid; rcases hid with hid | hid <;> cases hid
    | some q =>
      obtain ⟨p', g1, g2⟩ := hi.data y q hq
      rw [hy] at g1; cases g1
      have : p.activity = q.activity := congrArg Patch.activity g2
      rw [this]; exact ht.act y q hq
  have hcells : ∃ a b, s.cellById c.control = some a ∧ s.cellById c.target = some b ∧ R = { r with cells := bareCell b :: r.cells ++ [bareCell a] } := by
    unfold withEnds at hw
    split at hw
    · rename_i a b ha hb
      exact ⟨a, b, ha, hb, (Outcome.ok.inj hw).symm⟩
    · cases hw
  obtain ⟨a, b, ha, hb, rfl⟩ := hcells
  have hpack : Admissible L s true a .Z b .X (r.cells.map (·.cell)) ∧ (r.cells.map (·.cell)).Nodup ∧ Marked ⟨.reserved1, true⟩ b r.cells a ∧ r.regionId = none := by
    obtain ⟨a', b', ha', hb', hrun⟩ := find_cases h
    rw [ha] at ha'; cases ha'
    rw [hb] at hb'; cases hb'
    have hg := good_of (sop := .Z) (top := .X) hfit hreal ha hb
    obtain ⟨s0, st, ts, _, _, hfound, rfl⟩ := Router.Query.run_some hg hrun
    obtain ⟨h1, h2, h3⟩ := Router.Query.found_admissible hg hfound
    have hmap : (ts.map (Router.Query.regionCell ⟨L, s, a, b, .Z, .X, c.control == c.target, true⟩)).map (·.cell) =
        ts.map fun t => (Router.Query.cellOf ⟨L, s, a, b, .Z, .X, c.control == c.target, true⟩) t.2.1 := by
      rw [List.map_map]
      apply List.map_congr_left
      intro t _
      exact (Router.Query.join_spec (q := ⟨L, s, a, b, .Z, .X, c.control == c.target, true⟩)).1
    exact ⟨by rw [hmap]; exact h1, by rw [hmap]; exact h2, h3, rfl⟩
  obtain ⟨hadm, hnd, hmk, -⟩ := hpack
  obtain ⟨os, rid⟩ := r
  dsimp only at hadm hnd hmk hlen hm
  obtain ⟨o, os, rfl⟩ : ∃ o os', os = o :: os' := by
    cases os with
    | nil => exact absurd (by simp) hlen
    | cons o os' => exact ⟨o, os', rfl⟩
  -- the cells between are not those of patches
  have hmid : ∀ y ∈ (o :: os).map (·.cell), t.cells y = none := by
    intro y hy
    cases hq : t.cells y with
    | none => rfl
    | some q =>
      obtain ⟨p', g1, g2⟩ := hi.data y q hq
      rcases hadm.clear y hy with g | ⟨-, p, g, ga⟩
      · rw [g1] at g; cases g
      · rw [g1] at g; cases g
        have : p'.activity = q.activity := congrArg Patch.activity g2
        exact absurd (this ▸ ga) (ht.act y q hq)
  have hdata : ∀ {id y}, (id = c.control ∨ id = c.target) → s.cellById id = some y → ∃ q, t.cells y = some q := by
    intro id y hid hy
    obtain ⟨-, -, -, -, p, hp, hpid⟩ := holds_of hy
    cases hq : t.cells y with
    | some q => exact ⟨q, rfl⟩
    | none => have := (hi.free y p hq hp).2; rw [this] at hpid; cases hpid
  obtain ⟨qa, hqa⟩ := hdata (.inl rfl) ha
  obtain ⟨qb, hqb⟩ := hdata (.inr rfl) hb
  -- the ends
  obtain ⟨pb, db, hpb, hfb, hob⟩ := hadm.toTgt o.cell rfl
  have hrb : (pb.bounds.get db).ty = .rough := by rcases hob with ⟨-, g⟩ | ⟨g, -⟩; exact g; cases g
  obtain ⟨yl, hyl⟩ : ∃ y, ((o :: os).map (·.cell)).getLast? = some y := ⟨_, List.getLast?_eq_some_getLast (by simp)⟩
  obtain ⟨pa, da, hpa, hfa, hoa⟩ := hadm.fromSrc yl (by rw [List.map_cons, List.getLast?_cons_cons] at *; exact hyl)
  have hra : (pa.bounds.get da).ty = .smooth := by rcases hoa with ⟨g, -⟩ | ⟨-, g⟩; cases g; exact g
  have htb : ty s b db = .rough := by rw [ty_some hpb]; exact hrb
  have hta : ty s a da = .smooth := by rw [ty_some hpa]; exact hra
  have hnrb : ¬ rsv s b db := by unfold rsv; rw [htb]; decide
  have hnra : ¬ rsv s a da := by unfold rsv; rw [hta]; decide
  obtain ⟨hub, hsb⟩ := hi.plain hqb hnrb
  obtain ⟨hua, hsa⟩ := hi.plain hqa hnra
  rw [side_some hpb] at hsb
  rw [side_some hpa] at hsa
  have hab : ¬ (a = b ∧ da = db) := by
    rintro ⟨rfl, rfl⟩
    rw [htb] at hta; cases hta
  have hbm : b ∉ (o :: os).map (·.cell) := fun g => by have := hmid b g; rw [hqb] at this; cases this
  have ham : a ∉ (o :: os).map (·.cell) := fun g => by have := hmid a g; rw [hqa] at this; cases this
  -- the first end is marked
  unfold mark at hm
  obtain ⟨z, hgo, hm⟩ := Outcome.bind_eq_ok.1 hm
  cases hm
  dsimp only at hgo ⊢
  rw [List.cons_append, markGo] at hgo
  obtain ⟨w, h1, hgo⟩ := Outcome.bind_eq_ok.1 hgo
  obtain ⟨v, h2, hgo⟩ := Outcome.bind_eq_ok.1 hgo
  cases hgo
  have hcl : (bareCell b :: (o :: os ++ [bareCell a])).map (·.cell) = b :: o.cell :: (os.map (·.cell) ++ [a]) := by simp [bareCell]
  rw [hcl] at h1 h2
  unfold markOne at h1
  obtain ⟨p, h3, h1⟩ := Outcome.bind_eq_ok.1 h1
  obtain ⟨-, h3⟩ := patchAt_ok h3
  change s.cells b = p at h3
  rw [hpb] at h3; subst h3
  have hne : pb.activity ≠ .edpc := hreal rfl b pb hpb (by
    obtain ⟨-, -, -, -, p, hp, hpid⟩ := holds_of hb
    rw [hpb] at hp; cases hp; exact .inr hpid)
  dsimp only at h1
  rw [if_pos rfl, if_neg hne] at h1
  obtain ⟨s1, h4, h1⟩ := Outcome.bind_eq_ok.1 h1
  cases h1
  dsimp only at h2
  have hs1 := markEnd_first (c := b) hfb h4
  obtain ⟨f1, f2, f3, f4, f5⟩ := setSide_fields s b db (fun x => { x with ty := .reserved1 })
  have hi1 : Inv t s1 (fun _ _ => False) (fun _ _ => False) := by
    rw [hs1]
    refine inv_end (d := db) (y := o.cell) (label := .reserved1) true hi hqb hfb hub rfl (fun _ _ g => absurd g id) (fun _ _ g => absurd g id) ?_ ?_ rfl (by simp) (by simpa using f3) f1 f4 f5
    · intro hy hr
      have := (hi.edge o.cell b db.flip hy hr (faces_back hfb) id).1
      rw [flip_flip] at this
      exact absurd (rsv_of this hr) hnrb
    · rw [← Option.some.inj hsb, hrb]; rfl
  have hside1 : ∀ x e, side s1 x e = if x = b ∧ e = db then (side s x e).map (fun x => { x with ty := .reserved1 }) else side s x e := by
    intro x e; rw [← side_setSide]; unfold side; rw [hs1]
  have hrs1 : ∀ x e, ¬ (x = b ∧ e = db) → rsv s1 x e → rsv s x e := by
    intro x e hx hr
    unfold rsv ty at hr ⊢; rw [hside1, if_neg hx] at hr; exact hr
  have hcl' : (bareCell b :: o :: os ++ [bareCell a]).map (·.cell) = b :: ((o :: os).map (·.cell) ++ [a]) := by simpa using hcl
  refine ⟨?_, ?_, ?_, b, (o :: os).map (·.cell), a, hcl', by simpa using Nat.le_of_not_lt hlen, hnd, hmid, by rw [hqa]; simp, by rw [hqb]; simp⟩
  rotate_left
  · rw [hcl']
    have key : Linked (fun u v => ∀ d, Faces u v d → ¬ rsv s u d ∨ ¬ rsv s v d.flip) (o.cell :: (os.map (·.cell) ++ [a])) := by
      refine linked_snoc (l := o.cell :: os.map (·.cell)) (linked_mem ?_ (hadm.untaken rfl)) ?_
      · intro u v hv hnt d hd
        right
        intro hr
        obtain ⟨p, hp⟩ := rsv_patch hr
        refine hnt ⟨p, d.flip, hp, faces_back hd, ?_⟩
        unfold rsv at hr
        rw [ty_some hp] at hr
        simpa [reservedType] using hr
      · intro y hy d hd
        rw [List.map_cons] at hyl
        rw [hyl] at hy; cases hy
        have : d.flip = da := faces_dir (faces_back hd) hfa
        rw [this]
        exact .inr hnra
    refine ⟨fun d hd => .inl ?_, key⟩
    have : d = db := faces_dir hd hfb
    subst this
    exact hnrb
  · rw [hcl']; exact hadm.chain
  rw [hcl']
  refine go_rest hK (rid := rid) (da := da) ht hqa ?_ (o :: os) [] b s1 .reserved1 (x := v) ?_ hmk ?_ ?_ hbm ?_ ?_ ?_ h2 ?_ (fun _ _ => by simp)
  · rw [← Option.some.inj hsa]; exact hra
  · intro cur rest hcr
    have hcur : cur = o.cell := by simp at hcr; exact hcr.1.symm
    subst hcur
    refine ⟨hi1.weaken (fun _ _ g => absurd g id) (fun _ _ g => absurd g id), rfl, ?_, ?_, ?_⟩
    · intro d hd
      have : d = db := faces_dir hd hfb
      subst this
      constructor
      · unfold ty; rw [hside1, if_pos ⟨rfl, rfl⟩, side_some hpb]; rfl
      · intro _ g
        unfold Unnoted at g
        rw [hs1] at g
        simp at g
    · rw [← hcr]
      refine linked_snoc (linked_mem ?_ (hadm.untaken rfl)) ?_
      · intro u v hv hnt d hd hr
        apply hnt
        have hr' := hrs1 v d (fun g => hbm (g.1 ▸ hv)) hr
        obtain ⟨p, hp⟩ := rsv_patch hr'
        refine ⟨p, d, hp, hd, ?_⟩
        unfold rsv at hr'
        rw [ty_some hp] at hr'
        simpa [reservedType] using hr'
      · intro y hy d hd hr
        rw [hyl] at hy; cases hy
        have : d = da := faces_dir hd hfa
        subst this
        exact hnra (hrs1 a d hab hr)
    · unfold Unnoted at hua ⊢
      rw [hs1]
      simp only [List.mem_append, List.mem_singleton, Prod.mk.injEq, not_or]
      exact ⟨⟨hua.1, hab⟩, f3 ▸ hua.2⟩
  · exact hadm.chain
  · rw [List.nodup_append]
    refine ⟨hnd, by simp, ?_⟩
    intro y hy z hz
    rw [List.mem_singleton] at hz; subst hz
    exact fun e => ham (e ▸ hy)
  · intro _; omega
  · intro o' ho'
    exact hmid o'.cell (List.mem_map.2 ⟨o', ho', rfl⟩)
  · intro y hy
    rw [List.map_cons] at hyl
    rw [List.map_cons, List.getLast?_cons_cons, hyl] at hy
    cases hy
    exact hfa
  · refine hK.first hi (by rw [hqb]; simp) hfb (hmid _ (by simp)) hside1 ?_ ?_ hk
    · intro x; rw [hs1]; exact (setSide_same s b db _).none_iff x
    · rw [hs1]; exact f1

theorem follows_true {t : DSlice} {L : Layout} {asserts : Bool} : Follows t L asserts (fun _ _ _ => True) :=
  ⟨fun _ _ _ _ _ _ _ _ => trivial, fun _ _ _ _ _ _ _ _ => trivial, fun _ _ _ _ _ _ _ _ _ _ _ => trivial, fun _ _ _ _ _ _ _ => trivial⟩

theorem inv_route {t s : DSlice} {L : Layout} {asserts : Bool} {pick : Search.Pick} {stop : Bool} {c : BellCNOT} {r R : RoutingRegion} {x : DSlice × RoutingRegion}
    (ht : Bare t) (hi : Inv t s (fun _ _ => False) (fun _ _ => False)) (hfit : Fits L s) (h : Router.find L pick stop true s c.control .Z c.target .X = .ok (some r))
    (hlen : ¬ r.cells.length < 2) (hw : withEnds s c r = .ok R) (hm : mark L asserts s R .edpc = .ok x) : Inv t x.1 (fun _ _ => False) (fun _ _ => False) :=
  (inv_route_follows follows_true trivial ht hi hfit h hlen hw hm).1.1

/-! ### Resetting -/

theorem resetSides_sides {t : BoundaryType} : ∀ {l : List (Cell × CellDirection)} {s : DSlice}, (∀ y ∈ l, s.cells y.1 ≠ none) →
    ∃ u, resetSides t l s = .ok u ∧ SameCore s u ∧ u.markedSmooth = s.markedSmooth ∧
      ∀ x e, side u x e = if (x, e) ∈ l then (side s x e).map (fun b => { b with ty := t }) else side s x e
  | [], s, _ => ⟨s, rfl, .refl _, rfl, fun x e => by simp⟩
  | (c, d) :: l, s, h => by
    have e1 := setSide_same s c d (fun x => { x with ty := t })
    obtain ⟨u, g1, g2, g3, g4⟩ := resetSides_sides (t := t) (l := l) (s := s.setSide c d fun x => { x with ty := t })
      (fun y hy g => h y (List.mem_cons_of_mem _ hy) ((e1.none_iff _).1 g))
    refine ⟨u, ?_, e1.trans g2, g3.trans (setSide_fields s c d _).2.2.1, fun x e => ?_⟩
    · rw [resetSides]
      split
      · rename_i g; exact absurd g (h _ (List.mem_cons_self ..))
      · exact g1
    · rw [g4, side_setSide]
      by_cases h1 : (x, e) ∈ l
      · rw [if_pos h1, if_pos (List.mem_cons_of_mem _ h1)]
        split
        · rw [Option.map_map]; rfl
        · rfl
      · rw [if_neg h1]
        by_cases h2 : x = c ∧ e = d
        · rw [if_pos h2, if_pos (by simp [h2.1, h2.2])]
        · rw [if_neg h2, if_neg]
          simp only [List.mem_cons, Prod.mk.injEq, not_or]
          exact ⟨h2, h1⟩

theorem ext_patch {p q : DensePatch} (h : p.toPatch = q.toPatch) (h' : ∀ d, p.bounds.get d = q.bounds.get d) : p = q := by
  obtain ⟨p0, pb⟩ := p
  obtain ⟨q0, qb⟩ := q
  cases h
  have h1 := h' .top
  have h2 := h' .bottom
  have h3 := h' .left
  have h4 := h' .right
  obtain ⟨a1, a2, a3, a4⟩ := pb
  obtain ⟨b1, b2, b3, b4⟩ := qb
  cases h1; cases h2; cases h3; cases h4
  rfl

/-- Resetting the noted sides gives the patches back. -/
theorem Inv.reset {t s : DSlice} {X : Cell → Cell → Prop} (hi : Inv t s X (fun _ _ => False)) :
    ∃ u, resetMarked s = .ok u ∧ u.markedRough = [] ∧ u.markedSmooth = [] ∧ (∀ x q, t.cells x = some q → u.cells x = some q) ∧
      ∀ x p, t.cells x = none → u.cells x = some p → p.activity = .edpc ∧ p.id = none := by
  have hn : ∀ x d, ¬ Unnoted s x d → s.cells x ≠ none := by
    intro x d hx
    obtain ⟨q, hq⟩ := Option.ne_none_iff_exists'.1 (hi.noted x d hx)
    obtain ⟨p, hp, -⟩ := hi.data x q hq
    simp [hp]
  obtain ⟨u1, a1, a2, a3, a4⟩ := resetSides_sides (t := .rough) (l := s.markedRough) (s := s) (fun y hy => hn y.1 y.2 (fun g => g.1 hy))
  obtain ⟨u2, b1, b2, -, b4⟩ := resetSides_sides (t := .smooth) (l := s.markedSmooth) (s := u1)
    (fun y hy g => hn y.1 y.2 (fun g => g.2 hy) ((a2.none_iff _).1 g))
  have hcore := a2.trans b2
  refine ⟨{ u2 with markedRough := [], markedSmooth := [] }, ?_, rfl, rfl, fun x q hq => ?_, fun x p hx hp => ?_⟩
  · unfold resetMarked
    rw [a1, Outcome.bind_ok, b1, Outcome.bind_ok]
  · show u2.cells x = some q
    obtain ⟨p0, g1, g2⟩ := hi.data x q hq
    obtain ⟨p, g3, g4⟩ := hcore.get g1
    rw [g3]
    congr 1
    refine ext_patch (g4.trans g2) (fun d => ?_)
    obtain ⟨b, k1, k2, k3⟩ := hi.kept x q d hq
    have h1 := b4 x d
    rw [a4, side_some g3, k1] at h1
    have hb : ∀ (b : Boundary) (ty : BoundaryType), b.active = (q.bounds.get d).active → (q.bounds.get d).ty = ty → { b with ty := ty } = q.bounds.get d := by
      intro b ty e1 e2
      rw [← e2, e1]
    rcases k3 with ⟨k3, -⟩ | ⟨k3, k4⟩
    · rcases k3 with ⟨m1, m2, m3⟩ | ⟨m1, m2, m3⟩
      · rw [if_neg m2, if_pos m1] at h1
        rw [Option.some.inj h1]
        exact hb b _ k2 m3
      · rw [if_pos m1, if_neg m2] at h1
        rw [Option.some.inj h1]
        exact hb b _ k2 m3
    · rw [if_neg k3.2, if_neg k3.1] at h1
      rw [Option.some.inj h1]
      exact k4.resolve_right id
  · obtain ⟨p0, g1, g2⟩ := hcore.get' (show u2.cells x = some p from hp)
    rw [g2]
    exact hi.free x p0 hx g1

end Verif.Edpc
