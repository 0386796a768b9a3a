import Verif.JsonProps
import Verif.Sizes
import Verif.StayProps
import Verif.LayoutProps

/-! # The JSON written for a run (properties, C61) -/

namespace Verif.Json.Spec

open Verif Apply DSlice Verif.Wave Verif.Wave.Spec Verif.Pipe Verif.Pipe.Spec Verif.Layouts Verif.Layouts.Spec

/-- The text is a JSON array of the drawings of the slices, in their order. -/
def Album (L : Layout) (ss : List DSlice) (t : Str) : Prop :=
  ∃ js, Denotes t (.arr js) ∧ js.length = ss.length ∧ ∀ (k : Nat) s, ss[k]? = some s → ∃ j, js[k]? = some j ∧ sliceJson L s = .ok j

/-! ## Proofs -/

theorem slice_clean {L : Layout} {s : DSlice} (h : Drawable L s) : ∃ j, sliceJson L s = .ok j ∧ Clean j := by
  obtain ⟨g, h1, h2, h3⟩ := slice_eq h
  refine ⟨_, h1, clean_ofFun fun c _ => ?_⟩
  by_cases hf : ∃ k, Factory L c k
  · obtain ⟨k, hf⟩ := hf
    obtain ⟨t, -, e⟩ := h3 c k hf
    rw [e]
    exact clean_withText (clean_cellVal s c)
  · rw [h2 c fun k hk => hf ⟨k, hk⟩]
    exact clean_cellVal s c

theorem written_rest {L : Layout} : ∀ {ss : List DSlice}, (∀ s ∈ ss, Drawable L s) →
    ∃ t js, written L ss false = .ok t ∧ js.length = ss.length ∧ (∀ (k : Nat) s, ss[k]? = some s → ∃ j, js[k]? = some j ∧ sliceJson L s = .ok j) ∧
      lex none (t ++ "]\n".toList) = some (toksItems js)
  | [], _ => ⟨[], [], rfl, rfl, by simp, rfl⟩
  | s :: ss, h => by
    obtain ⟨t, js, h1, h2, h3, h4⟩ := written_rest (ss := ss) fun x hx => h x (List.mem_cons_of_mem _ hx)
    obtain ⟨j, h5, h6⟩ := slice_clean (h s (by simp))
    refine ⟨",\n".toList ++ dump 0 j ++ t, j :: js, ?_, by simp [h2], ?_, ?_⟩
    · rw [written, h5, Outcome.bind_ok, h1]; rfl
    · intro k x hx
      cases k with
      | zero => simp only [List.getElem?_cons_zero, Option.some.injEq] at hx ⊢; subst hx; exact ⟨j, rfl, h5⟩
      | succ k => exact h3 k x hx
    · show lex none (',' :: '\n' :: (dump 0 j ++ t ++ "]\n".toList)) = _
      rw [lex, lex, List.append_assoc, lex_dump j 0 _ h6, h4, toksItems]
      rfl

theorem drawable_sized {L : Layout} {s s' : DSlice} (h : Drawable L s) (h' : Sized (s.rows, s.cols, s.times.length) s') : Drawable L s' := by
  unfold Sized at h'
  simp only [Prod.mk.injEq] at h'
  obtain ⟨h1, h2, h3⟩ := h'
  refine ⟨by rw [h1]; exact h.rows, by rw [h2]; exact h.cols, by rw [h3]; exact h.times, ?_, h.apart⟩
  intro r hr
  obtain ⟨o, l, e, hi⟩ := h.first r hr
  refine ⟨o, l, e, ?_⟩
  unfold DSlice.inRange at *
  rw [h1, h2]; exact hi

theorem grid_drawable {g : Grid} {o : Options} {L : Layout} {ids : List Nat} {s : DSlice} (h : fromGrid g o = .ok L) (hs : DSlice.init L ids = .ok s) : Drawable L s := by
  obtain ⟨a, b, k, hl⟩ := fromGrid_inv h
  have hz := sized_start hs
  unfold Sized at hz
  simp only [Prod.mk.injEq] at hz
  obtain ⟨z1, z2, z3⟩ := hz
  have hf : L.furthest = ⟨(a : Int) - 1, (b : Int) - 1⟩ := by rw [hl.eq]
  have hr : L.regions = k.regions := by rw [hl.eq]
  rw [hf] at z1 z2
  dsimp only at z1 z2
  have ea : s.rows = a := by omega
  have eb : s.cols = b := by omega
  refine ⟨by rw [hf, ea]; dsimp only; omega, by rw [hf, eb]; dsimp only; omega, ?_, ?_, ?_⟩
  · rw [z3, hl.eq]
    simp only [List.length_append, hl.found.times, List.length_map, List.length_range]
    omega
  · intro r hr'
    rw [hr] at hr'
    obtain ⟨q, hq⟩ := hl.found.region hr'
    obtain ⟨d, st, hst, hj⟩ := hq.joined
    have hat : ∀ x, Joined g (.distillation d) st x → At g x (.distillation d) := by
      intro x hx; cases hx with
      | refl h => exact h
      | step _ _ h => exact h
    cases r with
    | nil =>
      have := (hj st).2 (.refl hst)
      cases this
    | cons oc l =>
      refine ⟨oc, l, rfl, ?_⟩
      have := hl.rect.of_at (hat _ ((hj oc.cell).1 (by simp)))
      unfold DSlice.inRange
      rw [ea, eb]
      exact decide_eq_true ⟨this.1, this.2.1, this.2.2.1, this.2.2.2⟩
  · intro i i' oc oc' l l' h1 h2 e
    rw [hr] at h1 h2
    obtain ⟨p1, e1⟩ := List.getElem?_eq_some_iff.1 h1
    obtain ⟨p2, e2⟩ := List.getElem?_eq_some_iff.1 h2
    have hp := List.pairwise_iff_getElem.1 hl.found.apart
    rcases Nat.lt_trichotomy i i' with hlt | he | hlt
    · exact absurd (by rw [e2, e]; simp) (hp i i' p1 p2 hlt oc.cell (by rw [e1]; simp))
    · exact he
    · exact absurd (by rw [e1, ← e]; simp) (hp i' i p2 p1 hlt oc'.cell (by rw [e2]; simp))

theorem sized_keeps {ρ : Type} (ctx : Ctx ρ) (realloc : Nat → Bool) (z : Nat × Nat × Nat) : Keeps (Real.env ctx realloc) (fun m => Sized z m.slice) (fun _ _ => True) where
  apply h _ hr := ⟨sized_apply h hr, trivial, fun _ _ => trivial, fun _ _ => trivial⟩
  waits _ _ := trivial
  advance := by
    intro s s' h ha
    change Apply.step ctx s = .ok s' at ha
    unfold Apply.step at ha
    obtain ⟨u, h2, ha⟩ := Outcome.bind_eq_ok.1 ha
    cases ha
    exact ⟨sized_advance h h2, fun _ _ => trivial⟩
  reset := by
    intro s s' h ha
    unfold Real.env at ha
    dsimp only at ha
    obtain ⟨u, h2, ha⟩ := Outcome.bind_eq_ok.1 ha
    cases ha
    exact ⟨h.same (DSlice.resetMarked_same h2), fun _ _ => trivial⟩

/-! ## Examples -/

def exGrid : Grid := [[.distillation 1, .routing, .qubit], [.routing, .routing, .routing]]

def exProg : List Instr := [{ op := .sq 7 .H false }, { op := .sq 7 .X false }]

theorem ex_run : ∃ (ctx : Ctx Unit) (s : DSlice), fromGrid exGrid {} = .ok ctx.layout ∧ DSlice.init ctx.layout [7] = .ok s ∧
    ∃ c st, srun (Real.env ctx fun _ => false) 30 (sstart ⟨s, (), 1⟩ exProg) = .ok (c, st) ∧ c ≠ .go ∧ (slices (st.events.filterMap Ev.obs)).length = 2 := by
  obtain ⟨L, hL⟩ : ∃ L, fromGrid exGrid {} = .ok L := ⟨_, rfl⟩
  refine ⟨⟨false, false, false, true, L, Router.dpRouter L Router.pickMin false false⟩, ?_⟩
  cases hL
  refine ⟨_, rfl, rfl, _, _, rfl, by decide, by decide⟩

/-! ## C61 -/

/-- C61: if at least one slice is shown and all can be drawn, what is written is one JSON array of the drawings. -/
theorem c61_array {L : Layout} {ss : List DSlice} (hd : ∀ s ∈ ss, Drawable L s) (hne : ss ≠ []) : ∃ t, output L ss = .ok t ∧ Album L ss t := by
  cases ss with
  | nil => exact absurd rfl hne
  | cons s ss =>
    obtain ⟨t, js, h1, h2, h3, h4⟩ := written_rest (L := L) (ss := ss) fun x hx => hd x (List.mem_cons_of_mem _ hx)
    obtain ⟨j, h5, h6⟩ := slice_clean (hd s (by simp))
    refine ⟨"[\n".toList ++ dump 0 j ++ t ++ "]\n".toList, ?_, j :: js, ?_, by simp [h2], ?_⟩
    · unfold output
      rw [written, h5, Outcome.bind_ok, h1]
      rfl
    · show lex none ('[' :: '\n' :: (dump 0 j ++ t ++ "]\n".toList)) = _
      rw [lex, lex, List.append_assoc, lex_dump j 0 _ h6, h4, toks]
      rfl
    · intro k x hx
      cases k with
      | zero => simp only [List.getElem?_cons_zero, Option.some.injEq] at hx ⊢; subst hx; exact ⟨j, rfl, h5⟩
      | succ k => exact h3 k x hx

/-- The hypotheses of `c61_array` are met by two slices. -/
example : (∀ s ∈ [exSlice none, exSlice (some 5)], Drawable exLayout s) ∧ [exSlice none, exSlice (some 5)] ≠ [] := by
  refine ⟨?_, by simp⟩
  intro s hs
  simp only [List.mem_cons, List.not_mem_nil, or_false] at hs
  rcases hs with rfl | rfl
  · exact ex_drawable none
  · exact ex_drawable (some 5)

/-- C61: from what is written one can tell how many slices there were, and what each looked like. -/
theorem c61_faithful {L : Layout} {ss ss' : List DSlice} {t : Str} (hd : ∀ s ∈ ss, Drawable L s) (hd' : ∀ s ∈ ss', Drawable L s) (hne : ss ≠ []) (hne' : ss' ≠ [])
    (h : output L ss = .ok t) (h' : output L ss' = .ok t) :
    ss.length = ss'.length ∧ ∀ (k : Nat) s s', ss[k]? = some s → ss'[k]? = some s' → sliceJson L s = sliceJson L s' := by
  obtain ⟨t1, e1, js, a1, a2, a3⟩ := c61_array hd hne
  obtain ⟨t2, e2, js', b1, b2, b3⟩ := c61_array hd' hne'
  rw [h] at e1; cases e1
  rw [h'] at e2; cases e2
  have := denotes_unique a1 b1
  cases this
  refine ⟨by omega, ?_⟩
  intro k s s' hs hs'
  obtain ⟨j, j1, j2⟩ := a3 k s hs
  obtain ⟨j', j1', j2'⟩ := b3 k s' hs'
  rw [j1] at j1'; cases j1'
  rw [j2, j2']

/-- The hypotheses of `c61_faithful` are met by sequences of two slices that differ in what is not drawn. -/
example : (∀ s ∈ [exSlice none, exSlice none], Drawable exLayout s) ∧ (∀ s ∈ [exSlice none, exSlice (some 5)], Drawable exLayout s) ∧
    ∃ t, output exLayout [exSlice none, exSlice none] = .ok t ∧ output exLayout [exSlice none, exSlice (some 5)] = .ok t := by
  refine ⟨?_, ?_, _, rfl, rfl⟩
  all_goals
    intro s hs
    simp only [List.mem_cons, List.not_mem_nil, or_false] at hs
    rcases hs with rfl | rfl
  · exact ex_drawable none
  · exact ex_drawable none
  · exact ex_drawable none
  · exact ex_drawable (some 5)

/-- C61: every slice shown in a run of any pipeline on a layout made from a grid can be drawn. -/
theorem c61_drawable {ρ : Type} {ctx : Ctx ρ} {realloc : Nat → Bool} {g : Grid} {o : Options} {ids : List Nat} {s : DSlice} {rs : ρ} {n : Nat} {P : List Instr} {k : Real.Spec.Loop}
    {A : List (Obs (Mach ρ))} (hL : fromGrid g o = .ok ctx.layout) (hs : DSlice.init ctx.layout ids = .ok s) (h : Real.Spec.Account (Real.env ctx realloc) P ⟨s, rs, n⟩ k A)
    {m : Mach ρ} (hm : m ∈ slices A) : Drawable ctx.layout m.slice := by
  obtain ⟨x, hx, e⟩ := List.mem_filterMap.1 hm
  cases x with
  | instr i => cases e
  | slice y =>
    cases e
    refine drawable_sized (grid_drawable hL hs) ?_
    exact Real.Spec.account_keeps (sized_keeps ctx realloc _) (Real.one_followup ctx realloc) (Real.fails_alone ctx realloc) rfl (fun _ _ => trivial) h hx

/-- C61: what is written for the slices shown in a run of any pipeline is one JSON array of their drawings, if any slice is shown. -/
theorem c61_run {ρ : Type} {ctx : Ctx ρ} {realloc : Nat → Bool} {g : Grid} {o : Options} {ids : List Nat} {s : DSlice} {rs : ρ} {n : Nat} {P : List Instr} {k : Real.Spec.Loop}
    {A : List (Obs (Mach ρ))} (hL : fromGrid g o = .ok ctx.layout) (hs : DSlice.init ctx.layout ids = .ok s) (h : Real.Spec.Account (Real.env ctx realloc) P ⟨s, rs, n⟩ k A)
    (hne : slices A ≠ []) : ∃ t, output ctx.layout ((slices A).map (·.slice)) = .ok t ∧ Album ctx.layout ((slices A).map (·.slice)) t := by
  refine c61_array ?_ (by simpa using hne)
  intro x hx
  obtain ⟨m, hm, rfl⟩ := List.mem_map.1 hx
  exact c61_drawable hL hs h hm

/-- The hypotheses of `c61_drawable` and `c61_run` are met by a run of the streamed pipeline that shows two slices. -/
example : ∃ (ctx : Ctx Unit) (s : DSlice) (A : List (Obs (Mach Unit))), fromGrid exGrid {} = .ok ctx.layout ∧ DSlice.init ctx.layout [7] = .ok s ∧
    Real.Spec.Account (Real.env ctx fun _ => false) exProg ⟨s, (), 1⟩ .streamed A ∧ (slices A).length = 2 := by
  obtain ⟨ctx, s, h1, h2, c, st, h3, -, h4⟩ := ex_run
  exact ⟨ctx, s, _, h1, h2, .streamed 30 h3, h4⟩

/-- C61: the streamed pipeline always shows a slice before it ends, so that what is written is JSON. -/
theorem c61_streamed {ρ : Type} {ctx : Ctx ρ} {realloc : Nat → Bool} {g : Grid} {o : Options} {ids : List Nat} {s : DSlice} {rs : ρ} {n k : Nat} {P : List Instr} {c : Ctl} {st : SSt (Mach ρ)}
    (hL : fromGrid g o = .ok ctx.layout) (hs : DSlice.init ctx.layout ids = .ok s) (h : srun (Real.env ctx realloc) k (sstart ⟨s, rs, n⟩ P) = .ok (c, st)) (hc : c ≠ .go) :
    ∃ t, output ctx.layout ((slices (st.events.filterMap Ev.obs)).map (·.slice)) = .ok t ∧ Album ctx.layout ((slices (st.events.filterMap Ev.obs)).map (·.slice)) t := by
  refine c61_run hL hs (.streamed k h) ?_
  obtain ⟨L, e, -⟩ := (c57_streamed _ _ _ _ _ h).2 hc
  rw [e, slices_append]
  simp [slices]

/-- The hypotheses of `c61_streamed` are met by the same run. -/
example : ∃ (ctx : Ctx Unit) (s : DSlice) (c : Ctl) (st : SSt (Mach Unit)), fromGrid exGrid {} = .ok ctx.layout ∧ DSlice.init ctx.layout [7] = .ok s ∧
    srun (Real.env ctx fun _ => false) 30 (sstart ⟨s, (), 1⟩ exProg) = .ok (c, st) ∧ c ≠ .go := by
  obtain ⟨ctx, s, h1, h2, c, st, h3, h4, -⟩ := ex_run
  exact ⟨ctx, s, c, st, h1, h2, h3, h4⟩

/-- C61 fails without slices: only the closing bracket is written, which is no JSON. -/
theorem c61_empty (L : Layout) : ∃ t, output L [] = .ok t ∧ ¬ ∃ j, Denotes t j := by
  refine ⟨_, rfl, ?_⟩
  rintro ⟨j, h⟩
  have h' : some [Tok.rbrack] = some (toks j) := h
  cases j with
  | null => simp [toks] at h'
  | str => simp [toks] at h'
  | arr l => cases l <;> simp [toks] at h'
  | obj l =>
    cases l with
    | nil => simp [toks] at h'
    | cons x l => obtain ⟨a, b⟩ := x; simp [toks] at h'

/-- C61 fails: on a program without instructions the DAG and the wave pipeline end without having shown a slice. -/
theorem c61_no_slice {ρ : Type} (ctx : Ctx ρ) (realloc : Nat → Bool) (m : Mach ρ) :
    (∃ st0 st, dstart m [] = .ok st0 ∧ drun (Real.env ctx realloc) 1 st0 = .ok (true, st) ∧ slices st.obs = []) ∧
    ∃ w, wrun (Real.env ctx realloc) 1 1 ⟨start m [], 1, [], []⟩ = .ok (true, w) ∧ slices w.obs = [] :=
  ⟨⟨_, _, rfl, rfl, rfl⟩, ⟨_, rfl, rfl⟩⟩

end Verif.Json.Spec
