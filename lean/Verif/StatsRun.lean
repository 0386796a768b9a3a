import Verif.JsonRun
import Verif.StatsProps

/-! # The volume statistics of a run (properties, C43) -/

namespace Verif.Stats.Spec

open Verif Apply DSlice Verif.Wave Verif.Pipe Verif.Pipe.Spec Verif.Layouts

theorem fits_sized {L : Layout} {s s' : DSlice} (h : Router.Spec.Fits L s) (h' : Sized (s.rows, s.cols, s.times.length) s') : Router.Spec.Fits L s' := by
  unfold Sized at h'
  simp only [Prod.mk.injEq] at h'
  unfold Router.Spec.Fits at *
  rw [h'.1, h'.2.1]; exact h

theorem sum_const {l : List DSlice} {a : Nat} (h : ∀ x ∈ l, x.rows * x.cols = a) : (l.map fun s => s.rows * s.cols).sum = l.length * a := by
  induction l with
  | nil => simp
  | cons x l ih =>
    rw [List.map_cons, List.sum_cons, ih fun y hy => h y (List.mem_cons_of_mem _ hy), h x (by simp), List.length_cons, Nat.add_one_mul, Nat.add_comm]

/-- C43: in a run of any pipeline on a layout made from a grid the statistics are defined for all slices shown; the total volume
is the number of slices times the number of cells, and the categories add up to it, as long as the counts fit into the
integers used. -/
theorem c43_run {ρ : Type} {ctx : Ctx ρ} {realloc : Nat → Bool} {g : Grid} {o : Options} {ids : List Nat} {s : DSlice} {rs : ρ} {n : Nat} {P : List Instr} {k : Real.Spec.Loop}
    {A : List (Obs (Mach ρ))} (hL : fromGrid g o = .ok ctx.layout) (hs : DSlice.init ctx.layout ids = .ok s) (h : Real.Spec.Account (Real.env ctx realloc) P ⟨s, rs, n⟩ k A)
    (hsize : s.rows < 2 ^ 31 ∧ s.cols < 2 ^ 31 ∧ s.rows * s.cols < 2 ^ 31) (htotal : (slices A).length * (s.rows * s.cols) < 2 ^ 64) :
    ∃ v, totals ctx.layout ((slices A).map (·.slice)) {} = .ok v ∧ v.volume = (slices A).length * (s.rows * s.cols) ∧ v.unused + v.distillation + v.dead + v.other = v.volume := by
  have hz : ∀ m ∈ slices A, Sized (s.rows, s.cols, s.times.length) m.slice := by
    intro m hm
    obtain ⟨x, hx, e⟩ := List.mem_filterMap.1 hm
    cases x with
    | instr i => cases e
    | slice y =>
      cases e
      exact Real.Spec.account_keeps (Json.Spec.sized_keeps ctx realloc _) (Real.one_followup ctx realloc) (Real.fails_alone ctx realloc) rfl (fun _ _ => trivial) h hx
  have hdim : ∀ x ∈ (slices A).map (·.slice), x.rows = s.rows ∧ x.cols = s.cols := by
    intro x hx
    obtain ⟨m, hm, rfl⟩ := List.mem_map.1 hx
    have := hz m hm
    unfold Sized at this
    simp only [Prod.mk.injEq] at this
    exact ⟨this.1, this.2.1⟩
  have hfits : ∀ x ∈ (slices A).map (·.slice), Router.Spec.Fits ctx.layout x := by
    intro x hx
    obtain ⟨m, hm, rfl⟩ := List.mem_map.1 hx
    exact fits_sized (Layouts.Spec.c53_shape hL hs).1 (hz m hm)
  have hsum : (((slices A).map (·.slice)).map fun s => s.rows * s.cols).sum = (slices A).length * (s.rows * s.cols) := by
    rw [sum_const (a := s.rows * s.cols) fun x hx => by rw [(hdim x hx).1, (hdim x hx).2], List.length_map]
  have hsz : ∀ x ∈ (slices A).map (·.slice), x.rows < 2 ^ 31 ∧ x.cols < 2 ^ 31 ∧ x.rows * x.cols < 2 ^ 31 := fun x hx => by
    rw [(hdim x hx).1, (hdim x hx).2]; exact hsize
  obtain ⟨vs, v, h1, h2, h3, h4, h5, h6, h7, h8⟩ := c43_totals hfits hsz (by rw [hsum]; exact htotal)
  refine ⟨v, h1, ?_, ?_⟩
  · rw [h4, ← hsum]
    congr 1
    refine List.ext_getElem (by simp [h2]) ?_
    intro i i1 i2
    simp only [List.getElem_map]
    simp only [List.length_map] at i1 i2
    have j2 : i < ((slices A).map (·.slice)).length := by simpa using i2
    have hx : ((slices A).map (·.slice))[i] ∈ (slices A).map (·.slice) := List.getElem_mem _
    have hv := h3 i _ _ (List.getElem?_eq_getElem j2) (List.getElem?_eq_getElem i1)
    obtain ⟨v', g1, g2, -⟩ := c43_slice (hfits _ hx) (hsz _ hx)
    rw [hv] at g1
    cases g1
    simpa using g2
  · rw [h4, h5, h6, h7, h8]
    have : ∀ w ∈ vs, w.unused + w.distillation + w.dead + w.other = w.volume := by
      intro w hw
      obtain ⟨i, hi, rfl⟩ := List.getElem_of_mem hw
      have j2 : i < ((slices A).map (·.slice)).length := by omega
      have hx : ((slices A).map (·.slice))[i] ∈ (slices A).map (·.slice) := List.getElem_mem _
      have hv := h3 i _ _ (List.getElem?_eq_getElem j2) (List.getElem?_eq_getElem hi)
      obtain ⟨v', g1, -, -, -, -, -, g2⟩ := c43_slice (hfits _ hx) (hsz _ hx)
      rw [hv] at g1
      cases g1
      exact g2
    clear h1 h2 h3 h4 h5 h6 h7 h8
    induction vs with
    | nil => rfl
    | cons w vs ih =>
      have h1 := this w (by simp)
      have h2 := ih fun w hw => this w (List.mem_cons_of_mem _ hw)
      simp only [List.map_cons, List.sum_cons]
      omega

/-- The hypotheses of `c43_run` are met by a run of the streamed pipeline that shows two slices of six cells. -/
example : ∃ (ctx : Ctx Unit) (s : DSlice) (A : List (Obs (Mach Unit))), fromGrid Json.Spec.exGrid {} = .ok ctx.layout ∧ DSlice.init ctx.layout [7] = .ok s ∧
    Real.Spec.Account (Real.env ctx fun _ => false) Json.Spec.exProg ⟨s, (), 1⟩ .streamed A ∧ (s.rows < 2 ^ 31 ∧ s.cols < 2 ^ 31 ∧ s.rows * s.cols < 2 ^ 31) ∧
    (slices A).length * (s.rows * s.cols) < 2 ^ 64 := by
  obtain ⟨ctx, s, h1, h2, c, st, h3, -, h4⟩ := Json.Spec.ex_run
  have e : s.rows = 2 ∧ s.cols = 3 := by
    obtain ⟨L, hL⟩ : ∃ L, fromGrid Json.Spec.exGrid {} = .ok L := ⟨_, rfl⟩
    have hz := sized_start h2
    rw [h1] at hL
    cases hL
    unfold Sized at hz
    have e : ctx.layout.furthest = ⟨1, 2⟩ := by
      have h5 : fromGrid Json.Spec.exGrid {} >>= (fun L => Outcome.ok L.furthest) = .ok ⟨1, 2⟩ := rfl
      rw [h1] at h5
      exact Outcome.ok.inj h5
    rw [e] at hz
    simp only [Prod.mk.injEq] at hz
    exact ⟨hz.1, hz.2.1⟩
  refine ⟨ctx, s, _, h1, h2, .streamed 30 h3, ?_, ?_⟩
  · rw [e.1, e.2]; decide
  · rw [e.1, e.2, h4]; decide

end Verif.Stats.Spec
