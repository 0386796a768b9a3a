import Verif.EndsBell

/-! # Slicing comes to an end with CNOTs made of Bell pairs (C69) -/

namespace Verif.Ends

open Verif Apply DSlice Verif.Wave Verif.Pipe Verif.Pipe.Spec Verif.Real Verif.Slices.Spec Verif.Course Verif.Course.Spec

namespace Spec

/-- The instruction is not one that prepares a Bell pair, and if it is a CNOT made of Bell pairs it is between two different patches. -/
def Apart (i : Instr) : Prop := (∀ b, i.op ≠ .bell b) ∧ ∀ c, i.op = .bellCnot c → c.control ≠ c.target

end Spec

open Spec

section
variable {ρ : Type} {ctx : Ctx ρ}

theorem going_cnot {x : Operation} {l : List Operation} {o : Operation} (h : Going false x l o) {c : BellCNOT} (ho : o = .bellCnot c) :
    ∃ c0, x = .bellCnot c0 ∧ c0.control = c.control ∧ c0.target = c.target ∧ (c.counterPairs = none → l = []) ∧ (l = [] → c.counterPairs = none) := by
  cases h with
  | fresh h =>
    subst ho
    exact ⟨c, rfl, rfl, rfl, fun _ => rfl, fun _ => h.2.1⟩
  | cnot he hne hl hp =>
    cases ho
    exact ⟨_, rfl, rfl, rfl, fun h => (nomatch h), fun h => absurd h hne⟩
  | routed he h => cases he
  | crossing he => cases he
  | _ => cases ho

theorem going_short {x : Operation} {l : List Operation} {o : Operation} (h : Going false x l o) (h1 : ∀ b, x ≠ .bell b) (h2 : ∀ c, o ≠ .bellCnot c) : l.length ≤ 3 := by
  cases h with
  | fresh h => simp
  | multi => simp
  | phase => simp
  | rotate hp hr hk => simp [Course.turned]; omega
  | bell => exact absurd rfl (h1 _)
  | cnot => exact absurd rfl (h2 _)
  | routed he h => cases he
  | crossing he => cases he

/-- What is pending and how many steps of it have been shown. -/
structure Due (s : DSlice) (i : Instr) (k : Nat) : Prop where
  going : ∃ x l, Going false x l i.op ∧ l.length = k ∧ (∀ b, x ≠ .bell b)
  few : k ≤ 3
  apart : ∀ c, i.op = .bellCnot c → c.control ≠ c.target
  ready : Ready s i

theorem due_fresh {s : DSlice} {i : Instr} (hp : Plain i) (ha : Apart i) : Due s i 0 where
  going := ⟨i.op, [], .fresh (by unfold Plain at hp ⊢; exact hp), rfl, ha.1⟩
  few := by omega
  apart := ha.2
  ready c hc := .inl (by unfold Plain at hp; rw [hc] at hp; exact hp.2.1)

/-- An attempt at what is pending. -/
theorem due_apply {R K : Nat} (hR : Clear ctx.router R K) {m : Mach ρ} (h1 : m.slice.rows = R) (h2 : m.slice.cols = K) {i : Instr} {k : Nat} (hd : Due m.slice i k) {r : Res (Mach ρ)}
    (h : Apply.apply ctx m i = .ok r) :
    (r.err = true → ∀ s', r.slice.slice.advance ctx.layout = .ok s' → ∀ w, Due s' { r.instr with wait := w } k) ∧
    (r.err = false → ∀ f ∈ r.followups, ∀ s', r.slice.slice.advance ctx.layout = .ok s' → Due s' f (k + 1)) := by
  obtain ⟨⟨x, l, hg, hl, hb⟩, hfew, hap, hready⟩ := hd
  have hn := going_apply h (x := x) (l := l) (by rw [hR.1]; exact hg)
  rw [hR.1] at hn
  by_cases hc : ∃ c, i.op = .bellCnot c
  · obtain ⟨c, hc⟩ := hc
    have hne := hap c hc
    obtain ⟨c0, hx, e1, e2, e3, e4⟩ := going_cnot hg hc
    cases hcp : c.counterPairs with
    | none =>
      have hl0 := e3 hcp
      subst hl0
      have hk : k = 0 := hl.symm
      subst hk
      rcases fresh_apply hR h1 h2 hc hcp hne h with ⟨g1, g2, g3⟩ | ⟨g1, g2⟩ | ⟨g1, g2, g3⟩
      · refine ⟨fun _ s' hs w => ⟨⟨x, [], by rw [g2]; exact hg, rfl, hb⟩, by omega, fun c' hc' => hap c' (by rw [g2] at hc'; exact hc'), ?_⟩, fun h => by rw [g1] at h; cases h⟩
        intro c' hc'
        rw [g2] at hc'
        have : c' = c := by injection hc'.symm.trans hc
        subst this
        exact .inl hcp
      · exact ⟨fun h => (by rw [g1] at h; cases h), fun _ f hf => by rw [g2] at hf; cases hf⟩
      · refine ⟨fun h => (by rw [g1] at h; cases h), fun _ f hf s' hs => ?_⟩
        have hgo := (hn.2 g1).2 f hf
        rw [g2, List.mem_singleton] at hf
        subst hf
        refine ⟨⟨x, _, hgo, by simp, hb⟩, by omega, fun c' hc' => ?_, g3 _ _ hs⟩
        obtain ⟨c1, hx1, f1, f2, -⟩ := going_cnot hgo hc'
        rw [hx] at hx1
        cases hx1
        rw [← f1, ← f2, e1, e2]
        exact hne
    | some ps =>
      rcases ready_apply hR.1 hc (by rw [hcp]; simp) hready h with ⟨g1, g2⟩ | ⟨g1, g2, g3⟩
      · exact ⟨fun h => (by rw [g1] at h; cases h), fun _ f hf => by rw [g2] at hf; cases hf⟩
      · refine ⟨fun _ s' hs w => ⟨⟨x, l, by rw [g2]; exact hg, hl, hb⟩, hfew, fun c' hc' => hap c' (by rw [g2] at hc'; exact hc'), ?_⟩, fun h => by rw [g1] at h; cases h⟩
        have := ready_kept (by rw [g3] at hs; exact hs) hready
        rw [g2]
        exact this
  · have hxc : ∀ c, x ≠ .bellCnot c := by
      rintro c rfl
      generalize i.op = o at hg hc
      cases hg with
      | fresh h => exact hc ⟨_, rfl⟩
      | cnot he hne hl hp => exact hc ⟨_, rfl⟩
      | routed he h => cases he
      | crossing he => cases he
    have key : ∀ {l' : List Operation} {o : Operation}, Going false x l' o → ∀ c, o ≠ .bellCnot c := by
      intro l' o hg c ho
      obtain ⟨c0, hx, -⟩ := going_cnot hg ho
      exact hxc c0 hx
    refine ⟨fun he s' hs w => ?_, fun he f hf s' hs => ?_⟩
    · have hgo := hn.1 he
      exact ⟨⟨x, l, hgo, hl, hb⟩, hfew, fun c hc => absurd hc (key hgo c), fun c hc => absurd hc (key hgo c)⟩
    · have hgo := (hn.2 he).2 f hf
      have hs := going_short hgo hb (key hgo)
      rw [List.length_append] at hs
      exact ⟨⟨x, _, hgo, by simp [hl], hb⟩, by simp at hs; omega, fun c hc => absurd hc (key hgo c), fun c hc => absurd hc (key hgo c)⟩

/-- The state of the loop when at most `B` instructions are shown altogether. -/
structure Within (B R K : Nat) (st : SSt (Mach ρ)) : Prop where
  rows : st.slice.slice.rows = R
  cols : st.slice.slice.cols = K
  stream : ∀ i ∈ st.stream, Plain i ∧ Apart i
  pending : (st.future = [] ∧ told st + 4 * st.stream.length ≤ B) ∨ ∃ it k, st.future = [it] ∧ Due st.slice.slice it.instr k ∧ told st + 4 * st.stream.length + 4 ≤ B + k

theorem sizes_apply {m : Mach ρ} {i : Instr} {r : Res (Mach ρ)} (h : Apply.apply ctx m i = .ok r) : r.slice.slice.rows = m.slice.rows ∧ r.slice.slice.cols = m.slice.cols := by
  have := Apply.sized_apply (z := (m.slice.rows, m.slice.cols, m.slice.times.length)) rfl h
  unfold Sized at this
  injection this with a b
  injection b with b c
  exact ⟨a, b⟩

theorem sizes_advance {L : Layout} {s s' : DSlice} (h : s.advance L = .ok s') : s'.rows = s.rows ∧ s'.cols = s.cols := by
  have := Apply.sized_advance (z := (s.rows, s.cols, s.times.length)) rfl h
  unfold Sized at this
  injection this with a b
  injection b with b c
  exact ⟨a, b⟩

theorem sstep_within {realloc : Nat → Bool} {B R K : Nat} (hR : Clear ctx.router R K) {st st' : SSt (Mach ρ)} (h : sstep (env ctx realloc) st = .ok (.go, st')) (hw : Within B R K st) :
    Within B R K st' := by
  unfold sstep at h
  cases ht : takeNext st with
  | none => rw [ht] at h; cases h
  | some x =>
    obtain ⟨it, st1⟩ := x
    have hB := budgets (W := maxWait) ctx realloc hR.1 (Nat.le_refl _)
    obtain ⟨k, hsl, htold, hfut, hdue, hle, hstr⟩ : ∃ k, st1.slice = st.slice ∧ told st1 = told st ∧ st1.future = [] ∧ Due st.slice.slice it.instr k ∧
        told st1 + 4 * st1.stream.length + 4 ≤ B + k ∧ ∀ i ∈ st1.stream, Plain i ∧ Apart i := by
      unfold takeNext at ht
      rcases hw.pending with ⟨hf, hp⟩ | ⟨it', k, hf, hd, hp⟩
      · rw [hf] at ht
        dsimp only at ht
        split at ht
        · rename_i i is hs
          cases ht
          have hi := hw.stream i (by rw [hs]; simp)
          refine ⟨0, rfl, rfl, rfl, due_fresh hi.1 hi.2, ?_, fun j hj => hw.stream j (by rw [hs]; simp [hj])⟩
          rw [hs, List.length_cons] at hp
          show told st + _ + _ ≤ _
          dsimp only
          omega
        · cases ht
      · rw [hf] at ht
        cases ht
        exact ⟨k, rfl, rfl, rfl, hd, hp, hw.stream⟩
    rw [ht] at h
    dsimp only at h
    obtain ⟨r, hr, h⟩ := Outcome.bind_eq_ok.1 h
    rw [hsl] at hr
    obtain ⟨d1, d2⟩ := due_apply hR hw.rows hw.cols hdue hr
    obtain ⟨z1, z2⟩ := sizes_apply hr
    have hk := hdue.few
    unfold react at h
    dsimp only at h
    split at h
    · rename_i hf
      have he : r.err = false := by
        cases e : r.err with
        | false => rfl
        | true => exact absurd (hB.alone _ _ _ hr e) hf
      obtain ⟨s, hs, h⟩ := Outcome.bind_eq_ok.1 h
      obtain ⟨s', hadv, hs2⟩ := Outcome.bind_eq_ok.1 hs
      cases hs2
      cases h
      obtain ⟨z3, z4⟩ := sizes_advance hadv
      have ho := hB.one _ _ _ hr
      refine ⟨z3.trans (z1.trans hw.rows), z4.trans (z2.trans hw.cols), hstr, .inr ?_⟩
      match hx : r.followups, ho, hf with
      | [f], _, _ =>
        have := d2 he f (by rw [hx]; simp) s' hadv
        refine ⟨⟨f, it.tag, 0, f.wait⟩, k + 1, by rw [hfut]; rfl, this, ?_⟩
        unfold told at hle ⊢
        dsimp only
        rw [instrs_count_append, instrs_count_append, instrs_count_append, he]
        show _ + 0 + 1 + 0 + _ + _ ≤ _
        omega
      | _ :: _ :: _, ho, _ => simp at ho
    · split at h
      · rename_i he
        split at h
        · cases h
        · obtain ⟨s, hs, h⟩ := Outcome.bind_eq_ok.1 h
          obtain ⟨s', hadv, hs2⟩ := Outcome.bind_eq_ok.1 hs
          cases hs2
          cases h
          obtain ⟨z3, z4⟩ := sizes_advance hadv
          refine ⟨z3.trans (z1.trans hw.rows), z4.trans (z2.trans hw.cols), hstr, .inr ⟨_, k, by rw [hfut], d1 he s' hadv _, ?_⟩⟩
          unfold told at hle ⊢
          dsimp only
          rw [instrs_count_append, instrs_count_append, instrs_count_append]
          exact hle
      · cases h
        refine ⟨z1.trans hw.rows, z2.trans hw.cols, hstr, .inl ⟨hfut, ?_⟩⟩
        unfold told at hle ⊢
        dsimp only
        rw [instrs_count_append, instrs_count_append]
        show _ + (0 + 1) + _ ≤ _
        omega

theorem srun_within {realloc : Nat → Bool} {B R K : Nat} (hR : Clear ctx.router R K) (n : Nat) : ∀ {st st' : SSt (Mach ρ)}, srun (env ctx realloc) n st = .ok (.go, st') → Within B R K st → Within B R K st' := by
  induction n with
  | zero => intro st st' h hw; cases h; exact hw
  | succ n ih =>
    intro st st' h hw
    rw [srun] at h
    obtain ⟨⟨c, st1⟩, h1, h⟩ := Outcome.bind_eq_ok.1 h
    dsimp only at h
    split at h
    · rename_i hc
      subst hc
      exact ih h (sstep_within hR h1 hw)
    · rename_i hc
      cases h
      exact absurd rfl hc

end

namespace Spec

section
variable {ρ : Type} {ctx : Ctx ρ} {realloc : Nat → Bool} {P : List Instr} {m : Mach ρ}

/-- C69: a CNOT made of Bell pairs is done in two steps. If the first attempt leaves something to be done, an attempt in the next slice does all of it unless it fails, and then nothing
has changed but the slice. -/
theorem c69_cnot_twice {i : Instr} {c : BellCNOT} (hi : i.op = .bellCnot c) (hp : Plain i) (hne : c.control ≠ c.target) (hR : Clear ctx.router m.slice.rows m.slice.cols) {r r' : Res (Mach ρ)} {f : Instr}
    (h : Apply.apply ctx m i = .ok r) (hf : f ∈ r.followups) {m' : Mach ρ} (hs : Apply.step ctx r.slice = .ok m') (h' : Apply.apply ctx m' f = .ok r') :
    r.err = false ∧ (r'.err = false ∧ r'.followups = [] ∨ r'.err = true ∧ r'.instr = f ∧ r'.slice = m') := by
  have hc : c.counterPairs = none := by unfold Plain at hp; rw [hi] at hp; exact hp.2.1
  obtain ⟨s', hadv, hs2⟩ := Outcome.bind_eq_ok.1 hs
  cases hs2
  rcases fresh_apply hR rfl rfl hi hc hne h with ⟨g1, g2, g3⟩ | ⟨g1, g2⟩ | ⟨g1, g2, g3⟩
  · have := (budgets (W := maxWait) ctx (fun _ => false) hR.1 (Nat.le_refl _)).alone _ _ _ h g1
    rw [this] at hf; cases hf
  · rw [g2] at hf; cases hf
  · rw [g2, List.mem_singleton] at hf
    subst hf
    refine ⟨g1, ?_⟩
    have hk := kept_apply h
    obtain ⟨c', hc'⟩ : ∃ c', r.instr.op = .bellCnot c' ∧ c'.counterPairs ≠ none := by
      have hn := going_apply h (x := i.op) (l := []) (.fresh (by unfold Plain at hp ⊢; exact hp))
      have hgo := (hn.2 g1).2 r.instr (by rw [g2]; simp)
      rw [hR.1, hi] at hgo
      generalize hl : [] ++ [r.instr.op] = l at hgo
      generalize ho : r.instr.op = o at hgo
      cases hgo with
      | fresh => cases hl
      | cnot => exact ⟨_, rfl, by simp⟩
      | routed he => cases he
      | crossing he => cases he
    exact ready_apply hR.1 hc'.1 hc'.2 (g3 _ _ hadv) h'

/-- C69 for the streamed pipeline with CNOTs made of Bell pairs: with a router that looks for routes over free cells it comes to an end. -/
theorem c69_streamed_cnots (hP : ∀ i ∈ P, Plain i ∧ Apart i) (hR : Clear ctx.router m.slice.rows m.slice.cols) {n : Nat} {c : Ctl} {st : SSt (Mach ρ)}
    (h : srun (env ctx realloc) n (sstart m P) = .ok (c, st)) (hn : 5 * P.length * (patience P + 1) < n) : c ≠ .go := by
  rintro rfl
  have h0 : Within (4 * P.length) m.slice.rows m.slice.cols (sstart m P) := ⟨rfl, rfl, hP, .inl ⟨rfl, by show 0 + _ ≤ _; simp [sstart]⟩⟩
  have h1 := srun_within hR n h h0
  have h2 := c69_streamed_waits hR.1 h
  have h3 : told st ≤ 4 * P.length := by
    rcases h1.pending with ⟨-, h⟩ | ⟨it, k, -, hd, h⟩
    · omega
    · have := hd.few; omega
  have h4 := Nat.mul_le_mul_right (patience P + 1) h3
  unfold told at h4
  rw [Nat.mul_assoc] at hn h4
  have h5 : P.length * patience P ≤ P.length * (patience P + 1) := Nat.mul_le_mul_left _ (Nat.le_succ _)
  omega

/-- The search of the code without a cache is such a router, for slices of the size of the layout. -/
theorem clear_dp {L : Layout} {pick : Search.Pick} {stop : Bool} {s0 : DSlice} (h0 : Router.Spec.Fits L s0) : Clear (Router.dpRouter L pick stop false) s0.rows s0.cols := by
  refine ⟨rfl, fun rs s a b r rs' h1 h2 hne h x y hx hy => ?_⟩
  have hf : Router.Spec.Fits L s := by
    obtain ⟨a1, a2, a3, a4⟩ := h0
    exact ⟨a1, a2, by rw [h1]; exact a3, by rw [h2]; exact a4⟩
  have hr : Router.Spec.RealEnds false s a b := fun h => (nomatch h)
  have hfind := Quantum.Spec.dp_find h
  refine ⟨(Quantum.Spec.route_suits (c := { control := a, target := b, side1 := 0, side2 := 0 }) hf hr hne hfind hx hy).1, fun c hc => ?_⟩
  obtain ⟨_, _, -, -, adm, -⟩ := Router.Spec.c33_route hf hr hfind
  rcases adm.clear c hc with e | ⟨e, -⟩
  · exact e
  · cases e

end

end Spec

end Verif.Ends
