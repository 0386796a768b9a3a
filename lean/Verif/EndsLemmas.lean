import Verif.Ends

/-! # Slicing comes to an end: specification, number of steps, what is compiled (C69) -/

namespace Verif.Ends

open Verif Apply Verif.Wave Verif.Wave.Spec Verif.Pipe Verif.Pipe.Spec Verif.Real Verif.Slices.Spec Verif.Course.Spec

namespace Spec

/-- Neither a Bell pair nor a CNOT made of Bell pairs. -/
def Brief (i : Instr) : Prop := (∀ b, i.op ≠ .bell b) ∧ ∀ c, i.op ≠ .bellCnot c

/-- The most rounds an instruction may wait, as far as the program tells: an instruction that says nothing, and every follow-up, may wait `2^64 - 1` rounds. -/
def patience (P : List Instr) : Nat := P.foldr (fun i w => max i.wait w) maxWait

end Spec

open Spec

theorem patience_le {P : List Instr} : maxWait ≤ patience P ∧ ∀ i ∈ P, i.wait ≤ patience P := by
  induction P with
  | nil => exact ⟨Nat.le_refl _, by simp⟩
  | cons a P ih =>
    unfold patience at ih ⊢
    rw [List.foldr_cons]
    refine ⟨by omega, ?_⟩
    intro i hi
    rcases List.mem_cons.1 hi with rfl | hi
    · omega
    · have := ih.2 i hi; omega

theorem count_parts {α : Type} (B : Nat) : ∀ (N : Nat) (z : List (Nat × α)), (∀ x ∈ z, x.1 < N) → (∀ k < N, (z.filter fun x => x.1 == k).length ≤ B) → z.length ≤ B * N
  | 0, z, h, _ => by
    cases z with
    | nil => simp
    | cons a z => exact absurd (h a (by simp)) (by omega)
  | N + 1, z, h, hk => by
    have h1 := hk N (by omega)
    have h2 := count_parts B N (z.filter fun x => x.1 != N) (by
      intro x hx
      obtain ⟨h3, h4⟩ := List.mem_filter.1 hx
      have := h x h3
      simp at h4
      omega) (by
      intro k hk'
      have : ((z.filter fun x => x.1 != N).filter fun x => x.1 == k) = z.filter fun x => x.1 == k := by
        rw [List.filter_filter]
        apply List.filter_congr
        intro x _
        by_cases e : x.1 = k
        · simp [e]; omega
        · simp [e]
      rw [this]
      exact hk k (by omega))
    have h3 : z.length = (z.filter fun x => x.1 == N).length + (z.filter fun x => x.1 != N).length := by
      clear h hk h1 h2
      induction z with
      | nil => rfl
      | cons a z ih =>
        by_cases e : a.1 = N
        · simp [List.filter_cons, e]; omega
        · simp [List.filter_cons, e]; omega
    rw [Nat.mul_add]
    omega

theorem done_short {edpc : Bool} {o : Operation} {l more : List Operation} (h1 : ∀ b, o ≠ .bell b) (h2 : ∀ c, o ≠ .bellCnot c) (h : Done edpc o (l ++ more)) : l.length ≤ 4 := by
  have : (l ++ more).length ≤ 4 := by
    generalize l ++ more = l' at h
    cases h with
    | bell => exact absurd rfl (h1 _)
    | cnot => exact absurd rfl (h2 _)
    | crossing => exact absurd rfl (h2 _)
    | _ => simp_all
  rw [List.length_append] at this
  omega

/-- A program without Bell pairs is shown in at most four steps per instruction. -/
theorem carried_short {edpc : Bool} {P is : List Instr} {whole : Prop} {tags : List Nat} (hb : ∀ i ∈ P, Brief i) (h : Carried edpc P is whole tags) : is.length ≤ 4 * P.length := by
  have h1 : (tags.zip is).length = is.length := by rw [List.length_zip, h.length]; omega
  rw [← h1]
  refine count_parts 4 P.length _ (fun x hx => h.index _ (List.of_mem_zip hx).1) (fun k hk => ?_)
  have h2 : (stepsOf tags is k).length ≤ 4 := by
    rcases h.steps k P[k] (List.getElem?_eq_getElem hk) with ⟨e, -⟩ | ⟨more, hd, -⟩
    · rw [e]; simp
    · have := hb _ (List.getElem_mem hk)
      exact done_short this.1 this.2 hd
  simpa [stepsOf] using h2

/-! ### What is compiled -/

section
open Verif.Gates Verif.Stream Verif.Stream.Spec

namespace Spec

/-- A controlled gate to be made of Bell pairs, as it can be asked for in the input. -/
def OnBells (g : Gate) : Prop := ∃ c t pl, g = .ctrl c t .bellBased pl

end Spec

/-- All the time to wait; and, if that is asked for, no Bell pair. -/
def Easy (b : Prop) (i : Instr) : Prop := i.wait = maxWait ∧ (b → Brief i)

theorem easy_plain {b : Prop} {o : Operation} (h : Brief (plain o)) : Easy b (plain o) := ⟨rfl, fun _ => h⟩

theorem easy_cnot {b : Prop} {loc : Bool} {c x y : Nat} {ty : CnotType} {pl : Placement} {al : Bool} {l : List Instr} {c' : Nat} (hb : b → ty ≠ .bellBased ∧ loc = false)
    (h : makeCnot loc c x y ty pl al = .ok (l, c')) : ∀ i ∈ l, Easy b i := by
  unfold makeCnot at h
  split at h
  · rename_i hx
    dsimp only [newId] at h; split at h
    · cases h
    · cases h
      intro i hi
      rw [List.mem_singleton] at hi
      subst hi
      refine ⟨rfl, fun hb' => ?_⟩
      obtain ⟨h1, h2⟩ := hb hb'
      rcases hx with hx | hx
      · exact absurd hx h1
      · rw [h2] at hx; cases hx
  · cases h
    cases ty <;> cases al <;> simp [cnotMiddle, plain, Easy, Brief]

theorem easy_t {b : Prop} {loc : Bool} {c a : Nat} {l : List Instr} {c' : Nat} (hb : b → loc = false) (h : makeT loc c a = .ok (l, c')) : ∀ i ∈ l, Easy b i := by
  unfold makeT at h
  dsimp only [newId] at h
  split at h
  · rename_i hl
    obtain ⟨⟨is, c1⟩, h1, h⟩ := Outcome.bind_eq_ok.1 h
    cases h
    have := easy_cnot (b := b) (fun x => by rw [hb x] at hl; cases hl) h1
    intro i hi
    simp only [List.mem_append, List.mem_cons, List.not_mem_nil, or_false] at hi
    rcases hi with (rfl | hi) | rfl | rfl
    · simp [Easy, Brief]
    · exact this i hi
    · simp [Easy, Brief, plain]
    · simp [Easy, Brief, plain]
  · cases h
    simp [Easy, Brief, plain]

theorem easy_gate {b : Prop} {m : Mode} {c : Nat} {g : Gate} {is : List Instr} {c' : Nat} (hb : b → m.loc = false ∧ ¬ OnBells g) (h : compileGate m c g = .ok (is, c')) : ∀ i ∈ is, Easy b i := by
  match g, h with
  | .basic q .Z, h => cases h; simp [Easy, Brief, plain]
  | .basic q .X, h => cases h; simp [Easy, Brief, plain]
  | .basic q .Y, h => cases h; simp [Easy, Brief, plain]
  | .basic q .H, h => cases h; simp [Easy, Brief, plain]
  | .basic q .S, h => cases h; simp [Easy, Brief, plain]
  | .basic q .SDg, h => cases h; simp [Easy, Brief, plain]
  | .basic q .T, h => exact easy_t (fun x => (hb x).1) h
  | .basic q .TDg, h => exact easy_t (fun x => (hb x).1) h
  | .rz q f, h =>
    rw [compileGate] at h
    split at h
    · cases h; simp [Easy, Brief, plain]
    · split at h
      · cases h; simp [Easy, Brief, plain]
      · split at h
        · exact easy_t (fun x => (hb x).1) h
        · cases h
  | .reset r q, h =>
    rw [compileGate] at h
    split at h
    · cases h
    · cases h; simp [Easy, Brief, plain]
  | .ctrl a (.basic t .X) ty pl, h => exact easy_cnot (fun x => ⟨fun e => (hb x).2 ⟨_, _, _, by rw [e]⟩, (hb x).1⟩) h
  | .ctrl a (.basic t .Z) ty pl, h =>
    simp only [compileGate, Outcome.bind_eq_ok] at h
    obtain ⟨⟨l, c1⟩, h1, h2⟩ := h
    cases h2
    have := easy_cnot (b := b) (fun x => ⟨fun e => (hb x).2 ⟨_, _, _, by rw [e]⟩, (hb x).1⟩) h1
    intro i hi
    simp only [List.mem_append, List.mem_cons, List.not_mem_nil, or_false] at hi
    rcases hi with (rfl | hi) | rfl
    · simp [Easy, Brief, plain]
    · exact this i hi
    · simp [Easy, Brief, plain]
  | .ctrl a (.rz t f) ty pl, h => cases h
  | .ctrl a (.basic t .Y) ty pl, h => cases h
  | .ctrl a (.basic t .H) ty pl, h => cases h
  | .ctrl a (.basic t .S) ty pl, h => cases h
  | .ctrl a (.basic t .SDg) ty pl, h => cases h
  | .ctrl a (.basic t .T) ty pl, h => cases h
  | .ctrl a (.basic t .TDg) ty pl, h => cases h

/-- The injection stages keep it. -/
def EasyExp (b : Prop) {τ : Type} (e : τ → Nat → Instr → Outcome (List Instr × τ × Nat)) : Prop :=
  ∀ t c i l t' c', e t c i = .ok (l, t', c') → Easy b i → ∀ j ∈ l, Easy b j

theorem easy_list {b : Prop} {τ : Type} {e : τ → Nat → Instr → Outcome (List Instr × τ × Nat)} (he : EasyExp b e) : ∀ {is : List Instr} {t t' : τ} {c c' : Nat} {l : List Instr},
    expandList e t c is = .ok (l, t', c') → (∀ i ∈ is, Easy b i) → ∀ j ∈ l, Easy b j
  | [], _, _, _, _, _, h, _ => by cases h; simp
  | i :: is, t, t', c, c', l, h, hi => by
    simp only [expandList, Outcome.bind_eq_ok] at h
    obtain ⟨⟨l1, t1, c1⟩, h1, ⟨l2, t2, c2⟩, h2, h3⟩ := h
    cases h3
    intro j hj
    rcases List.mem_append.1 hj with hj | hj
    · exact he _ _ _ _ _ _ h1 (hi i (by simp)) j hj
    · exact easy_list he h2 (fun x hx => hi x (by simp [hx])) j hj

theorem easy_id {b : Prop} : EasyExp b idExpand := by
  intro t c i l t' c' h hi; cases h; simpa using hi

theorem easy_rotated {b : Prop} {i j : Instr} {q : Nat} (hi : Easy b i) (hj : j ∈ [i, plain (.rotate q)]) : Easy b j := by
  simp only [List.mem_cons, List.not_mem_nil, or_false] at hj
  rcases hj with rfl | rfl
  · exact hi
  · simp [Easy, Brief, plain]

theorem easy_teleported {b : Prop} (core : List Nat) (rot : Bool) : EasyExp b (teleportedExpand core rot) := by
  intro t c i l t' c' h hi
  unfold teleportedExpand at h
  split at h
  · split at h
    · cases h
      simp [Easy, Brief, plain]
    · cases h; simpa using hi
  · split at h
    · cases h
      exact fun j hj => easy_rotated hi hj
    · cases h; simpa using hi
  · cases h; simpa using hi

theorem easy_catalytic {b : Prop} (core : List Nat) {loc : Bool} (rot : Bool) (hb : b → loc = false) : EasyExp b (catalyticExpand core loc rot) := by
  intro t c i l t' c' h hi
  unfold catalyticExpand at h
  split at h
  · split at h
    · simp only [Outcome.bind_eq_ok, newId] at h
      obtain ⟨⟨l1, c1⟩, h1, ⟨l2, c2⟩, h2, h3⟩ := h
      cases h3
      have e1 := easy_cnot (b := b) (fun x => ⟨by decide, hb x⟩) h1
      have e2 := easy_cnot (b := b) (fun x => ⟨by decide, hb x⟩) h2
      intro j hj
      simp only [List.mem_append, List.mem_cons, List.not_mem_nil, or_false] at hj
      rcases hj with (((rfl | hj) | rfl | rfl) | hj) | rfl | rfl | rfl
      · simp [Easy, Brief]
      · exact e1 j hj
      · simp [Easy, Brief, plain]
      · simp [Easy, Brief, plain]
      · exact e2 j hj
      · simp [Easy, Brief, plain]
      · simp [Easy, Brief, plain]
      · simp [Easy, Brief, plain]
    · cases h; simpa using hi
  · split at h
    · cases h
      exact fun j hj => easy_rotated hi hj
    · cases h; simpa using hi
  · cases h; simpa using hi

theorem easy_boundary {b : Prop} : EasyExp b boundaryExpand := by
  intro t c i l t' c' h hi
  obtain ⟨-, r, rfl, hr⟩ := boundary_shape h
  intro j hj
  rcases List.mem_append.1 hj with hj | hj
  · obtain ⟨p, -, rfl⟩ := hr j hj
    simp [Easy, Brief, plain]
  · rw [List.mem_singleton.1 hj]; exact hi

theorem easy_then {b : Prop} {τ υ : Type} {e : τ → Nat → Instr → Outcome (List Instr × τ × Nat)} {f : υ → Nat → Instr → Outcome (List Instr × υ × Nat)} (he : EasyExp b e) (hf : EasyExp b f) :
    EasyExp b (thenExpand e f) := by
  intro t c i l t' c' h hi
  simp only [thenExpand, Outcome.bind_eq_ok] at h
  obtain ⟨⟨l1, t1, c1⟩, h1, ⟨l2, t2, c2⟩, h2, h3⟩ := h
  cases h3
  exact easy_list hf h2 (he _ _ _ _ _ _ h1 hi)

theorem easy_stage {b : Prop} {τ : Type} {e : τ → Nat → Instr → Outcome (List Instr × τ × Nat)} (hne : NonemptyExp e) (he : EasyExp b e) {m : Mode} {gs : List Gate} (hg : b → m.loc = false ∧ ∀ g ∈ gs, ¬ OnBells g)
    {t : τ} {out : List Instr} {c c' : Nat} (h : Delivers (stage e (gateMachine m)) ((gs, []), t, []) c out c') : ∀ i ∈ out, Easy b i := by
  induction gs generalizing t c out with
  | nil =>
    rw [delivers_stage_gates_nil hne] at h
    obtain ⟨rfl, rfl⟩ := h
    simp
  | cons g gs ih =>
    rw [delivers_stage_gates_cons hne] at h
    obtain ⟨is, c1, l, t', c2, o, h1, h2, rfl, h3⟩ := h
    intro i hi
    rcases List.mem_append.1 hi with hi | hi
    · exact easy_list he h2 (easy_gate (fun x => ⟨(hg x).1, (hg x).2 g (by simp)⟩) h1) i hi
    · exact ih (fun x => ⟨(hg x).1, fun g' hg' => (hg x).2 g' (by simp [hg'])⟩) h3 i hi

theorem easy_compiled {b : Prop} {m : Mode} {n : Nat} {ex : ExposedMap} {prog : List Gate} {out : List Instr} (hg : b → m.loc = false ∧ ∀ g ∈ prog, ¬ OnBells g) (h : Compiles m n ex prog out) :
    ∀ i ∈ out, Easy b i := by
  obtain ⟨c', h | h | h | h⟩ := compiles_cases h
  · exact easy_stage id_ne easy_id hg h
  · exact easy_stage (teleported_ne _ _) (easy_teleported _ _) hg h
  · exact easy_stage (catalytic_ne _ _ _) (easy_catalytic _ _ (fun x => (hg x).1)) hg h
  · exact easy_stage (nonempty_then boundary_ne (teleported_ne _ _)) (easy_then easy_boundary (easy_teleported _ _)) hg h

theorem decomposed_bells {approx : Nat → Frac → Outcome (List Gate)} (hk : Slicer.Spec.KeepsQubit approx) {gs : List Gate} {ls : List (List Gate)} (h : Gates.Spec.ProgramDecomposesTo approx gs ls)
    (hb : ∀ g ∈ gs, ¬ OnBells g) : ∀ g ∈ ls.flatten, ¬ OnBells g := by
  have one : ∀ {q f l}, approx q f = .ok l → ∀ g ∈ l, ¬ OnBells g := by
    rintro q f l h g hg ⟨c, t, pl, rfl⟩
    have := hk q f l h _ hg
    cases t <;> simp [gateQubits] at this
  induction h with
  | nil => intro g hg; cases hg
  | cons h _ ih =>
    intro x hx
    rw [List.flatten_cons, List.mem_append] at hx
    rcases hx with hx | hx
    · cases h with
      | basic h => cases List.mem_singleton.1 hx; exact hb _ (by simp)
      | rz h => exact one h x hx
      | crz ha hb' he hd hn =>
        simp only [List.mem_append, List.mem_singleton] at hx
        have key : ∀ {c t f ty pl}, ¬ OnBells (.ctrl c (.rz t f) ty pl) → ¬ OnBells (.ctrl c (.basic t .X) ty pl) := by
          rintro c t f ty pl h1 ⟨c', t', pl', h2⟩
          cases h2
          exact h1 ⟨_, _, _, rfl⟩
        rcases hx with (((hx | hx) | rfl) | hx) | rfl
        · exact one ha x hx
        · exact one hb' x hx
        · exact key (hb _ List.mem_cons_self)
        · exact one he x hx
        · exact key (hb _ List.mem_cons_self)
    · exact ih (fun g hg => hb g (by simp [hg])) x hx

end

end Verif.Ends
