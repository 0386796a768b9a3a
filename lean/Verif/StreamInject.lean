import Verif.StreamLife

/-!
# Instruction streams: C14, C15, C16, what the injection stages add
-/

namespace Verif.Stream
open Verif.Gates

namespace Spec

/-- `out` is `src` with, in front of each instruction, some rotations of tracked patches that the instruction
uses. -/
inductive AddsRotations (tracked : Nat → Prop) : List Instr → List Instr → Prop
  | nil : AddsRotations tracked [] []
  | cons {i src rs out} (h : ∀ j ∈ rs, ∃ p, tracked p ∧ p ∈ uses i ∧ j = plain (.rotate p)) (t : AddsRotations tracked src out) :
      AddsRotations tracked (i :: src) (rs ++ i :: out)

/-- Is the instruction a patch rotation? -/
def isRotation (i : Instr) : Bool := match i.op with | .rotate _ => true | _ => false

end Spec
open Spec

theorem exposeOne_dom (m : ExposedMap) (p : Nat) (op : Pauli) :
    (∀ q, (exposeOne m p op).2 q = none ↔ m q = none) ∧ ((exposeOne m p op).1 ≠ [] → m p ≠ none) := by
  unfold exposeOne
  split
  · rename_i e he
    split
    · simp
    · refine ⟨fun q => ?_, fun _ => by simp [he]⟩
      by_cases h : q = p
      · subst h; simp [he]
      · dsimp only; rw [upd_other _ _ h]
  · simp

theorem exposeAll_dom {obs : List (Nat × Pauli)} {m : ExposedMap} {ps : List Nat} {r : List Instr} {m' : ExposedMap}
    (h : exposeAll obs m ps = .ok (r, m')) : (∀ q, m' q = none ↔ m q = none) ∧ ∀ j ∈ r, ∃ p ∈ ps, m p ≠ none ∧ j = plain (.rotate p) := by
  induction ps generalizing m r with
  | nil => cases h; simp
  | cons p ps ih =>
    obtain ⟨r1, m1, r2, hr1, h2, rfl⟩ := exposeAll_cons h
    have hm1 : (∀ q, m1 q = none ↔ m q = none) ∧ ∀ j ∈ r1, m p ≠ none ∧ j = plain (.rotate p) := by
      rcases hr1 with ⟨e, op, hm, _, h4⟩ | ⟨_, rfl, rfl⟩
      · have h5 := exposeOne_dom m p op
        have h6 := exposeOne_rot m p op
        rw [h4] at h5 h6
        refine ⟨h5.1, fun j hj => ⟨by simp [hm], ?_⟩⟩
        rcases h6 with h6 | h6
        · dsimp only at h6; rw [h6] at hj; simp at hj
        · dsimp only at h6; rw [h6] at hj; simpa using hj
      · simp
    obtain ⟨h3, h4⟩ := ih h2
    refine ⟨fun q => (h3 q).trans (hm1.1 q), ?_⟩
    intro j hj
    rcases List.mem_append.1 hj with hj | hj
    · exact ⟨p, by simp, hm1.2 j hj⟩
    · obtain ⟨q, hq, h5, h6⟩ := h4 j hj
      exact ⟨q, by simp [hq], fun h => h5 ((hm1.1 q).2 h), h6⟩

theorem boundary_dom {t : ExposedMap} {c : Nat} {i : Instr} {l : List Instr} {t' : ExposedMap} {c' : Nat}
    (h : boundaryExpand t c i = .ok (l, t', c')) :
    c' = c ∧ (∀ q, t' q = none ↔ t q = none) ∧ ∃ r, l = r ++ [i] ∧ ∀ j ∈ r, ∃ p, t p ≠ none ∧ p ∈ uses i ∧ j = plain (.rotate p) := by
  unfold boundaryExpand at h
  split at h
  · rename_i obs neg loc hop
    simp only [Outcome.bind_eq_ok] at h
    obtain ⟨⟨r, m⟩, h1, h2⟩ := h
    cases h2
    obtain ⟨h3, h4⟩ := exposeAll_dom h1
    refine ⟨rfl, h3, r, rfl, ?_⟩
    intro j hj
    obtain ⟨p, hp, hm, e⟩ := h4 j hj
    refine ⟨p, hm, ?_, e⟩
    rw [mem_operating] at hp
    unfold uses
    rw [hop] at hp ⊢
    simpa [Operation.ids] using hp
  · rename_i b hop
    simp only [Outcome.ok.injEq, Prod.mk.injEq] at h
    obtain ⟨rfl, rfl, rfl⟩ := h
    have h1 := exposeOne_dom t b.control .Z
    have h2 := exposeOne_dom (exposeOne t b.control .Z).2 b.target .X
    refine ⟨rfl, fun q => (h2.1 q).trans (h1.1 q), _, rfl, ?_⟩
    intro j hj
    unfold uses; rw [hop]
    rcases List.mem_append.1 hj with hj | hj
    · rcases exposeOne_rot t b.control .Z with h3 | h3
      · rw [h3] at hj; simp at hj
      · rw [h3] at hj; simp at hj; exact ⟨b.control, h1.2 (by simp [h3]), by simp, hj⟩
    · rcases exposeOne_rot (exposeOne t b.control .Z).2 b.target .X with h3 | h3
      · rw [h3] at hj; simp at hj
      · rw [h3] at hj; simp at hj; exact ⟨b.target, fun h => h2.2 (by simp [h3]) ((h1.1 _).2 h), by simp, hj⟩
  · rename_i q d hop
    split at h
    · rename_i e he
      cases h
      refine ⟨rfl, fun x => ?_, [], rfl, by simp⟩
      by_cases hx : x = q
      · subst hx; simp [he]
      · rw [upd_other _ _ hx]
    · cases h; exact ⟨rfl, fun _ => Iff.rfl, [], rfl, by simp⟩
  · rename_i q d hop
    simp only [Outcome.ok.injEq, Prod.mk.injEq] at h
    obtain ⟨rfl, rfl, rfl⟩ := h
    have h1 := exposeOne_dom t q .Z
    refine ⟨rfl, h1.1, _, rfl, ?_⟩
    intro j hj
    unfold uses; rw [hop]
    rcases exposeOne_rot t q .Z with h3 | h3
    · rw [h3] at hj; simp at hj
    · rw [h3] at hj; simp at hj; exact ⟨q, h1.2 (by simp [h3]), by simp, hj⟩
  · cases h; exact ⟨rfl, fun _ => Iff.rfl, [], rfl, by simp⟩

theorem addsRotations_congr {P Q : Nat → Prop} (hpq : ∀ x, P x → Q x) {a b : List Instr} (h : AddsRotations P a b) : AddsRotations Q a b := by
  induction h with
  | nil => exact .nil
  | cons h _ ih => exact .cons (fun j hj => by obtain ⟨p, h1, h2⟩ := h j hj; exact ⟨p, hpq _ h1, h2⟩) ih

theorem delivers_bound {σ : Type} {M : Machine σ} {s : σ} {c : Nat} {out : List Instr} {c' : Nat} (h : Delivers M s c out c') :
    ∃ fuel, M.run fuel s c = .ok (out, true, c') := ⟨out.length, (run_iff ..).2 ⟨h, Nat.le_refl _⟩⟩

/-- Boundary injection over any source. -/
theorem boundary_delivers {σ : Type} {M : Machine σ} {st : σ × ExposedMap × List Instr} {c : Nat} {out : List Instr} {c' : Nat}
    (h : Delivers (stage boundaryExpand M) st c out c') :
    ∃ o, out = st.2.2 ++ o ∧ ∃ src, Delivers M st.1 c src c' ∧ AddsRotations (fun p => st.2.1 p ≠ none) src o := by
  induction h with
  | @done s c h =>
    obtain ⟨s, t, q⟩ := s
    simp [stage] at h
    simp [h.1]
    exact ⟨[], .done h.2, .nil⟩
  | @step s c i s' c1 out c'' hh hn hr ih =>
    obtain ⟨s, t, q⟩ := s
    cases q with
    | cons j q =>
      simp only [stage] at hn
      cases hn
      obtain ⟨o, rfl, src, h1, h2⟩ := ih
      exact ⟨o, rfl, src, h1, h2⟩
    | nil =>
      simp only [stage, List.isEmpty_nil, Bool.not_true, Bool.false_or] at hh
      simp only [stage, hh, Bool.not_true, Bool.false_eq_true, if_false, Outcome.bind_eq_ok] at hn
      obtain ⟨⟨i0, s1, c0⟩, h1, ⟨l, t1, c2⟩, h2, ⟨i', q⟩, h3, h4⟩ := hn
      cases h4
      obtain ⟨e1, e2, r, e3, e4⟩ := boundary_dom h2
      dsimp only at e1 e3
      subst e1 e3
      obtain ⟨o, rfl, src, h5, h6⟩ := ih
      have hq : r ++ [i0] = i' :: q := by
        cases r with
        | nil => cases h3; rfl
        | cons x r => cases h3; rfl
      refine ⟨(i' :: q) ++ o, rfl, i0 :: src, .step hh h1 h5, ?_⟩
      rw [← hq, List.append_assoc]
      exact .cons e4 (addsRotations_congr (fun x hx => fun h => hx ((e2 x).2 h)) h6)

namespace Spec

/-- **C14.** Over any source of instructions the boundary-rotation stage delivers the source's instructions,
same ids, same order, with rotations of tracked core patches added in front of instructions using them, and
nothing else. -/
theorem c14_only_rotations {σ : Type} (M : Machine σ) (s : σ) (exposed : ExposedMap) (fuel c c' : Nat) (out : List Instr)
    (h : (stage boundaryExpand M).run fuel (s, exposed, []) c = .ok (out, true, c')) :
    ∃ src fuel', M.run fuel' s c = .ok (src, true, c') ∧ AddsRotations (fun p => exposed p ≠ none) src out := by
  obtain ⟨o, rfl, src, h1, h2⟩ := boundary_delivers ((run_iff ..).1 h).1
  obtain ⟨f, hf⟩ := delivers_bound h1
  exact ⟨src, f, hf, h2⟩

theorem adds_filter {P : Nat → Prop} {src out : List Instr} (h : AddsRotations P src out) :
    out.filter (fun i => !isRotation i) = src.filter (fun i => !isRotation i) := by
  induction h with
  | nil => rfl
  | @cons i src rs out h _ ih =>
    rw [List.filter_append, List.filter_cons, List.filter_cons, ih]
    have : rs.filter (fun i => !isRotation i) = [] := by
      rw [List.filter_eq_nil_iff]
      intro j hj
      obtain ⟨p, _, _, rfl⟩ := h j hj
      simp [isRotation, plain]
    rw [this]; rfl

/-- **C14.** If the source contains no rotation, dropping the rotations from the output gives back the source. -/
theorem c14_drop {σ : Type} (M : Machine σ) (s : σ) (exposed : ExposedMap) (fuel c c' : Nat) (out : List Instr)
    (h : (stage boundaryExpand M).run fuel (s, exposed, []) c = .ok (out, true, c')) :
    ∃ src fuel', M.run fuel' s c = .ok (src, true, c') ∧ ((∀ i ∈ src, isRotation i = false) → out.filter (fun i => !isRotation i) = src) := by
  obtain ⟨src, f, h1, h2⟩ := c14_only_rotations M s exposed fuel c c' out h
  refine ⟨src, f, h1, fun h3 => ?_⟩
  rw [adds_filter h2, List.filter_eq_self]
  intro i hi; simp [h3 i hi]

/-- Two measurements of patch 0, in Z and then X, patch 0 exposing Z: one rotation is added. -/
example : ∃ out, (stage boundaryExpand listMachine).run 10
    ([plain (.multi [(0, .Z), (5, .Z)] false none), plain (.multi [(0, .X), (5, .Z)] false none)], (fun q => if q = 0 then some ⟨false, true⟩ else none), []) 7 =
      .ok (out, true, 7) ∧ out.length = 3 := ⟨_, rfl, rfl⟩

/-! ### C15 -/

/-- The operators a patch shows towards empty cells: X where a rough side has one, Z where a smooth side has one. -/
structure Facing where
  x : Bool
  z : Bool
  deriving DecidableEq, Repr

/-- The patch shows that operator; Y is never shown. -/
def Facing.shows (f : Facing) : Pauli → Bool
  | .X => f.x
  | .Z => f.z
  | _ => false

/-- What a patch shows after being turned by 90 degrees (or after a Hadamard). -/
def turned (f : Facing) : Facing := ⟨f.z, f.x⟩

/-- Following the orientation of the tracked patches through an instruction sequence: `none` if an instruction
meets a tracked patch that does not expose the operator it needs: the measured one for a joint measurement,
Z on the control and X on the target of a Bell-based CNOT. -/
def faceStep (o : Nat → Option Facing) (i : Instr) : Option (Nat → Option Facing) :=
  match i.op with
  | .multi obs _ _ => if ∀ e ∈ obs, ∀ f, o e.1 = some f → f.shows e.2 then some o else none
  | .bellCnot b => if (∀ f, o b.control = some f → f.shows .Z) ∧ (∀ f, o b.target = some f → f.shows .X) then some o else none
  | .rotate p => some (fun q => if q = p then (o q).map turned else o q)
  | .sq p .H _ => some (fun q => if q = p then (o q).map turned else o q)
  | _ => some o

def faceRun (o : Nat → Option Facing) : List Instr → Option (Nat → Option Facing)
  | [] => some o
  | i :: is => (faceStep o i).bind fun o => faceRun o is

/-- What the stage needs of its source: joint measurements name each patch once and ask X or Z of tracked
patches, Bell-based CNOTs have two different operands, and the source does not itself rotate tracked patches. -/
def Suitable (tracked : Nat → Prop) (i : Instr) : Prop :=
  match i.op with
  | .multi obs _ _ => (obs.map (·.1)).Nodup ∧ ∀ e ∈ obs, tracked e.1 → e.2 = .X ∨ e.2 = .Z
  | .bellCnot b => b.control ≠ b.target
  | .rotate p => ¬ tracked p
  | _ => True

/-- What the stage keeps for a patch agrees with what the patch shows: the same, if the patch shows one operator; anything, if
it shows both, as it does whichever way it is turned. -/
def Agrees (e : Exposed) (f : Facing) : Prop := (f.x = true ∧ f.z = true) ∨ (f.x ≠ f.z ∧ e.x = f.x ∧ e.z = f.z)

/-- The map given to the stage describes what the patches show. -/
def Describes (m : ExposedMap) (o : Nat → Option Facing) : Prop :=
  ∀ p, (m p = none ∧ o p = none) ∨ ∃ e f, m p = some e ∧ o p = some f ∧ Agrees e f

end Spec

theorem Spec.Agrees.turn {e : Exposed} {f : Facing} (h : Agrees e f) : Agrees e.rotate (turned f) := by
  obtain ⟨a, b⟩ := e; obtain ⟨x, z⟩ := f
  cases a <;> cases b <;> cases x <;> cases z <;> simp_all [Agrees, turned, Exposed.rotate]

theorem Spec.Agrees.shown {e : Exposed} {f : Facing} (h : Agrees e f) {op : Pauli} (hop : op = .X ∨ op = .Z) (he : e.isExposed op = true) :
    f.shows op = true := by
  obtain ⟨a, b⟩ := e; obtain ⟨x, z⟩ := f
  rcases hop with rfl | rfl <;> cases a <;> cases b <;> cases x <;> cases z <;> simp_all [Agrees, Exposed.isExposed, Facing.shows]

theorem Spec.Agrees.shown_turned {e : Exposed} {f : Facing} (h : Agrees e f) {op : Pauli} (hop : op = .X ∨ op = .Z) (he : ¬ e.isExposed op = true) :
    (turned f).shows op = true := by
  obtain ⟨a, b⟩ := e; obtain ⟨x, z⟩ := f
  rcases hop with rfl | rfl <;> cases a <;> cases b <;> cases x <;> cases z <;> simp_all [Agrees, Exposed.isExposed, Facing.shows, turned]

theorem describes_some {m : ExposedMap} {o : Nat → Option Facing} (h : Describes m o) {p : Nat} {e : Exposed} (he : m p = some e) :
    ∃ f, o p = some f ∧ Agrees e f := by
  rcases h p with ⟨h1, _⟩ | ⟨e', f, h1, h2, h3⟩
  · rw [he] at h1; cases h1
  · rw [he] at h1; cases h1; exact ⟨f, h2, h3⟩

theorem describes_none {m : ExposedMap} {o : Nat → Option Facing} (h : Describes m o) {p : Nat} (hp : m p = none) : o p = none := by
  rcases h p with ⟨_, h1⟩ | ⟨e', f, h1, _⟩
  · exact h1
  · rw [hp] at h1; cases h1

theorem describes_turn {m : ExposedMap} {o : Nat → Option Facing} (h : Describes m o) {p : Nat} {e : Exposed} (he : m p = some e) :
    Describes (upd m p (some e.rotate)) (fun q => if q = p then (o q).map turned else o q) := by
  intro q
  by_cases hq : q = p
  · subst hq
    dsimp only; rw [upd_same, if_pos rfl]
    obtain ⟨f, h2, h3⟩ := describes_some h he
    exact Or.inr ⟨_, _, rfl, by rw [h2]; rfl, h3.turn⟩
  · dsimp only; rw [upd_other _ _ hq, if_neg hq]; exact h q

theorem describes_turn_none {m : ExposedMap} {o : Nat → Option Facing} (h : Describes m o) {p : Nat} (hp : m p = none) :
    Describes m (fun q => if q = p then (o q).map turned else o q) := by
  intro q
  by_cases hq : q = p
  · subst hq
    dsimp only; rw [if_pos rfl]
    exact Or.inl ⟨hp, by rw [describes_none h hp]; rfl⟩
  · dsimp only; rw [if_neg hq]; exact h q

theorem faceRun_append (o : Nat → Option Facing) (a b : List Instr) : faceRun o (a ++ b) = (faceRun o a).bind fun o => faceRun o b := by
  induction a generalizing o with
  | nil => rfl
  | cons i a ih =>
    simp only [List.cons_append, faceRun]
    cases h : faceStep o i with
    | none => rfl
    | some o' => exact ih o'

/-- One `exposeOne`: afterwards the operator is exposed, other patches untouched. -/
theorem expose_face {m : ExposedMap} {o : Nat → Option Facing} (h : Describes m o) (p : Nat) {op : Pauli} (hop : m p ≠ none → op = .X ∨ op = .Z) :
    ∃ o', faceRun o (exposeOne m p op).1 = some o' ∧ Describes (exposeOne m p op).2 o' ∧ (∀ f, o' p = some f → f.shows op) ∧ ∀ q, q ≠ p → o' q = o q := by
  unfold exposeOne
  split
  · rename_i e he
    have hop := hop (by simp [he])
    obtain ⟨g, h2, h3⟩ := describes_some h he
    split
    · rename_i hx
      refine ⟨o, rfl, h, ?_, fun _ _ => rfl⟩
      intro f hf
      rw [h2] at hf; cases hf
      exact h3.shown hop hx
    · rename_i hx
      refine ⟨_, rfl, describes_turn h he, ?_, ?_⟩
      · intro f hf
        rw [if_pos rfl, h2] at hf; cases hf
        exact h3.shown_turned hop hx
      · intro q hq; rw [if_neg hq]
  · rename_i he
    refine ⟨o, rfl, h, ?_, fun _ _ => rfl⟩
    intro f hf
    rw [describes_none h he] at hf; cases hf

theorem obsAt_mem {obs : List (Nat × Pauli)} (hn : (obs.map (·.1)).Nodup) {p : Nat} {op : Pauli} (h : obsAt obs p = .ok op) :
    (p, op) ∈ obs ∧ ∀ e ∈ obs, e.1 = p → e.2 = op := by
  unfold obsAt at h
  split at h
  · rename_i e he
    cases h
    have h1 := List.find?_some he
    have h2 := List.mem_of_find?_eq_some he
    simp at h1
    subst h1
    refine ⟨h2, ?_⟩
    intro e' he' heq
    clear he
    induction obs with
    | nil => simp at h2
    | cons x obs ih =>
      simp only [List.map_cons, List.nodup_cons] at hn
      rcases List.mem_cons.1 h2 with rfl | h2'
      · rcases List.mem_cons.1 he' with rfl | he'
        · rfl
        · exact absurd (List.mem_map.2 ⟨e', he', heq⟩) hn.1
      · rcases List.mem_cons.1 he' with rfl | he'
        · exact absurd (List.mem_map.2 ⟨e, h2', heq.symm⟩ : e'.1 ∈ obs.map (·.1)) hn.1
        · exact ih hn.2 h2' he'
  · cases h

/-- The operator asked of the patch is one it shows. -/
def Asked (obs : List (Nat × Pauli)) (p : Nat) (f : Facing) : Prop := ∃ op, obsAt obs p = .ok op ∧ f.shows op = true

theorem exposeAll_face {obs : List (Nat × Pauli)} (hn : (obs.map (·.1)).Nodup) {m : ExposedMap} {o : Nat → Option Facing} (h : Describes m o)
    (hobs : ∀ e ∈ obs, m e.1 ≠ none → e.2 = .X ∨ e.2 = .Z) {ps : List Nat} {r : List Instr} {m' : ExposedMap}
    (hr : exposeAll obs m ps = .ok (r, m')) :
    ∃ o', faceRun o r = some o' ∧ Describes m' o' ∧ (∀ p ∈ ps, ∀ f, o' p = some f → Asked obs p f) ∧
      (∀ q, (∀ f, o q = some f → Asked obs q f) → ∀ f, o' q = some f → Asked obs q f) := by
  induction ps generalizing m o r with
  | nil => cases hr; exact ⟨o, rfl, h, by simp, fun q h => h⟩
  | cons p ps ih =>
    obtain ⟨r1, m1, r2, hr1, h2, rfl⟩ := exposeAll_cons hr
    have step : ∃ o1, faceRun o r1 = some o1 ∧ Describes m1 o1 ∧ (∀ f, o1 p = some f → Asked obs p f) ∧ (∀ q, q ≠ p → o1 q = o q) ∧
        ∀ q, m1 q = none ↔ m q = none := by
      rcases hr1 with ⟨e, op, hm, h3, h4⟩ | ⟨hm, rfl, rfl⟩
      · obtain ⟨h5, h6⟩ := obsAt_mem hn h3
        obtain ⟨o1, ha, hb, hc, hd⟩ := expose_face h p (op := op) (fun hne => hobs _ h5 hne)
        have hdom := (exposeOne_dom m p op).1
        rw [h4] at ha hb hdom
        exact ⟨o1, ha, hb, fun f hf => ⟨op, h3, hc f hf⟩, hd, hdom⟩
      · refine ⟨o, rfl, h, ?_, fun _ _ => rfl, fun _ => Iff.rfl⟩
        intro f hf
        rw [describes_none h hm] at hf; cases hf
    obtain ⟨o1, ha, hb, hc, hd, he⟩ := step
    obtain ⟨o2, ia, ib, ic, id⟩ := ih hb (fun e he1 hne => hobs e he1 (fun h => hne ((he _).2 h))) h2
    refine ⟨o2, by rw [faceRun_append, ha, Option.bind_some, ia], ib, ?_, ?_⟩
    · intro q hq
      rcases List.mem_cons.1 hq with rfl | hq
      · exact id _ hc
      · exact ic q hq
    · intro q hq
      apply id
      intro f hf
      by_cases hqp : q = p
      · subst hqp; exact hc f hf
      · rw [hd q hqp] at hf; exact hq f hf

theorem boundary_face {m : ExposedMap} {o : Nat → Option Facing} (h : Describes m o) {c : Nat} {i : Instr} {l : List Instr} {m' : ExposedMap} {c' : Nat}
    (hs : Suitable (fun p => m p ≠ none) i) (hb : boundaryExpand m c i = .ok (l, m', c')) :
    ∃ o', faceRun o l = some o' ∧ Describes m' o' := by
  unfold boundaryExpand at hb
  unfold Suitable at hs
  split at hb
  · rename_i obs neg loc hop
    rw [hop] at hs
    simp only [Outcome.bind_eq_ok] at hb
    obtain ⟨⟨r, m1⟩, h1, h2⟩ := hb
    cases h2
    obtain ⟨o', ha, hd, he, _⟩ := exposeAll_face hs.1 h hs.2 h1
    refine ⟨o', ?_, hd⟩
    rw [faceRun_append, ha, Option.bind_some]
    simp only [faceRun, faceStep, hop]
    rw [if_pos]
    · rfl
    · intro e heo f hf
      have hmem : e.1 ∈ i.operating := by
        rw [mem_operating, hop]; right; exact List.mem_map.2 ⟨e, heo, rfl⟩
      obtain ⟨op, h3, h4⟩ := he _ hmem f hf
      rw [(obsAt_mem hs.1 h3).2 e heo rfl]; exact h4
  · rename_i b hop
    rw [hop] at hs
    simp only [Outcome.ok.injEq, Prod.mk.injEq] at hb
    obtain ⟨rfl, rfl, rfl⟩ := hb
    obtain ⟨o1, a1, b1, c1, d1⟩ := expose_face h b.control (op := .Z) (fun _ => Or.inr rfl)
    obtain ⟨o2, a2, b2, c2, d2⟩ := expose_face b1 b.target (op := .X) (fun _ => Or.inl rfl)
    refine ⟨o2, ?_, b2⟩
    rw [faceRun_append, faceRun_append, a1, Option.bind_some, a2, Option.bind_some]
    simp only [faceRun, faceStep, hop]
    rw [if_pos ⟨fun f hf => c1 f (by rw [← d2 _ hs]; exact hf), c2⟩]
    rfl
  · rename_i q d hop
    split at hb
    · rename_i e he
      cases hb
      exact ⟨_, by simp only [faceRun, faceStep, hop]; rfl, describes_turn h he⟩
    · rename_i he
      cases hb
      exact ⟨_, by simp only [faceRun, faceStep, hop]; rfl, describes_turn_none h he⟩
  · rename_i q d hop
    simp only [Outcome.ok.injEq, Prod.mk.injEq] at hb
    obtain ⟨rfl, rfl, rfl⟩ := hb
    obtain ⟨o1, a1, b1, c1, d1⟩ := expose_face h q (op := .Z) (fun _ => Or.inr rfl)
    refine ⟨o1, ?_, b1⟩
    rw [faceRun_append, a1, Option.bind_some]
    simp only [faceRun, faceStep, hop]
    rfl
  · rename_i hx1 hx2 hx3 hx4
    cases hb
    cases hop : i.op with
    | multi obs neg loc => exact absurd hop (hx1 _ _ _)
    | bellCnot b => exact absurd hop (hx2 _)
    | sq q op d =>
      cases op with
      | H => exact absurd hop (hx3 _ _)
      | S => exact absurd hop (hx4 _ _)
      | _ => exact ⟨o, by simp [faceRun, faceStep, hop], h⟩
    | rotate p =>
      rw [hop] at hs
      refine ⟨_, by simp only [faceRun, faceStep, hop]; rfl, describes_turn_none h ?_⟩
      cases hm : m p with
      | none => rfl
      | some e => exact absurd (by simp [hm]) hs
    | _ => exact ⟨o, by simp [faceRun, faceStep, hop], h⟩

theorem suitable_congr {P Q : Nat → Prop} (h : ∀ x, P x ↔ Q x) {i : Instr} (hs : Suitable P i) : Suitable Q i := by
  unfold Suitable at *
  cases hop : i.op <;> rw [hop] at hs <;> try trivial
  · exact ⟨hs.1, fun e he ht => hs.2 e he ((h _).2 ht)⟩
  · exact fun hq => hs ((h _).2 hq)

theorem face_delivers {σ : Type} {M : Machine σ} {st : σ × ExposedMap × List Instr} {c : Nat} {out : List Instr} {c' : Nat}
    (h : Delivers (stage boundaryExpand M) st c out c') :
    ∃ o, out = st.2.2 ++ o ∧ ∃ src, Delivers M st.1 c src c' ∧
      ((∀ i ∈ src, Suitable (fun p => st.2.1 p ≠ none) i) → ∀ f, Describes st.2.1 f → ∃ f', faceRun f o = some f') := by
  induction h with
  | @done s c h =>
    obtain ⟨s, t, q⟩ := s
    simp [stage] at h
    refine ⟨[], by simp [h.1], [], .done h.2, fun _ f _ => ⟨f, rfl⟩⟩
  | @step s c i s' c1 out c'' hh hn hr ih =>
    obtain ⟨s, t, q⟩ := s
    cases q with
    | cons j q =>
      simp only [stage] at hn
      cases hn
      obtain ⟨o, rfl, src, h1, h2⟩ := ih
      exact ⟨o, rfl, src, h1, h2⟩
    | nil =>
      simp only [stage, List.isEmpty_nil, Bool.not_true, Bool.false_or] at hh
      simp only [stage, hh, Bool.not_true, Bool.false_eq_true, if_false, Outcome.bind_eq_ok] at hn
      obtain ⟨⟨i0, s1, c0⟩, h1, ⟨l, t1, c2⟩, h2, ⟨i', q⟩, h3, h4⟩ := hn
      cases h4
      obtain ⟨e1, e2, -⟩ := boundary_dom h2
      dsimp only at e1
      subst e1
      obtain ⟨o, rfl, src, h5, h6⟩ := ih
      have hq : l = i' :: q := by cases l <;> cases h3; rfl
      subst hq
      refine ⟨(i' :: q) ++ o, rfl, i0 :: src, .step hh h1 h5, ?_⟩
      intro hs f hf
      obtain ⟨f1, ha, hb⟩ := boundary_face hf (hs i0 (by simp)) h2
      obtain ⟨f2, hc⟩ := h6 (fun j hj => suitable_congr (fun x => by simp [e2]) (hs j (by simp [hj]))) f1 hb
      exact ⟨f2, by rw [faceRun_append, ha, Option.bind_some, hc]⟩

namespace Spec

/-- **C15 (partial).** Over any source whose instructions are suitable, every joint measurement and Bell-based
CNOT leaving the boundary-rotation stage meets its tracked patches with the needed operator exposed. Missing:
sources that rotate tracked patches themselves, or measure Y (see the two theorems below). -/
theorem c15_partial {σ : Type} (M : Machine σ) (s : σ) (exposed : ExposedMap) (orient : Nat → Option Facing) (hd : Describes exposed orient)
    (fuel c c' : Nat) (out : List Instr) (h : (stage boundaryExpand M).run fuel (s, exposed, []) c = .ok (out, true, c')) :
    ∃ src fuel', M.run fuel' s c = .ok (src, true, c') ∧
      ((∀ i ∈ src, Suitable (fun p => exposed p ≠ none) i) → ∃ o', faceRun orient out = some o') := by
  obtain ⟨o, rfl, src, h1, h2⟩ := face_delivers ((run_iff ..).1 h).1
  obtain ⟨f, hf⟩ := delivers_bound h1
  exact ⟨src, f, hf, fun hs => h2 hs orient hd⟩

/-- A source that rotates a core patch itself (the LLI keyword `RotateSingleCellPatch`): the stage does not
notice, and the joint measurement that follows meets the patch the wrong way round. -/
theorem c15_source_rotation : ∃ out, (stage boundaryExpand listMachine).run 10
    ([plain (.rotate 0), plain (.multi [(0, .Z), (5, .Z)] false none)], (fun q => if q = 0 then some ⟨false, true⟩ else none), []) 7 = .ok (out, true, 7) ∧
    Describes (fun q => if q = 0 then some ⟨false, true⟩ else none) (fun q => if q = 0 then some ⟨false, true⟩ else none) ∧
    faceRun (fun q => if q = 0 then some ⟨false, true⟩ else none) out = none := by
  refine ⟨_, rfl, ?_, rfl⟩
  intro p
  by_cases h : p = 0 <;> simp [h, Agrees]

/-- A joint measurement of Y on a core patch never meets an exposed Y: the patch is just turned. -/
theorem c15_y_measurement (p q : Nat) (hpq : p ≠ q) (orient : Nat → Option Facing) (exposed : ExposedMap) (hd : Describes exposed orient)
    (hp : exposed p ≠ none) (neg : Bool) (loc : Option LocalInstr) (out : List Instr) (fuel c c' : Nat)
    (h : (stage boundaryExpand listMachine).run fuel ([plain (.multi [(p, .Y), (q, .Z)] neg loc)], exposed, []) c = .ok (out, true, c')) :
    faceRun orient out = none := by
  obtain ⟨t', h⟩ := (delivers_stage_list boundary_ne).1 ((run_iff ..).1 h).1
  have h := expandList_single.1 h
  simp only [boundaryExpand, plain, Outcome.bind_eq_ok] at h
  obtain ⟨⟨r, m⟩, h1, h2⟩ := h
  simp only [Outcome.ok.injEq, Prod.mk.injEq] at h2
  obtain ⟨rfl, -, -⟩ := h2
  rw [faceRun_append]
  have key : ∀ (l : List Instr) (o o' : Nat → Option Facing), (∀ i ∈ l, ∃ x, i = plain (.rotate x)) → (∃ f, o p = some f) → faceRun o l = some o' →
      ∃ f, o' p = some f := by
    intro l
    induction l with
    | nil => intro o o' _ h hr; cases hr; exact h
    | cons i l ih =>
      intro o o' hl ⟨f, hf⟩ hr
      obtain ⟨x, rfl⟩ := hl i (by simp)
      simp only [faceRun, faceStep, plain, Option.bind_some] at hr
      refine ih _ o' (fun j hj => hl j (by simp [hj])) ?_ hr
      by_cases hx : p = x
      · subst hx
        exact ⟨turned f, by simp [hf]⟩
      · exact ⟨f, by simp [hx, hf]⟩
  have hrot : ∀ i ∈ r, ∃ x, i = plain (.rotate x) := fun i hi => by
    obtain ⟨x, _, e⟩ := exposeAll_rot h1 i hi; exact ⟨x, e⟩
  cases hr : faceRun orient r with
  | none => rfl
  | some o' =>
    have h0 : ∃ f, orient p = some f := by
      rcases hd p with ⟨h, _⟩ | ⟨_, f, _, h, _⟩
      · exact absurd h hp
      · exact ⟨f, h⟩
    obtain ⟨f, hf⟩ := key r orient o' hrot h0 hr
    simp only [Option.bind_some, faceRun, faceStep]
    rw [if_neg]
    · rfl
    · intro hall
      have := hall (p, .Y) (by simp) f hf
      simp [Facing.shows] at this

example : ∃ out, (stage boundaryExpand listMachine).run 10
    ([plain (.multi [(0, .Y), (1, .Z)] false none)], (fun q => if q = 0 then some ⟨false, true⟩ else none), []) 7 = .ok (out, true, 7) := ⟨_, rfl⟩

/-- The gates act on different qubits. -/
def DistinctOperands (prog : List Gate) : Prop := ∀ g ∈ prog, (gateQubits g).Nodup

end Spec

theorem suitable_cnot {n c : Nat} (hn : n ≤ c) {loc : Bool} {a b : Nat} {ty : CnotType} {pl : Placement} {al : Bool} {l : List Instr} {c' : Nat}
    (h : makeCnot loc c a b ty pl al = .ok (l, c')) (ha : a < c) (hb : b < c) (hab : a ≠ b) : ∀ i ∈ l, Suitable (· < n) i := by
  have h1 : a ≠ c := by omega
  have h2 : c ≠ b := by omega
  unfold makeCnot at h
  split at h
  · dsimp only [newId] at h; split at h
    · cases h
    · cases h; simp [Suitable, hab]
  · cases h
    intro i hi
    cases ty <;> cases al <;> simp [cnotMiddle, plain] at hi <;> rcases hi with rfl | hi <;>
      first | (simp [Suitable]; done) | (rcases hi with rfl | rfl | rfl | rfl | rfl <;> simp [Suitable, h1, h2]) |
        (rcases hi with rfl | rfl | rfl <;> simp [Suitable, h1, h2]) | (subst hi; simp [Suitable])

theorem suitable_t {n c : Nat} (hn : n ≤ c) {loc : Bool} {q : Nat} (hq : q < n) {l : List Instr} {c' : Nat} (hfit : c + 1 < 2 ^ 32)
    (h : makeT loc c q = .ok (l, c')) : ∀ i ∈ l, Suitable (· < n) i := by
  unfold makeT at h
  dsimp only [newId] at h
  split at h
  · simp only [Outcome.bind_eq_ok] at h
    obtain ⟨⟨is, c1⟩, h1, h2⟩ := h
    cases h2
    rw [Nat.mod_eq_of_lt hfit] at h1
    intro i hi
    simp only [List.mem_append, List.mem_cons, List.not_mem_nil, or_false] at hi
    rcases hi with (rfl | hi) | rfl | rfl
    · simp [Suitable]
    · exact suitable_cnot (by omega) h1 (by omega) (by omega) (by omega) i hi
    · simp [Suitable, plain]
    · simp [Suitable, plain]
  · cases h
    intro i hi
    have : q ≠ c := by omega
    simp only [List.mem_cons, List.not_mem_nil, or_false] at hi
    rcases hi with rfl | rfl | rfl | rfl <;> simp [Suitable, plain, this]

theorem suitable_compile {m : Mode} {n c : Nat} (hn : n ≤ c) (hfit : c + 1 < 2 ^ 32) {g : Gate} {is : List Instr} {c' : Nat}
    (h : compileGate m c g = .ok (is, c')) (hg : ∀ q ∈ gateQubits g, q < n) (hd : (gateQubits g).Nodup) : ∀ i ∈ is, Suitable (· < n) i := by
  match g, h with
  | .basic q .Z, h => cases h; simp [Suitable, plain]
  | .basic q .X, h => cases h; simp [Suitable, plain]
  | .basic q .Y, h => cases h; simp [Suitable, plain]
  | .basic q .H, h => cases h; simp [Suitable, plain]
  | .basic q .S, h => cases h; simp [Suitable, plain]
  | .basic q .SDg, h => cases h; simp [Suitable, plain]
  | .basic q .T, h => exact suitable_t hn (hg q (by simp [gateQubits])) hfit h
  | .basic q .TDg, h => exact suitable_t hn (hg q (by simp [gateQubits])) hfit h
  | .rz q f, h =>
    rw [compileGate] at h
    split at h
    · cases h; simp [Suitable, plain]
    · split at h
      · cases h; simp [Suitable, plain]
      · split at h
        · exact suitable_t hn (hg q (by simp [gateQubits])) hfit h
        · cases h
  | .ctrl a (.basic b .X) ty pl, h =>
    have ha := hg a (by simp [gateQubits])
    have hb := hg b (by simp [gateQubits])
    exact suitable_cnot hn h (by omega) (by omega) (by simpa [gateQubits] using hd)
  | .ctrl a (.basic b .Z) ty pl, h =>
    have ha := hg a (by simp [gateQubits])
    have hb := hg b (by simp [gateQubits])
    simp only [compileGate, Outcome.bind_eq_ok] at h
    obtain ⟨⟨l, c1⟩, h1, h2⟩ := h
    cases h2
    intro i hi
    simp only [List.mem_append, List.mem_singleton] at hi
    rcases hi with (rfl | hi) | rfl
    · simp [Suitable, plain]
    · exact suitable_cnot hn h1 (by omega) (by omega) (by simpa [gateQubits] using hd) i hi
    · simp [Suitable, plain]
  | .reset r q, h =>
    rw [compileGate] at h
    split at h
    · cases h
    · cases h; simp [Suitable, plain]

theorem teleported_false_noS {core : List Nat} {is : List Instr} (hs : ∀ i ∈ is, NoS i) {c : Nat} {l : List Instr} {t' : Unit} {c' : Nat}
    (h : expandList (teleportedExpand core false) () c is = .ok (l, t', c')) : l = is := by
  induction is generalizing c l with
  | nil => cases h; rfl
  | cons i is ih =>
    simp only [expandList, Outcome.bind_eq_ok] at h
    obtain ⟨⟨l1, t1, c1⟩, h1, ⟨l2, t2, c2⟩, h2, h3⟩ := h
    cases h3
    obtain ⟨_, h4 | ⟨q, d, _, _, h4, _⟩⟩ := teleported_noS (hs i (by simp)) h1
    · subst h4
      rw [ih (fun j hj => hs j (by simp [hj])) h2]; rfl
    · cases h4

/-- Boundary rotation followed by teleportation, one instruction. -/
theorem compact_face {n : Nat} {m : ExposedMap} {o : Nat → Option Facing} (h : Describes m o) (hdom : ∀ p, m p ≠ none ↔ p < n) {c : Nat} (hc : n ≤ c)
    {i : Instr} {l : List Instr} {t' : ExposedMap × Unit} {c' : Nat} (hs : Suitable (· < n) i)
    (hb : thenExpand boundaryExpand (teleportedExpand (coreQubits n) false) (m, ()) c i = .ok (l, t', c')) :
    ∃ o', faceRun o l = some o' ∧ Describes t'.1 o' ∧ ∀ p, t'.1 p ≠ none ↔ p < n := by
  simp only [thenExpand, Outcome.bind_eq_ok] at hb
  obtain ⟨⟨l1, t1, c1⟩, h1, ⟨l2, t2, c2⟩, h2, h3⟩ := hb
  simp only [Outcome.ok.injEq, Prod.mk.injEq] at h3
  obtain ⟨rfl, rfl, rfl⟩ := h3
  obtain ⟨hcc, hdom', r, hl, hr⟩ := boundary_dom h1
  dsimp only at hcc hl h2 hdom'
  have hd' : ∀ p, t1 p ≠ none ↔ p < n := fun p => by rw [← hdom p]; simp [hdom']
  by_cases hS : NoS i
  · obtain ⟨o', ha, hb⟩ := boundary_face h (suitable_congr (fun p => (hdom p).symm) hs) h1
    refine ⟨o', ?_, hb, hd'⟩
    have : l2 = l1 := by
      refine teleported_false_noS ?_ h2
      subst hl
      intro j hj
      rcases List.mem_append.1 hj with hj | hj
      · obtain ⟨p, _, _, rfl⟩ := hr j hj; exact noS_rotate p
      · simp at hj; subst hj; exact hS
    rw [this]; exact ha
  · have : ∃ q d, i.op = .sq q .S d := by
      unfold NoS at hS
      cases hop : i.op with
      | sq q o d => cases o <;> simp_all
      | _ => exact absurd (by simp [hop]) hS
    obtain ⟨q, d, hop⟩ := this
    simp only [boundaryExpand, hop, Outcome.ok.injEq, Prod.mk.injEq] at h1
    obtain ⟨h1, rfl, -⟩ := h1
    obtain ⟨o1, a1, b1, c3, d1⟩ := expose_face h q (op := .Z) (fun _ => Or.inr rfl)
    subst hcc
    rw [← h1] at h2
    obtain ⟨la, ta, ca, lb, h4, h5, h6⟩ := expandList_append.1 h2
    have hrns : ∀ j ∈ (exposeOne m q .Z).1, NoS j := by
      intro j hj
      rcases exposeOne_rot m q .Z with h7 | h7 <;> rw [h7] at hj
      · simp at hj
      · simp at hj; subst hj; exact noS_rotate q
    have h7 := teleported_false_noS hrns h4
    have hca := (expandList_noS (ids_teleported (coreQubits n) false) hrns h4).2
    subst h7 hca
    refine ⟨o1, ?_, b1, hd'⟩
    rw [h6, faceRun_append, a1, Option.bind_some]
    have h5 := expandList_single.1 h5
    simp only [teleportedExpand, hop] at h5
    split at h5
    · dsimp only [newId] at h5
      cases h5
      have hy : o1 ca = none := by
        rcases b1 ca with ⟨_, h⟩ | ⟨_, _, h, _⟩
        · exact h
        · exact absurd ((hd' ca).1 (by simp [h])) (by omega)
      simp only [faceRun, faceStep, plain, Option.bind_some]
      rw [if_pos]
      · rfl
      · intro e he f hf
        simp at he
        rcases he with rfl | rfl
        · rw [hy] at hf; cases hf
        · exact c3 f hf
    · cases h5; simp [faceRun, faceStep, hop]

theorem compact_face_list {n : Nat} {m : ExposedMap} {o : Nat → Option Facing} (h : Describes m o) (hdom : ∀ p, m p ≠ none ↔ p < n) {c : Nat} (hc : n ≤ c)
    {is : List Instr} (hns : ∀ i ∈ is, NoS i) {l : List Instr} {t' : ExposedMap × Unit} {c' : Nat} (hs : ∀ i ∈ is, Suitable (· < n) i)
    (hb : expandList (thenExpand boundaryExpand (teleportedExpand (coreQubits n) false)) (m, ()) c is = .ok (l, t', c')) :
    ∃ o', faceRun o l = some o' ∧ Describes t'.1 o' ∧ ∀ p, t'.1 p ≠ none ↔ p < n := by
  induction is generalizing m o l with
  | nil => cases hb; exact ⟨o, rfl, h, hdom⟩
  | cons i is ih =>
    simp only [expandList, Outcome.bind_eq_ok] at hb
    obtain ⟨⟨l1, ⟨t1, u⟩, c1⟩, h1, ⟨l2, t2, c2⟩, h2, h3⟩ := hb
    cases h3
    obtain ⟨_, hcc⟩ := (ids_compact (coreQubits n) false).noS _ _ _ _ _ _ (hns i (by simp)) h1
    dsimp only at hcc h2
    subst hcc
    obtain ⟨o1, a1, b1, d1⟩ := compact_face h hdom hc (hs i (by simp)) h1
    obtain ⟨o2, a2, b2, d2⟩ := ih b1 d1 (fun j hj => hns j (by simp [hj])) (fun j hj => hs j (by simp [hj])) h2
    exact ⟨o2, by rw [faceRun_append, a1, Option.bind_some, a2], b2, d2⟩

theorem compact_face_gates {m : Mode} {n : Nat} {gs : List Gate} (hgs : InRegister n gs) (hdd : DistinctOperands gs) {ex : ExposedMap} {o : Nat → Option Facing}
    (h : Describes ex o) (hdom : ∀ p, ex p ≠ none ↔ p < n) {out : List Instr} {c c' : Nat} (hc : n ≤ c) (hfit : c + (introduced out).length + 1 < 2 ^ 32)
    (hdel : Delivers (stage (thenExpand boundaryExpand (teleportedExpand (coreQubits n) false)) (gateMachine m)) ((gs, []), (ex, ()), []) c out c') :
    ∃ o', faceRun o out = some o' := by
  have hne := nonempty_then boundary_ne (teleported_ne (coreQubits n) false)
  have hi := ids_compact (coreQubits n) false
  induction gs generalizing ex o c out with
  | nil =>
    rw [delivers_stage_gates_nil hne] at hdel
    obtain ⟨rfl, rfl⟩ := hdel
    exact ⟨o, rfl⟩
  | cons g gs ih =>
    rw [delivers_stage_gates_cons hne] at hdel
    obtain ⟨is, c1, l, ⟨t', u⟩, c2, out', h1, h2, rfl, h3⟩ := hdel
    have hsuit := suitable_compile hc (by omega) h1 (hgs g (by simp)) (hdd g (by simp))
    obtain ⟨pre, suf, rfl, hns, h5, k, hk, rfl⟩ := compile_shape (by omega) h1
    obtain ⟨l1, ⟨t1, u1⟩, c3, l2, h8, h9, rfl⟩ := expandList_append.1 h2
    have h10 := expandList_noS hi hns h8
    obtain ⟨hI, rfl⟩ := h10
    rw [introduced_append, introduced_append, hI, hk, List.length_append, List.length_append] at hfit
    have hklen : (idsFrom c k).length = k := by rw [idsFrom_eq (by omega)]; simp
    rw [hklen] at hfit
    have hadv : adv c k = c + k := Nat.mod_eq_of_lt (by omega)
    rw [hadv] at h8 h9
    obtain ⟨o1, a1, b1, d1⟩ := compact_face_list h hdom (by omega) hns (fun i hi => hsuit i (by simp [hi])) h8
    have hsuf : ∃ o2, faceRun o1 l2 = some o2 ∧ Describes t' o2 ∧ (∀ p, t' p ≠ none ↔ p < n) ∧ c2 = c + k + (introduced l2).length := by
      rcases h5 with rfl | ⟨q, d, hq, rfl⟩
      · cases h9; exact ⟨o1, rfl, b1, d1, rfl⟩
      · have h9 := expandList_single.1 h9
        obtain ⟨o2, a2, b2, d2⟩ := compact_face b1 d1 (by omega) (hsuit _ (by simp)) h9
        obtain ⟨k2, e1, e2⟩ := hi.s _ _ _ _ _ _ _ _ (by omega) rfl h9
        have hk2 : (introduced l2).length = k2 := by rw [e1, idsFrom_eq (by omega)]; simp
        refine ⟨o2, a2, b2, d2, ?_⟩
        rw [e2, hk2]; exact Nat.mod_eq_of_lt (by omega)
    obtain ⟨o2, a2, b2, d2, rfl⟩ := hsuf
    obtain ⟨o3, a3⟩ := ih (fun g hg => hgs g (by simp [hg])) (fun g hg => hdd g (by simp [hg])) b2 d2 (by omega) (by omega) h3
    exact ⟨o3, by rw [faceRun_append, faceRun_append, a1, Option.bind_some, a2, Option.bind_some, a3]⟩

namespace Spec

/-- **C15, whole compact pipeline.** For every gate program within its register whose gates have different
operands, after boundary rotation and Y-state teleportation every joint measurement and Bell-based CNOT meets
the core patches with the needed operator exposed, as long as ids fit in 32 bits. -/
theorem c15_compact (m : Mode) (n : Nat) (exposed : ExposedMap) (orient : Nat → Option Facing) (hd : Describes exposed orient)
    (hcore : ∀ p, exposed p ≠ none ↔ p < n) (prog : List Gate) (hreg : InRegister n prog) (hdist : DistinctOperands prog) (out : List Instr) (fuel c : Nat)
    (h : (stage (teleportedExpand (coreQubits n) false) (stage boundaryExpand (gateMachine m))).run fuel
      (((prog, []), exposed, []), (), []) n = .ok (out, true, c))
    (hfit : n + (introduced out).length + 1 < 2 ^ 32) : ∃ o', faceRun orient out = some o' :=
  compact_face_gates hreg hdist hd hcore (Nat.le_refl n) hfit ((stage_fusion boundary_ne (teleported_ne _ _)).1 ((run_iff ..).1 h).1)

/-- Two core patches exposing Z; a CNOT, a Hadamard, a T gate and an S gate. -/
example : ∃ out, (stage (teleportedExpand (coreQubits 2) false) (stage boundaryExpand (gateMachine ⟨"q".toList, false, false⟩))).run 60
    ((([.ctrl 0 (.basic 1 .X) .controlFirst .nextToControl, .basic 1 .H, .basic 1 .T, .basic 0 .S], []),
      (fun q => if q < 2 then some ⟨false, true⟩ else none), []), (), []) 2 = .ok (out, true, 6) ∧ 2 + (introduced out).length + 1 < 2 ^ 32 :=
  ⟨_, rfl, by decide⟩

/-! ### C16 -/

/-- A CNOT through an ancilla or through a Bell pair, without corrections. -/
def CnotBlock (control target : Nat) (l : List Instr) : Prop :=
  (∃ a next clients, l = [{ op := .init a .plus next, clients := clients }, plain (.multi [(control, .Z), (a, .Z)] false none),
    plain (.multi [(a, .X), (target, .X)] false none), plain (.measure a .X false)]) ∨
  (∃ a b clients, l = [{ op := .bellCnot { control := control, target := target, side1 := a, side2 := b }, clients := clients }])

/-- The teleported S: fetch a Y state, measure ZZ, measure the state in X, correct by Z. -/
def TeleportBlock (q : Nat) (l : List Instr) : Prop :=
  ∃ y, l = [{ op := .ystate y q none, clients := [q] }, plain (.multi [(y, .Z), (q, .Z)] false none), plain (.measure y .X false), plain (.sq q .Z false)]

/-- The catalytic S: fetch a Y state, CNOT, Hadamard (turning the patch back), CNOT, Hadamard, give the state back. -/
def CatalyticBlock (q : Nat) (l : List Instr) : Prop :=
  ∃ y l1 l2, CnotBlock q y l1 ∧ CnotBlock q y l2 ∧
    l = [{ op := .ystate y q none, clients := [q] }] ++ l1 ++ [plain (.sq y .H false), plain (.rotate y)] ++ l2 ++
      [plain (.sq y .H false), plain (.rotate y), plain (.ystate y q none)]

/-- `out` is `src` with each S on a core qubit replaced by a block, and, if `rot`, each Hadamard on a core qubit
followed by a rotation of the patch; nothing else is changed. -/
inductive SExpands (core : List Nat) (rot : Bool) (block : Nat → List Instr → Prop) : List Instr → List Instr → Prop
  | nil : SExpands core rot block [] []
  | s {i q d b src out} (hi : i.op = .sq q .S d) (hq : q ∈ core) (hb : block q b) (t : SExpands core rot block src out) :
      SExpands core rot block (i :: src) (b ++ out)
  | h {i q d src out} (hi : i.op = .sq q .H d) (hq : q ∈ core) (hr : rot = true) (t : SExpands core rot block src out) :
      SExpands core rot block (i :: src) (i :: plain (.rotate q) :: out)
  | other {i src out} (hs : ∀ q d, i.op = .sq q .S d → q ∉ core) (hh : rot = true → ∀ q d, i.op = .sq q .H d → q ∉ core)
      (t : SExpands core rot block src out) : SExpands core rot block (i :: src) (i :: out)

/-- The instructions compiled from a gate program, each gate with whatever the id counter was. -/
inductive CompiledFrom (m : Mode) : List Gate → List Instr → Prop
  | nil : CompiledFrom m [] []
  | cons {c c' g gs is src} (h : compileGate m c g = .ok (is, c')) (t : CompiledFrom m gs src) : CompiledFrom m (g :: gs) (is ++ src)

end Spec

theorem cnot_block {loc : Bool} {c a b : Nat} {pl : Placement} {l : List Instr} {c' : Nat} (h : makeCnot loc c a b .controlFirst pl false = .ok (l, c')) :
    CnotBlock a b l := by
  unfold makeCnot at h
  split at h
  · dsimp only [newId] at h
    cases h
    exact Or.inr ⟨_, _, _, rfl⟩
  · cases h
    exact Or.inl ⟨c, _, _, rfl⟩

/-- One instruction through an S stage. -/
def SStage (core : List Nat) (rot : Bool) (block : Nat → List Instr → Prop) (e : Unit → Nat → Instr → Outcome (List Instr × Unit × Nat)) : Prop :=
  ∀ c i l t' c', e () c i = .ok (l, t', c') → ∀ src out, SExpands core rot block src out → SExpands core rot block (i :: src) (l ++ out)

theorem teleported_sstage (core : List Nat) (rot : Bool) : SStage core rot TeleportBlock (teleportedExpand core rot) := by
  intro c i l t' c' h src out ht
  unfold teleportedExpand at h
  split at h
  · rename_i q d hop
    split at h
    · rename_i hq
      dsimp only [newId] at h; cases h
      exact .s hop hq ⟨c, rfl⟩ ht
    · rename_i hq
      cases h
      exact .other (fun q' d' h => by rw [hop] at h; cases h; exact hq) (fun _ q' d' h => by rw [hop] at h; cases h) ht
  · rename_i q d hop
    split at h
    · rename_i hr; simp at hr
      cases h
      exact .h hop hr.2 hr.1 ht
    · rename_i hr; simp at hr
      cases h
      exact .other (fun q' d' h => by rw [hop] at h; cases h) (fun h1 q' d' h => by rw [hop] at h; cases h; exact hr h1) ht
  · rename_i hx1 hx2
    cases h
    exact .other (fun q d h => absurd h (hx1 _ _)) (fun _ q d h => absurd h (hx2 _ _)) ht

theorem catalytic_sstage (core : List Nat) (loc rot : Bool) : SStage core rot CatalyticBlock (catalyticExpand core loc rot) := by
  intro c i l t' c' h src out ht
  unfold catalyticExpand at h
  split at h
  · rename_i q d hop
    split at h
    · rename_i hq
      simp only [newId, Outcome.bind_eq_ok] at h
      obtain ⟨⟨l1, c1⟩, h1, ⟨l2, c2⟩, h2, h3⟩ := h
      simp only [Outcome.ok.injEq, Prod.mk.injEq] at h3
      obtain ⟨rfl, -, -⟩ := h3
      exact .s hop hq ⟨c, l1, l2, cnot_block h1, cnot_block h2, rfl⟩ ht
    · rename_i hq
      cases h
      exact .other (fun q' d' h => by rw [hop] at h; cases h; exact hq) (fun _ q' d' h => by rw [hop] at h; cases h) ht
  · rename_i q d hop
    split at h
    · rename_i hr; simp at hr
      cases h
      exact .h hop hr.2 hr.1 ht
    · rename_i hr; simp at hr
      cases h
      exact .other (fun q' d' h => by rw [hop] at h; cases h) (fun h1 q' d' h => by rw [hop] at h; cases h; exact hr h1) ht
  · rename_i hx1 hx2
    cases h
    exact .other (fun q d h => absurd h (hx1 _ _)) (fun _ q d h => absurd h (hx2 _ _)) ht

theorem sstage_list {core : List Nat} {rot : Bool} {block : Nat → List Instr → Prop} {e : Unit → Nat → Instr → Outcome (List Instr × Unit × Nat)}
    (he : SStage core rot block e) {is : List Instr} {c : Nat} {l : List Instr} {t' : Unit} {c' : Nat} (h : expandList e () c is = .ok (l, t', c'))
    {src out : List Instr} (ht : SExpands core rot block src out) : SExpands core rot block (is ++ src) (l ++ out) := by
  induction is generalizing c l with
  | nil => cases h; exact ht
  | cons i is ih =>
    simp only [expandList, Outcome.bind_eq_ok] at h
    obtain ⟨⟨l1, t1, c1⟩, h1, ⟨l2, t2, c2⟩, h2, h3⟩ := h
    cases h3
    rw [List.cons_append, List.append_assoc]
    exact he _ _ _ _ _ h1 _ _ (ih h2)

theorem sstage_gates {core : List Nat} {rot : Bool} {block : Nat → List Instr → Prop} {e : Unit → Nat → Instr → Outcome (List Instr × Unit × Nat)}
    (hne : NonemptyExp e) (he : SStage core rot block e) {m : Mode} {gs : List Gate} {c c' : Nat} {out : List Instr}
    (h : Delivers (stage e (gateMachine m)) ((gs, []), (), []) c out c') : ∃ src, CompiledFrom m gs src ∧ SExpands core rot block src out := by
  induction gs generalizing c out with
  | nil =>
    rw [delivers_stage_gates_nil hne] at h
    obtain ⟨rfl, rfl⟩ := h
    exact ⟨[], .nil, .nil⟩
  | cons g gs ih =>
    rw [delivers_stage_gates_cons hne] at h
    obtain ⟨is, c1, l, t', c2, o, h1, h2, rfl, h3⟩ := h
    obtain ⟨src, h4, h5⟩ := ih h3
    exact ⟨is ++ src, .cons h1 h4, sstage_list he h2 h5⟩

namespace Spec

/-- **C16, instructions from a file.** -/
theorem c16_teleported (core : List Nat) (rot : Bool) (src out : List Instr) (fuel c c' : Nat)
    (h : (stage (teleportedExpand core rot) listMachine).run fuel (src, (), []) c = .ok (out, true, c')) : SExpands core rot TeleportBlock src out := by
  obtain ⟨t', h⟩ := (delivers_stage_list (teleported_ne _ _)).1 ((run_iff ..).1 h).1
  simpa using sstage_list (teleported_sstage core rot) h .nil

theorem c16_catalytic (core : List Nat) (loc rot : Bool) (src out : List Instr) (fuel c c' : Nat)
    (h : (stage (catalyticExpand core loc rot) listMachine).run fuel (src, (), []) c = .ok (out, true, c')) : SExpands core rot CatalyticBlock src out := by
  obtain ⟨t', h⟩ := (delivers_stage_list (catalytic_ne _ _ _)).1 ((run_iff ..).1 h).1
  simpa using sstage_list (catalytic_sstage core loc rot) h .nil

/-- **C16, gate programs.** -/
theorem c16_teleported_gates (core : List Nat) (rot : Bool) (m : Mode) (prog : List Gate) (out : List Instr) (fuel c c' : Nat)
    (h : (stage (teleportedExpand core rot) (gateMachine m)).run fuel ((prog, []), (), []) c = .ok (out, true, c')) :
    ∃ src, CompiledFrom m prog src ∧ SExpands core rot TeleportBlock src out :=
  sstage_gates (teleported_ne _ _) (teleported_sstage core rot) ((run_iff ..).1 h).1

theorem c16_catalytic_gates (core : List Nat) (loc rot : Bool) (m : Mode) (prog : List Gate) (out : List Instr) (fuel c c' : Nat)
    (h : (stage (catalyticExpand core loc rot) (gateMachine m)).run fuel ((prog, []), (), []) c = .ok (out, true, c')) :
    ∃ src, CompiledFrom m prog src ∧ SExpands core rot CatalyticBlock src out :=
  sstage_gates (catalytic_ne _ _ _) (catalytic_sstage core loc rot) ((run_iff ..).1 h).1

/-- **C16.** No S on a core qubit is left in a sequence obtained that way (with either kind of block). -/
theorem c16_no_s (core : List Nat) (rot : Bool) (block : Nat → List Instr → Prop) (hb : ∀ q b, block q b → TeleportBlock q b ∨ CatalyticBlock q b)
    (src out : List Instr) (h : SExpands core rot block src out) : ∀ i ∈ out, ∀ q d, i.op = .sq q .S d → q ∉ core := by
  induction h with
  | nil => simp
  | @s i q d b src out hi hq hbq _ ih =>
    intro j hj q' d' hop
    rcases List.mem_append.1 hj with hj | hj
    · exfalso
      have hcn : ∀ a b l, CnotBlock a b l → ∀ j ∈ l, ∀ q d, j.op ≠ .sq q .S d := by
        rintro a b l (⟨x, nx, cl, rfl⟩ | ⟨x, y, cl, rfl⟩) j hj q d <;> simp [plain] at hj
        · rcases hj with rfl | rfl | rfl | rfl <;> simp
        · subst hj; simp
      rcases hb _ _ hbq with ⟨y, rfl⟩ | ⟨y, l1, l2, h1, h2, rfl⟩
      · simp [plain] at hj
        rcases hj with rfl | rfl | rfl | rfl <;> simp at hop
      · simp only [List.mem_append, List.mem_cons, List.not_mem_nil, or_false] at hj
        rcases hj with (((rfl | hj) | rfl | rfl) | hj) | rfl | rfl | rfl
        · simp at hop
        · exact hcn _ _ _ h1 j hj _ _ hop
        · simp [plain] at hop
        · simp [plain] at hop
        · exact hcn _ _ _ h2 j hj _ _ hop
        · simp [plain] at hop
        · simp [plain] at hop
        · simp [plain] at hop
    · exact ih j hj q' d' hop
  | @h i q d src out hi _ _ _ ih =>
    intro j hj q' d' hop
    simp only [List.mem_cons] at hj
    rcases hj with rfl | rfl | hj
    · rw [hi] at hop; cases hop
    · simp [plain] at hop
    · exact ih j hj q' d' hop
  | @other i src out hs _ _ ih =>
    intro j hj q' d' hop
    rcases List.mem_cons.1 hj with rfl | hj
    · exact hs q' d' hop
    · exact ih j hj q' d' hop

example : ∃ out, (stage (catalyticExpand [0, 1] false true) listMachine).run 60
    ([plain (.sq 0 .H false), plain (.sq 0 .S false), plain (.sq 5 .S false)], (), []) 6 = .ok (out, true, 9) ∧ out.length = 17 := ⟨_, rfl, rfl⟩

/-- C10, seen through to instructions: a rotation by minus a quarter of pi is compiled exactly like a T gate,
its sign is ignored. -/
theorem c10_sign_ignored_by_compiler (m : Mode) (c q : Nat) (neg : Bool) : compileGate m c (.rz q ⟨1, 4, neg⟩) = compileGate m c (.basic q .T) := by
  simp [compileGate]

end Spec
end Verif.Stream
