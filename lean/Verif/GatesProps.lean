import Verif.Gates
import Mathlib.Tactic.Ring
import Mathlib.Tactic.Linarith
import Mathlib.Data.Rat.Defs
import Mathlib.Algebra.Order.Field.Rat

/-!
# Gate decomposition: C08, C09
-/

namespace Verif.Gates
namespace Spec

/-! ## C08 -/

/-- A basic gate: a named single-qubit gate, a reset, or one of the named single-qubit gates under a control. -/
inductive IsBasic : Gate → Prop
  | single (q t) : IsBasic (.basic q t)
  | controlled (c q t ty pl) : IsBasic (.ctrl c (.basic q t) ty pl)
  | reset (r q) : IsBasic (.reset r q)

/-- The decomposition of one gate, `approx` being the rotation approximation in use: basic gates stand for
themselves, a rotation for its approximation, and a controlled rotation by `f` of `t` under `c` for half
rotations of `c` and `t`, a CNOT, the opposite half rotation of `t` and a CNOT. -/
inductive DecomposesTo (approx : Nat → Frac → Outcome (List Gate)) : Gate → List Gate → Prop
  | basic {g} (h : IsBasic g) : DecomposesTo approx g [g]
  | rz {q f l} (h : approx q f = .ok l) : DecomposesTo approx (.rz q f) l
  | crz {c t f ty pl a b e} (ha : approx c ⟨f.num, f.den * 2, false⟩ = .ok a) (hb : approx t ⟨f.num, f.den * 2, false⟩ = .ok b)
      (he : approx t ⟨-f.num, f.den * 2, false⟩ = .ok e)
      (hd : -(2 ^ 63) ≤ f.den * 2 ∧ f.den * 2 < 2 ^ 63) (hn : -(2 ^ 63) ≤ -f.num ∧ -f.num < 2 ^ 63) :
      DecomposesTo approx (.ctrl c (.rz t f) ty pl)
        (a ++ b ++ [.ctrl c (.basic t .X) ty pl] ++ e ++ [.ctrl c (.basic t .X) ty pl])

/-- Gate by gate decompositions of a program. -/
inductive ProgramDecomposesTo (approx : Nat → Frac → Outcome (List Gate)) : List Gate → List (List Gate) → Prop
  | nil : ProgramDecomposesTo approx [] []
  | cons {g l gs ls} : DecomposesTo approx g l → ProgramDecomposesTo approx gs ls → ProgramDecomposesTo approx (g :: gs) (l :: ls)

end Spec
open Spec

theorem isBasic_iff {g : Gate} : IsBasic g ↔ isDecomposed g = true := by
  constructor
  · intro h; cases h <;> rfl
  · intro h
    match g, h with
    | .basic q t, _ => exact .single q t
    | .reset r q, _ => exact .reset r q
    | .ctrl c (.basic q t) ty pl, _ => exact .controlled c q t ty pl

theorem int64_ok {z r : Int} : int64 z = .ok r ↔ (-(2 ^ 63) ≤ z ∧ z < 2 ^ 63) ∧ r = z := by
  unfold int64
  by_cases h : -(2 ^ 63) ≤ z ∧ z < 2 ^ 63
  · rw [if_pos h]
    exact ⟨fun e => by (cases e; exact ⟨h, rfl⟩), fun e => by rw [e.2]⟩
  · rw [if_neg h]
    exact ⟨fun e => (nomatch e), fun e => absurd e.1 h⟩

theorem decompose_iff {approx : Nat → Frac → Outcome (List Gate)} {g : Gate} {l : List Gate} :
    decompose approx g = .ok l ↔ DecomposesTo approx g l := by
  constructor
  · intro h
    match g, h with
    | .basic q t, h => cases h; exact .basic (.single q t)
    | .reset r q, h => cases h; exact .basic (.reset r q)
    | .rz q f, h => exact .rz h
    | .ctrl c (.basic t b) ty pl, h => cases h; exact .basic (.controlled c t b ty pl)
    | .ctrl c (.rz t f) ty pl, h =>
      simp only [decompose, decomposeCRZ, Outcome.bind_eq_ok] at h
      obtain ⟨d, hd, a, ha, b, hb, m, hm, e, he, h⟩ := h
      rw [int64_ok] at hd hm
      obtain ⟨hd, rfl⟩ := hd; obtain ⟨hm, rfl⟩ := hm
      cases h
      exact .crz ha hb he hd hm
  · intro h
    cases h with
    | basic h => cases h <;> rfl
    | rz h => exact h
    | crz ha hb he hd hn =>
      simp only [decompose, decomposeCRZ, Outcome.bind_eq_ok]
      exact ⟨_, int64_ok.2 ⟨hd, rfl⟩, _, ha, _, hb, _, int64_ok.2 ⟨hn, rfl⟩, _, he, rfl⟩

theorem run_spec {approx : Nat → Frac → Outcome (List Gate)} (n : Nat) (s : DecStream) (out : List Gate)
    (h : s.run approx n = .ok (out, true)) :
    ∃ ls, ProgramDecomposesTo approx s.input ls ∧ (∀ l ∈ ls, l ≠ []) ∧ out = s.queue ++ ls.flatten := by
  induction n generalizing s out with
  | zero =>
    simp only [DecStream.run, Outcome.ok.injEq, Prod.mk.injEq, Bool.not_eq_true', DecStream.hasNext, Bool.or_eq_false_iff,
      Bool.not_eq_false', List.isEmpty_iff] at h
    obtain ⟨rfl, hq, hi⟩ := h
    exact ⟨[], by rw [hi]; exact .nil, by simp, by simp [hq]⟩
  | succ n ih =>
    unfold DecStream.run at h
    split at h
    · simp only [Outcome.bind_eq_ok] at h
      obtain ⟨⟨g, s'⟩, hg, ⟨gs, b⟩, hr, h⟩ := h
      simp only [Outcome.ok.injEq, Prod.mk.injEq] at h
      obtain ⟨rfl, rfl⟩ := h
      obtain ⟨ls, h1, h2, h3⟩ := ih s' gs hr
      unfold DecStream.getNext at hg
      split at hg
      · rename_i g' q hq
        cases hg
        exact ⟨ls, h1, h2, by rw [hq, h3]; rfl⟩
      · rename_i hq
        split at hg
        · cases hg
        · rename_i g' rest hi
          split at hg
          · rename_i hdec
            cases hg
            refine ⟨[g] :: ls, ?_, by simpa using h2, by rw [hq, h3]; simp [hq]⟩
            rw [hi]; exact .cons (.basic (isBasic_iff.2 hdec)) h1
          · simp only [Outcome.bind_eq_ok] at hg
            obtain ⟨dl, hdl, ⟨x, q⟩, hp, hg⟩ := hg
            cases hg
            cases dl with
            | nil => cases hp
            | cons y q' =>
              simp only [queuePop, Outcome.ok.injEq, Prod.mk.injEq] at hp
              obtain ⟨rfl, rfl⟩ := hp
              refine ⟨(y :: q') :: ls, ?_, by simpa using h2, by rw [hq, h3]; simp⟩
              rw [hi]; exact .cons (decompose_iff.1 hdl) h1
    · rename_i hn
      simp only [Outcome.ok.injEq, Prod.mk.injEq] at h
      obtain ⟨rfl, _⟩ := h
      simp only [DecStream.hasNext, Bool.or_eq_true, Bool.not_eq_true', List.isEmpty_eq_false_iff, not_or, ne_eq, not_not] at hn
      exact ⟨[], by rw [hn.2]; exact .nil, by simp, by simp [hn.1]⟩

theorem run_complete {approx : Nat → Frac → Outcome (List Gate)} (n : Nat) (s : DecStream) (ls : List (List Gate))
    (h1 : ProgramDecomposesTo approx s.input ls) (h2 : ∀ l ∈ ls, l ≠ []) :
    s.run approx n = .ok ((s.queue ++ ls.flatten).take n, decide ((s.queue ++ ls.flatten).length ≤ n)) := by
  induction n generalizing s ls with
  | zero =>
    unfold DecStream.run
    obtain ⟨i, q⟩ := s
    cases h1 with
    | nil => cases q <;> simp [DecStream.hasNext]
    | @cons g l gs ls hd hr =>
      have := h2 l (by simp)
      have hl : l.length ≠ 0 := by simpa using this
      simp only [List.take_zero, DecStream.hasNext, List.flatten_cons, List.length_append]
      have : ¬ (q.length + (l.length + ls.flatten.length) ≤ 0) := by omega
      simp [hl]
  | succ n ih =>
    unfold DecStream.run
    obtain ⟨i, q⟩ := s
    cases q with
    | cons g q =>
      simp only [DecStream.hasNext, DecStream.getNext, Outcome.bind_ok]
      rw [ih ⟨i, q⟩ ls h1 h2]
      simp [DecStream.hasNext, Nat.add_comm]
    | nil =>
      cases h1 with
      | nil => simp [DecStream.hasNext]
      | @cons g l gs ls hd hr =>
        have hne := h2 l (by simp)
        cases l with
        | nil => exact absurd rfl hne
        | cons x l =>
          simp only [DecStream.hasNext, DecStream.getNext]
          by_cases hb : isDecomposed g = true
          · have : x :: l = [g] := by
              have h3 := decompose_iff.2 hd
              have h4 := decompose_iff.2 (DecomposesTo.basic (approx := approx) (isBasic_iff.2 hb))
              rw [h3] at h4; cases h4; rfl
            cases this
            simp only [hb, if_true, Outcome.bind_ok]
            rw [ih ⟨gs, []⟩ ls hr (fun l hl => h2 l (by simp [hl]))]
            simp [Nat.add_comm]
          · rw [if_neg hb]
            rw [decompose_iff.2 hd]
            simp only [Outcome.bind_ok, queuePop]
            rw [ih ⟨gs, l⟩ ls hr (fun l hl => h2 l (by simp [hl]))]
            simp

namespace Spec

/-- **C08.** The stream over a program is consumed completely exactly when every gate has a nonempty
decomposition, and what it delivers is their concatenation in program order. -/
theorem c08_stream (approx : Nat → Frac → Outcome (List Gate)) (prog out : List Gate) :
    (∃ n, DecStream.run approx n ⟨prog, []⟩ = .ok (out, true)) ↔
      ∃ ls, ProgramDecomposesTo approx prog ls ∧ (∀ l ∈ ls, l ≠ []) ∧ out = ls.flatten := by
  constructor
  · rintro ⟨n, h⟩
    obtain ⟨ls, h1, h2, h3⟩ := run_spec n _ _ h
    exact ⟨ls, h1, h2, by simpa using h3⟩
  · rintro ⟨ls, h1, h2, rfl⟩
    refine ⟨ls.flatten.length, ?_⟩
    rw [run_complete _ _ ls h1 h2, List.nil_append, List.take_length]; simp

/-- **C08, every moment of the run.** After `n` requests the gates delivered are the first `n` of that
concatenation. -/
theorem c08_prefix (approx : Nat → Frac → Outcome (List Gate)) (prog : List Gate) (ls : List (List Gate))
    (h1 : ProgramDecomposesTo approx prog ls) (h2 : ∀ l ∈ ls, l ≠ []) (n : Nat) :
    DecStream.run approx n ⟨prog, []⟩ = .ok (ls.flatten.take n, decide (ls.flatten.length ≤ n)) := by
  simpa using run_complete n ⟨prog, []⟩ ls h1 h2

/-- **C08, basic gates.** When the rotation approximation only yields basic gates, so does the stream. -/
theorem c08_basic (approx : Nat → Frac → Outcome (List Gate)) (happrox : ∀ q f l, approx q f = .ok l → ∀ g ∈ l, IsBasic g)
    (prog out : List Gate) (n : Nat) (h : DecStream.run approx n ⟨prog, []⟩ = .ok (out, true)) :
    ∀ g ∈ out, IsBasic g := by
  obtain ⟨ls, h1, -, h3⟩ := run_spec n _ _ h
  simp only [List.nil_append] at h3
  subst h3
  clear h
  replace h1 : ProgramDecomposesTo approx prog ls := h1
  induction h1 with
  | nil => simp
  | @cons g l gs ls hd hr ih =>
    intro x hx
    rw [List.flatten_cons, List.mem_append] at hx
    rcases hx with hx | hx
    · cases hd with
      | basic hb => simp at hx; subst hx; exact hb
      | rz hq => exact happrox _ _ _ hq x hx
      | crz ha hb he _ _ =>
        simp only [List.mem_append, List.mem_singleton] at hx
        rcases hx with (((hx | hx) | rfl) | hx) | rfl
        · exact happrox _ _ _ ha x hx
        · exact happrox _ _ _ hb x hx
        · exact .controlled ..
        · exact happrox _ _ _ he x hx
        · exact .controlled ..
    · exact ih x hx

/-- The approximation the compiler ships only yields basic gates, on the rotated qubit, whatever the
external synthesiser answers. -/
theorem c08_gridsynth_basic (synth : Frac → Outcome Str) (q : Nat) (f : Frac) (l : List Gate)
    (h : approxGridsynth synth q f = .ok l) : ∀ g ∈ l, ∃ t, g = .basic q t := by
  have key : ∀ (s : Str) (l : List Gate), synthLoop q s = .ok l → ∀ g ∈ l, ∃ t, g = .basic q t := by
    intro s
    induction s with
    | nil => intro l h; cases h; simp
    | cons c s ih =>
      intro l h
      unfold synthLoop at h
      split at h
      · cases h; simp
      · split at h
        · exact ih l h
        · simp only [Outcome.bind_eq_ok] at h
          obtain ⟨g, hg, gs, hs, h⟩ := h
          cases h
          intro x hx
          rcases List.mem_cons.1 hx with rfl | hx
          · unfold gateFromName at hg
            split at hg; · cases hg; exact ⟨_, rfl⟩
            split at hg; · cases hg; exact ⟨_, rfl⟩
            split at hg; · cases hg; exact ⟨_, rfl⟩
            split at hg; · cases hg; exact ⟨_, rfl⟩
            split at hg; · cases hg; exact ⟨_, rfl⟩
            cases hg
          · exact ih gs hs x hx
  simp only [approxGridsynth, Outcome.bind_eq_ok] at h
  obtain ⟨s, _, gs, hs, h⟩ := h
  cases h
  intro g hg
  exact key s gs hs g (by simpa using hg)

/-- A synthesiser answering "HTW" to everything: the program below is delivered completely. -/
example : DecStream.run (approxGridsynth fun _ => .ok "HTW".toList) 20
    ⟨[.basic 0 .H, .rz 1 ⟨1, 8, false⟩, .ctrl 0 (.rz 1 ⟨1, 4, false⟩) .controlFirst .dedicated], []⟩ =
    .ok ([.basic 0 .H, .basic 1 .T, .basic 1 .H, .basic 0 .T, .basic 0 .H, .basic 1 .T, .basic 1 .H,
      .ctrl 0 (.basic 1 .X) .controlFirst .dedicated, .basic 1 .T, .basic 1 .H, .ctrl 0 (.basic 1 .X) .controlFirst .dedicated], true) := by
  decide

/-- An approximation may be empty (for instance when the synthesiser answers with a global phase only); the
stream then takes the front of an empty queue. -/
theorem c08_empty_undefined (approx : Nat → Frac → Outcome (List Gate)) (q : Nat) (f : Frac) (h : approx q f = .ok [])
    (rest : List Gate) (n : Nat) : DecStream.run approx (n + 1) ⟨.rz q f :: rest, []⟩ = .ub := by
  unfold DecStream.run
  simp [DecStream.hasNext, DecStream.getNext, isDecomposed, decompose, h, queuePop]

example : approxGridsynth (fun _ => .ok "W".toList) 3 ⟨2, 1, false⟩ = .ok [] := rfl

/-- The cached approximation never answers, so with it no program containing a rotation is delivered. -/
theorem c08_cached_always_throws (q : Nat) (f : Frac) : approxCached q f = .throws := by
  unfold approxCached; split <;> rfl

/-! ## C09 -/

/-- A computational basis state of any number of qubits. -/
abbrev Basis := Nat → Bool

/-- The number a fraction of pi stands for. -/
def phaseOf (f : Frac) : Rat := if f.neg then -((f.num : Rat) / f.den) else (f.num : Rat) / f.den

/-- The basis state a gate takes a basis state to and the phase it picks up, in units of pi; `none` for gates
that do not map basis states to basis states (H) or are not unitary. The rotation by `f` multiplies `|1⟩` by
`exp(iπf)` (the convention written at gates.hpp:53), and a gate under a control acts when the control is 1. -/
def actSingle : SingleGate → Basis → Option (Basis × Rat)
  | .basic q .X, b => some (upd b q (!b q), 0)
  | .basic q .Y, b => some (upd b q (!b q), if b q then -1/2 else 1/2)
  | .basic q .Z, b => some (b, if b q then 1 else 0)
  | .basic q .S, b => some (b, if b q then 1/2 else 0)
  | .basic q .T, b => some (b, if b q then 1/4 else 0)
  | .basic q .SDg, b => some (b, if b q then -1/2 else 0)
  | .basic q .TDg, b => some (b, if b q then -1/4 else 0)
  | .basic _ .H, _ => none
  | .rz q f, b => some (b, if b q then (phaseOf f) else 0)

def act : Gate → Basis → Option (Basis × Rat)
  | .basic q t, b => actSingle (.basic q t) b
  | .rz q f, b => actSingle (.rz q f) b
  | .ctrl c g _ _, b => if b c then actSingle g b else some (b, 0)
  | .reset _ _, _ => none

/-- A sequence of gates: states are threaded, phases add up. -/
def actAll : List Gate → Basis → Option (Basis × Rat)
  | [], b => some (b, 0)
  | g :: gs, b =>
    match act g b with
    | none => none
    | some (b', p) => (actAll gs b').map fun r => (r.1, p + r.2)

/-- Equal phases: equal up to full turns. -/
def SamePhase (p q : Rat) : Prop := ∃ k : Int, p = q + 2 * k

/-- The approximation in use is exact at this angle: it acts on every basis state as the rotation. -/
def ExactAt (approx : Nat → Frac → Outcome (List Gate)) (q : Nat) (f : Frac) : Prop :=
  ∀ l, approx q f = .ok l → ∀ b, ∃ p, actAll l b = some (b, p) ∧ SamePhase p (if b q then (phaseOf f) else 0)

end Spec
open Spec

theorem actAll_append {a b : List Gate} {x y z : Basis} {p q : Rat} (ha : actAll a x = some (y, p)) (hb : actAll b y = some (z, q)) :
    actAll (a ++ b) x = some (z, p + q) := by
  induction a generalizing x p with
  | nil => simp [actAll] at ha; obtain ⟨rfl, rfl⟩ := ha; simp [hb]
  | cons g a ih =>
    simp only [actAll, List.cons_append] at ha ⊢
    cases hg : act g x with
    | none => rw [hg] at ha; cases ha
    | some r =>
      obtain ⟨x', p'⟩ := r
      rw [hg] at ha
      simp only [Option.map_eq_some_iff] at ha ⊢
      obtain ⟨⟨y', p''⟩, h1, h2⟩ := ha
      cases h2
      exact ⟨_, ih h1, by simp [add_assoc]⟩

theorem actAll_single {g : Gate} {x y : Basis} {p : Rat} (h : act g x = some (y, p)) : actAll [g] x = some (y, p) := by
  simp [actAll, h]

theorem act_cnot (c t : Nat) (ty : CnotType) (pl : Placement) (b : Basis) :
    act (.ctrl c (.basic t .X) ty pl) b = some (upd b t (b t != b c), 0) := by
  rw [act]
  cases hc : b c with
  | true => simp [actSingle]
  | false =>
    rw [if_neg (by simp), Bool.bne_false]
    congr; funext x; unfold upd; split
    · subst_vars; rfl
    · rfl

namespace Spec

/-- **C09.** Replacing a controlled rotation by its decomposition maps every basis state, of any number of
qubits, to itself with the phase of the controlled rotation, for every angle not flagged negative and every
approximation that is exact at the three half angles. -/
theorem c09_crz_partial (approx : Nat → Frac → Outcome (List Gate)) (c t : Nat) (f : Frac) (ty : CnotType) (pl : Placement)
    (hct : c ≠ t) (hneg : f.neg = false)
    (h1 : ExactAt approx c ⟨f.num, f.den * 2, false⟩) (h2 : ExactAt approx t ⟨f.num, f.den * 2, false⟩)
    (h3 : ExactAt approx t ⟨-f.num, f.den * 2, false⟩)
    (l : List Gate) (hl : decompose approx (.ctrl c (.rz t f) ty pl) = .ok l) (b : Basis) :
    ∃ p q, act (.ctrl c (.rz t f) ty pl) b = some (b, q) ∧ actAll l b = some (b, p) ∧ SamePhase p q := by
  have hd := decompose_iff.1 hl
  cases hd with
  | basic h => cases h
  | @crz _ _ _ _ _ la lb le ha hb he _ _ =>
    obtain ⟨pa, a1, ka, a2⟩ := h1 _ ha b
    obtain ⟨pb, b1, kb, b2⟩ := h2 _ hb b
    let b' : Basis := upd b t (b t != b c)
    obtain ⟨pe, e1, ke, e2⟩ := h3 _ he b'
    have hc1 : actAll [.ctrl c (.basic t .X) ty pl] b = some (b', 0) := actAll_single (act_cnot c t ty pl b)
    have hb'c : b' c = b c := upd_other _ _ hct
    have hb't : b' t = (b t != b c) := upd_same _ _ _
    have hc2 : actAll [.ctrl c (.basic t .X) ty pl] b' = some (b, 0) := by
      have := actAll_single (act_cnot c t ty pl b')
      rw [this, hb'c, hb't]
      congr
      funext x
      by_cases hx : x = t
      · subst hx; rw [upd_same]; cases b x <;> cases b c <;> rfl
      · rw [upd_other _ _ hx]; exact upd_other _ _ hx
    refine ⟨_, (if b c then (if b t then (phaseOf f) else 0) else 0), ?_, actAll_append (actAll_append (actAll_append (actAll_append a1 b1) hc1) e1) hc2, ?_⟩
    · rw [act]; cases hc : b c <;> simp [actSingle]
    · refine ⟨ka + kb + ke, ?_⟩
      rw [a2, b2, e2, hb't]
      simp only [phaseOf, hneg, Bool.false_eq_true, if_false]
      push_cast
      cases b c <;> cases b t <;> simp <;> ring

/-- With rotations kept exact, `crz(pi/4)` of qubit 1 under qubit 0 meets the hypotheses and decomposes. -/
example : let approx : Nat → Frac → Outcome (List Gate) := fun q f => .ok [.rz q f]
    (∀ q f, ExactAt approx q f) ∧
    decompose approx (.ctrl 0 (.rz 1 ⟨1, 4, false⟩) .controlFirst .dedicated) =
      .ok [.rz 0 ⟨1, 8, false⟩, .rz 1 ⟨1, 8, false⟩, cnot 1 0 .controlFirst .dedicated, .rz 1 ⟨-1, 8, false⟩, cnot 1 0 .controlFirst .dedicated] := by
  refine ⟨?_, rfl⟩
  intro q f l hl b
  cases hl
  exact ⟨_, actAll_single rfl, 0, by simp⟩

/-- **C09 (negation).** The sign flag of the angle is dropped: the decomposition of a rotation flagged
negative is that of the positive one. -/
theorem c09_sign_dropped (approx : Nat → Frac → Outcome (List Gate)) (c t : Nat) (f : Frac) (ty : CnotType) (pl : Placement) :
    decompose approx (.ctrl c (.rz t { f with neg := true }) ty pl) = decompose approx (.ctrl c (.rz t { f with neg := false }) ty pl) := rfl

/-- Hence a wrong phase: 1/4 where -1/4 is meant, on the basis state with both qubits 1. -/
theorem c09_sign_wrong_phase :
    ∃ (approx : Nat → Frac → Outcome (List Gate)) (l : List Gate) (b : Basis) (p q : Rat), (∀ r f, ExactAt approx r f) ∧
      decompose approx (.ctrl 0 (.rz 1 ⟨1, 4, true⟩) .controlFirst .dedicated) = .ok l ∧
      act (.ctrl 0 (.rz 1 ⟨1, 4, true⟩) .controlFirst .dedicated) b = some (b, q) ∧ actAll l b = some (b, p) ∧ ¬ SamePhase p q := by
  let approx : Nat → Frac → Outcome (List Gate) := fun q f => .ok [.rz q f]
  have hex : ∀ r f, ExactAt approx r f := by
    intro q f l hl b
    cases hl
    exact ⟨_, actAll_single rfl, 0, by simp⟩
  obtain ⟨p, q, hq, hp, k, hk⟩ := c09_crz_partial approx 0 1 ⟨1, 4, false⟩ .controlFirst .dedicated (by decide) rfl (hex _ _) (hex _ _) (hex _ _)
    _ rfl (fun _ => true)
  refine ⟨approx, _, fun _ => true, p, -1/4, hex, rfl, ?_, hp, ?_⟩
  · simp [act, actSingle, phaseOf]; norm_num
  · rintro ⟨k', hk'⟩
    have : q = 1/4 := by
      simp [act, actSingle, phaseOf] at hq; rw [← hq]; norm_num
    rw [hk'] at hk
    rw [this] at hk
    have h2 : ((4 * (k' - k) : Int) : Rat) = (1 : Int) := by push_cast; linarith
    have h3 : 4 * (k' - k) = (1 : Int) := by exact_mod_cast h2
    omega

/-- The OpenQASM meaning of `crz`: `diag(1, 1, exp(-iθ/2), exp(iθ/2))`. -/
def openQasmCrz (c t : Nat) (theta : Rat) (b : Basis) : Rat := if b c then (if b t then theta / 2 else -theta / 2) else 0

/-- **C09 (OpenQASM reading).** Under OpenQASM's convention for `crz` the phases differ, and not by a global
phase: between two basis states with the target at 0 the relative phase is `-θ/2` in OpenQASM and 0 here. -/
theorem c09_not_openqasm_crz (c t : Nat) (f : Frac) (ty : CnotType) (pl : Placement) (hct : c ≠ t) :
    ∃ b0 b1 : Basis, ∃ p0 p1 : Rat, act (.ctrl c (.rz t f) ty pl) b0 = some (b0, p0) ∧ act (.ctrl c (.rz t f) ty pl) b1 = some (b1, p1) ∧
      p1 - p0 = 0 ∧ openQasmCrz c t (phaseOf f) b1 - openQasmCrz c t (phaseOf f) b0 = -(phaseOf f) / 2 := by
  refine ⟨fun _ => false, upd (fun _ => false) c true, 0, 0, ?_, ?_, by norm_num, ?_⟩
  · simp [act]
  · simp [act, actSingle, upd, Ne.symm hct]
  · simp [openQasmCrz, upd, Ne.symm hct]

end Spec
end Verif.Gates
