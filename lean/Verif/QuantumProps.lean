import Verif.Quantum
import Verif.StreamInject
import Mathlib.Tactic.LinearCombination
import Mathlib.Algebra.Field.ZMod

/-!
# The instruction sequences emitted for gates

C45 (CNOT), C54 (T and S gates, Clifford programs), for the sequences of `Stream.lean` and the meaning of `Quantum.lean`.
-/

namespace Verif.Quantum

variable {ι : Type} [DecidableEq ι] {K : Type} [Field K]

theorem upd_idem {β : Type} (b : ι → β) (a : ι) (x y : β) : upd (upd b a x) a y = upd b a y := by
  funext k; unfold upd; split <;> rfl

theorem upd_swap {β : Type} (b : ι → β) {a t : ι} (h : a ≠ t) (x y : β) : upd (upd b t y) a x = upd (upd b a x) t y := by
  funext k; unfold upd; split <;> split <;> simp_all

theorem upd_id {β : Type} {b : ι → β} {a : ι} {x : β} (h : b a = x) : upd b a x = b := by
  funext k; unfold upd; split
  · rename_i e; rw [e, h]
  · rfl

theorem upd_ne {β : Type} (b : ι → β) {a k : ι} (x : β) (h : k ≠ a) : upd b a x k = b k := by
  unfold upd; rw [if_neg h]

@[simp] theorem sg_mul_self (x : Bool) : (sg x * sg x : K) = 1 := by cases x <;> simp [sg]

theorem sg_xor (x y : Bool) : (sg (xor x y) : K) = sg x * sg y := by cases x <;> cases y <;> simp [sg]

theorem sg_not (x : Bool) : (sg (!x) : K) = -sg x := by cases x <;> simp [sg]

theorem sg_ne (x : Bool) : (sg x : K) ≠ 0 := by cases x <;> simp [sg]

/-! ## CNOT through an ancilla -/

/-- What the emitted sequences do: the target has been measured in X. -/
def Measured (w : K) (c t a : Nat) (prog : List Operation) (o : Nat → Bool) (k : Bool) : Prop :=
  ∀ s : St K, Proper s → s.live a = false → s.live c = true → s.live t = true →
    ∃ s', Runs w prog o s s' ∧ s'.live = s.live ∧ ∀ b, s'.amp (flip b t) = sg k * s'.amp b

theorem flip_flip (b : ι → Bool) (t : ι) : flip (flip b t) t = b := by
  unfold flip; rw [upd_idem, upd_same, Bool.not_not, upd_id rfl]

section
variable {w : K} {c t a : Nat} (hct : c ≠ t) (hca : c ≠ a) (hta : t ≠ a) (n : Option NextTo) (o : Nat → Bool)
include hct hca hta

theorem control_first : Measured w c t a
    [.init a .plus n, .multi [(c, .Z), (a, .Z)] false none, .multi [(a, .X), (t, .X)] false none, .measure a .X false] o (xor (o 2) (o 3)) := by
  intro s hs ha hc ht
  refine ⟨_, ⟨_, ⟨ha, rfl⟩, _, ⟨?_, ?_, rfl⟩, _, ⟨?_, ?_, rfl⟩, _, ⟨?_, rfl⟩, rfl⟩, ?_, ?_⟩
  · simp [upd, hc]
  · simp [hca]
  · simp [upd, ht]
  · simp [Ne.symm hta]
  · simp [upd]
  · dsimp only
    rw [upd_idem, upd_id ha]
  · intro b
    cases hb : b a with
    | true => simp [drop, hb, flip, upd, Ne.symm hta]
    | false =>
      have e : upd b a false = b := upd_id hb
      simp only [drop, hb, project, paulis, pauli, gateX, gateZ, prepare, flip, upd_idem, upd_same, upd_swap _ hca,
        upd_swap _ (Ne.symm hta), upd_ne _ _ hta, upd_ne _ _ hct, upd_ne _ _ hca, upd_ne _ _ (Ne.symm hta), e, Bool.xor_false, Bool.not_not]
      rw [show upd b t (b t) = b from upd_id rfl]
      cases o 1 <;> cases o 2 <;> cases o 3 <;> cases b c <;> simp [sg, e] <;> ring

theorem control_first_always : Measured w c t a
    [.init a .plus n, .multi [(c, .Z), (a, .Z)] false none, .sq a .X false, .multi [(a, .X), (t, .X)] false none, .sq c .Z false,
      .measure a .X false] o (xor (o 3) (o 5)) := by
  intro s hs ha hc ht
  refine ⟨_, ⟨_, ⟨ha, rfl⟩, _, ⟨?_, ?_, rfl⟩, _, ⟨?_, rfl⟩, _, ⟨?_, ?_, rfl⟩, _, ⟨?_, rfl⟩, _, ⟨?_, rfl⟩, rfl⟩, ?_, ?_⟩
  · simp [upd, hc]
  · simp [hca]
  · simp [upd]
  · simp [upd, ht]
  · simp [Ne.symm hta]
  · simp [upd, hc]
  · simp [upd]
  · dsimp only
    rw [upd_idem, upd_id ha]
  · intro b
    cases hb : b a with
    | true => simp [drop, hb, flip, upd, Ne.symm hta]
    | false =>
      have e : upd b a false = b := upd_id hb
      simp only [drop, hb, project, paulis, pauli, gateX, gateZ, single, prepare, flip, upd_idem, upd_same, upd_swap _ hca,
        upd_swap _ (Ne.symm hta), upd_ne _ _ hta, upd_ne _ _ hct, upd_ne _ _ hca, upd_ne _ _ (Ne.symm hta), e, Bool.xor_false, Bool.not_not]
      rw [show upd b t (b t) = b from upd_id rfl]
      cases o 1 <;> cases o 3 <;> cases o 5 <;> cases b c <;> simp [sg, e] <;> ring

theorem target_first : Measured w c t a
    [.init a .plus n, .multi [(a, .X), (t, .X)] false none, .multi [(c, .Z), (a, .Z)] false none, .measure a .X false] o (o 1) := by
  intro s hs ha hc ht
  refine ⟨_, ⟨_, ⟨ha, rfl⟩, _, ⟨?_, ?_, rfl⟩, _, ⟨?_, ?_, rfl⟩, _, ⟨?_, rfl⟩, rfl⟩, ?_, ?_⟩
  · simp [upd, ht]
  · simp [Ne.symm hta]
  · simp [upd, hc]
  · simp [hca]
  · simp [upd]
  · dsimp only
    rw [upd_idem, upd_id ha]
  · intro b
    cases hb : b a with
    | true => simp [drop, hb, flip, upd, Ne.symm hta]
    | false =>
      have e : upd b a false = b := upd_id hb
      simp only [drop, hb, project, paulis, pauli, gateX, gateZ, prepare, flip, upd_idem, upd_same, upd_swap _ hca,
        upd_swap _ (Ne.symm hta), upd_ne _ _ hta, upd_ne _ _ hct, upd_ne _ _ hca, upd_ne _ _ (Ne.symm hta), e, Bool.xor_false, Bool.not_not]
      rw [show upd b t (b t) = b from upd_id rfl]
      cases o 1 <;> cases o 2 <;> cases o 3 <;> cases b c <;> simp [sg, e] <;> ring

theorem target_first_always : Measured w c t a
    [.init a .plus n, .multi [(a, .X), (t, .X)] false none, .sq a .Z false, .multi [(c, .Z), (a, .Z)] false none, .sq t .X false,
      .measure a .X false] o (o 1) := by
  intro s hs ha hc ht
  refine ⟨_, ⟨_, ⟨ha, rfl⟩, _, ⟨?_, ?_, rfl⟩, _, ⟨?_, rfl⟩, _, ⟨?_, ?_, rfl⟩, _, ⟨?_, rfl⟩, _, ⟨?_, rfl⟩, rfl⟩, ?_, ?_⟩
  · simp [upd, ht]
  · simp [Ne.symm hta]
  · simp [upd]
  · simp [upd, hc]
  · simp [hca]
  · simp [upd, ht]
  · simp [upd]
  · dsimp only
    rw [upd_idem, upd_id ha]
  · intro b
    cases hb : b a with
    | true => simp [drop, hb, flip, upd, Ne.symm hta]
    | false =>
      have e : upd b a false = b := upd_id hb
      simp only [drop, hb, project, paulis, pauli, gateX, gateZ, single, prepare, flip, upd_idem, upd_same, upd_swap _ hca,
        upd_swap _ (Ne.symm hta), upd_ne _ _ hta, upd_ne _ _ hct, upd_ne _ _ hca, upd_ne _ _ (Ne.symm hta), e, Bool.xor_false, Bool.not_not]
      rw [show upd b t (b t) = b from upd_id rfl]
      cases o 1 <;> cases o 3 <;> cases o 5 <;> cases b c <;> simp [sg, e] <;> ring

end

/-- Control first with the ancilla measured in Z: a CNOT up to Pauli operators. -/
theorem control_first_fixed {w : K} (h2 : (2 : K) ≠ 0) {c t a : Nat} (hct : c ≠ t) (hca : c ≠ a) (hta : t ≠ a) (n : Option NextTo) (o : Nat → Bool) :
    Does w [.init a .plus n, .multi [(c, .Z), (a, .Z)] false none, .multi [(a, .X), (t, .X)] false none, .measure a .Z false] o [c, t] [a] (gateCX c t) := by
  refine ⟨2 * (if o 2 && xor (o 1) (o 3) then -1 else 1),
    (if o 2 then [(c, .Z)] else []) ++ (if xor (o 1) (o 3) then [(t, .X)] else []), ?_, ?_, ?_⟩
  · split <;> simp [h2]
  · intro p hp
    split at hp <;> split at hp <;> simp at hp <;> (try rcases hp with rfl | rfl) <;> simp_all
  intro s hs hq ha
  have hc := hq c (by simp)
  have ht := hq t (by simp)
  have ha := ha a (by simp)
  refine ⟨_, ⟨_, ⟨ha, rfl⟩, _, ⟨?_, ?_, rfl⟩, _, ⟨?_, ?_, rfl⟩, _, ⟨?_, rfl⟩, rfl⟩, ?_, ?_⟩
  · simp [upd, hc]
  · simp [hca]
  · simp [upd, ht]
  · simp [Ne.symm hta]
  · simp [upd]
  · dsimp only
    rw [upd_idem, upd_id ha]
  · intro b
    have e' : upd b t (b t) = b := upd_id rfl
    cases hb : b a with
    | true =>
      have h1 := hs a ha b hb
      have h2 := hs a ha (flip b t) (by simp [flip, upd, hb, Ne.symm hta])
      unfold flip at h2
      cases o 1 <;> cases o 2 <;> cases o 3 <;> cases hbc : b c <;>
        simp [drop, hb, paulis, pauli, gateX, gateZ, gateCX, h1, h2, flip, upd_ne _ _ hct, hbc, e', upd_idem]
    | false =>
      have e : upd b a false = b := upd_id hb
      simp only [drop, hb, project, paulis, pauli, gateX, gateZ, gateCX, prepare, flip, upd_idem, upd_same, upd_swap _ hca,
        upd_swap _ (Ne.symm hta), upd_ne _ _ hta, upd_ne _ _ hct, upd_ne _ _ hca, upd_ne _ _ (Ne.symm hta), e, Bool.xor_false]
      cases o 1 <;> cases o 2 <;> cases o 3 <;> cases hbc : b c <;>
        simp [sg, paulis, pauli, gateX, gateZ, gateCX, flip, upd_ne _ _ hct, hbc, e', upd_idem, e, hb] <;> ring

/-- Target first with the ancilla prepared in zero: a CNOT up to Pauli operators. -/
theorem target_first_fixed {w : K} (h2 : (2 : K) ≠ 0) {c t a : Nat} (hct : c ≠ t) (hca : c ≠ a) (hta : t ≠ a) (n : Option NextTo) (o : Nat → Bool) :
    Does w [.init a .zero n, .multi [(a, .X), (t, .X)] false none, .multi [(c, .Z), (a, .Z)] false none, .measure a .X false] o [c, t] [a] (gateCX c t) := by
  refine ⟨2 * (if o 2 && xor (o 1) (o 3) then -1 else 1),
    (if xor (o 1) (o 3) then [(c, .Z)] else []) ++ (if o 2 then [(t, .X)] else []), ?_, ?_, ?_⟩
  · split <;> simp [h2]
  · intro p hp
    split at hp <;> split at hp <;> simp at hp <;> (try rcases hp with rfl | rfl) <;> simp_all
  intro s hs hq ha
  have hc := hq c (by simp)
  have ht := hq t (by simp)
  have ha := ha a (by simp)
  refine ⟨_, ⟨_, ⟨ha, rfl⟩, _, ⟨?_, ?_, rfl⟩, _, ⟨?_, ?_, rfl⟩, _, ⟨?_, rfl⟩, rfl⟩, ?_, ?_⟩
  · simp [upd, ht]
  · simp [Ne.symm hta]
  · simp [upd, hc]
  · simp [hca]
  · simp [upd]
  · dsimp only
    rw [upd_idem, upd_id ha]
  · intro b
    have e' : upd b t (b t) = b := upd_id rfl
    cases hb : b a with
    | true =>
      have h1 := hs a ha b hb
      have h2 := hs a ha (flip b t) (by simp [flip, upd, hb, Ne.symm hta])
      unfold flip at h2
      cases o 1 <;> cases o 2 <;> cases o 3 <;> cases hbc : b c <;>
        simp [drop, hb, paulis, pauli, gateX, gateZ, gateCX, h1, h2, flip, upd_ne _ _ hct, hbc, e', upd_idem]
    | false =>
      have e : upd b a false = b := upd_id hb
      have z1 := hs a ha (upd b a true) (by simp)
      have z2 := hs a ha (upd (upd b a true) t (!b t)) (by simp [upd, Ne.symm hta])
      simp only [drop, hb, project, paulis, pauli, gateX, gateZ, gateCX, flip, upd_idem, upd_same, upd_swap _ hca,
        upd_swap _ (Ne.symm hta), upd_ne _ _ hta, upd_ne _ _ hct, upd_ne _ _ hca, upd_ne _ _ (Ne.symm hta), e, Bool.xor_false]
      cases o 1 <;> cases o 2 <;> cases o 3 <;> cases hbc : b c <;>
        simp [sg, paulis, pauli, gateX, gateZ, gateCX, flip, upd_ne _ _ hct, hbc, e', upd_idem, e, hb, z1, z2] <;> ring

theorem acts_det {w : K} {op : Operation} {o : Bool} {s m m' : St K} (h : Acts w op o s m) (h' : Acts w op o s m') : m = m' := by
  cases op with
  | init q st _ =>
    cases st <;> simp only [Acts] at h h' <;> rw [h.2, h'.2]
  | ystate q _ _ =>
    simp only [Acts] at h h'
    rcases h with ⟨a1, a2⟩ | ⟨a1, _, a2⟩ <;> rcases h' with ⟨b1, b2⟩ | ⟨b1, _, b2⟩ <;> simp_all
  | _ => simp_all [Acts]

theorem runs_det {w : K} : ∀ {ops : List Operation} {o : Nat → Bool} {s m m' : St K}, Runs w ops o s m → Runs w ops o s m' → m = m'
  | [], _, _, _, _, h, h' => by rw [Runs] at h h'; rw [h, h']
  | _ :: _, _, _, _, _, ⟨_, h1, h2⟩, ⟨_, h1', h2'⟩ => by
    cases acts_det h1 h1'
    exact runs_det h2 h2'

theorem runs_append {w : K} : ∀ {l1 l2 : List Operation} {o : Nat → Bool} {s s' : St K},
    Runs w (l1 ++ l2) o s s' ↔ ∃ m, Runs w l1 o s m ∧ Runs w l2 (fun n => o (n + l1.length)) m s'
  | [], l2, o, s, s' => by simp [Runs]
  | op :: l1, l2, o, s, s' => by
    simp only [List.cons_append, Runs, runs_append (l1 := l1), List.length_cons]
    constructor
    · rintro ⟨m, h1, m', h2, h3⟩
      refine ⟨m', ⟨m, h1, h2⟩, ?_⟩
      simpa only [Nat.add_assoc, Nat.add_comm 1] using h3
    · rintro ⟨m', ⟨m, h1, h2⟩, h3⟩
      refine ⟨m, h1, m', h2, ?_⟩
      simpa only [Nat.add_assoc, Nat.add_comm 1] using h3

theorem pauli_form {w : K} (hw : w ≠ 0) (p : Pauli) (q : ι) : ∃ (f : (ι → Bool) → K) (m : ι → Bool), (∀ b, f b ≠ 0) ∧
    ∀ v b, pauli w p q v b = f b * v (fun k => xor (m k) (b k)) := by
  have hflip : ∀ b : ι → Bool, flip b q = fun k => xor (decide (k = q)) (b k) := by
    intro b; funext k; unfold flip upd; by_cases h : k = q <;> simp [h]
  cases p with
  | I => exact ⟨fun _ => 1, fun _ => false, by simp, by simp [pauli]⟩
  | X => exact ⟨fun _ => 1, fun k => decide (k = q), by simp, fun v b => by simp [pauli, gateX, hflip]⟩
  | Z => exact ⟨fun b => sg (b q), fun _ => false, fun b => sg_ne _, fun v b => by simp [pauli, gateZ]⟩
  | Y =>
    refine ⟨fun b => if b q then w ^ 2 else -w ^ 2, fun k => decide (k = q), fun b => ?_, fun v b => by simp [pauli, gateY, hflip]⟩
    show (if b q then w ^ 2 else -w ^ 2) ≠ 0
    split <;> simp [hw]

theorem paulis_form {w : K} (hw : w ≠ 0) : ∀ ps : List (ι × Pauli), ∃ (f : (ι → Bool) → K) (m : ι → Bool), (∀ b, f b ≠ 0) ∧
    ∀ v b, paulis w ps v b = f b * v (fun k => xor (m k) (b k))
  | [] => ⟨fun _ => 1, fun _ => false, by simp, by simp [paulis]⟩
  | (q, p) :: ps => by
    obtain ⟨f, m, h1, h2⟩ := paulis_form hw ps
    obtain ⟨f', m', h1', h2'⟩ := pauli_form (K := K) hw p q
    refine ⟨fun b => f' b * f (fun k => xor (m' k) (b k)), fun k => xor (m k) (m' k), fun b => mul_ne_zero (h1' b) (h1 _), fun v b => ?_⟩
    rw [paulis, h2', h2, mul_assoc]
    simp

theorem root_ne {w : K} (hw : w ^ 4 = -1) : w ≠ 0 := by
  rintro rfl
  simp at hw

open Classical in
/-- All qubits zero, the given ones in use. -/
noncomputable def ground (qs : List Nat) : St K := ⟨fun q => decide (q ∈ qs), fun b => if b = fun _ => false then 1 else 0⟩

theorem ground_proper (qs : List Nat) : Proper (ground qs : St K) := by
  intro q _ b hb
  simp only [ground]
  rw [if_neg]
  rintro rfl
  cases hb

/-- A sequence that measures the target in X is not a CNOT. -/
theorem measured_not_cnot {w : K} (hw : w ≠ 0) {c t a : Nat} (hct : c ≠ t) (hca : c ≠ a) (hta : t ≠ a) {prog : List Operation} {o : Nat → Bool} {k : Bool}
    (h : Measured w c t a prog o k) : ¬ Does w prog o [c, t] [a] (gateCX c t) := by
  rintro ⟨x, ps, hx, _, hall⟩
  obtain ⟨s', h1, _, h2⟩ := hall (ground [c, t]) (ground_proper _) (by simp [ground]) (by simp [ground, Ne.symm hca, Ne.symm hta])
  obtain ⟨s'', h3, _, h4⟩ := h (ground [c, t]) (ground_proper _) (by simp [ground, Ne.symm hca, Ne.symm hta]) (by simp [ground]) (by simp [ground])
  cases runs_det h1 h3
  obtain ⟨f, m, hf, hps⟩ := paulis_form (ι := Nat) hw ps
  have e := h4 m
  rw [h2, h2, hps, hps] at e
  have e1 : gateCX c t (ground [c, t] : St K).amp (fun k => xor (m k) (m k)) = 1 := by
    simp only [Bool.xor_self, gateCX, ground]
    simp
  have e0 : gateCX c t (ground [c, t] : St K).amp (fun k => xor (m k) (flip m t k)) = 0 := by
    have : (xor (m c) (flip m t c)) = false := by simp [flip, upd, hct]
    simp only [gateCX, ground, this]
    rw [if_neg]
    intro e
    have := congrFun e t
    simp [flip, upd] at this
  rw [e1, e0] at e
  have hne : sg k * (x * (f m * 1)) ≠ 0 := mul_ne_zero (sg_ne k) (mul_ne_zero hx (by simpa using hf m))
  apply hne
  rw [← e]; ring

namespace Spec

open Stream Gates

/-- A small field with a fourth root of minus one, for examples. -/
instance prime17 : Fact (Nat.Prime 17) := ⟨by decide⟩

/-- The ground state of qubits 1 and 2. -/
noncomputable def pair : St (ZMod 17) := ground [1, 2]

/-- C45 fails: whatever the outcomes, the sequence emitted for a CNOT through an ancilla leaves the target in an eigenstate of X,
given by the outcomes alone. Control first, the ancilla is finally measured in X instead of Z; target first, the ancilla is
prepared in plus instead of zero. -/
theorem c45_measures_target {w : K} {c t cnt cnt' : Nat} {ty : CnotType} {pl : Placement} {always : Bool} {l : List Instr} (hct : c ≠ t) (hc : c ≠ cnt)
    (ht : t ≠ cnt) (hty : ty ≠ .bellBased) (h : makeCnot false cnt c t ty pl always = .ok (l, cnt')) (o : Nat → Bool) :
    ∃ k, ∀ s : St K, Proper s → s.live cnt = false → s.live c = true → s.live t = true →
      ∃ s', Runs w (l.map (·.op)) o s s' ∧ s'.live = s.live ∧ ∀ b, s'.amp (flip b t) = sg k * s'.amp b := by
  unfold makeCnot at h
  rw [if_neg (by simp [hty])] at h
  simp only [newId, Outcome.ok.injEq, Prod.mk.injEq] at h
  obtain ⟨rfl, _⟩ := h
  cases ty with
  | bellBased => exact absurd rfl hty
  | controlFirst =>
    cases always
    · exact ⟨_, control_first hct hc ht _ o⟩
    · exact ⟨_, control_first_always hct hc ht _ o⟩
  | targetFirst =>
    cases always
    · exact ⟨_, target_first hct hc ht _ o⟩
    · exact ⟨_, target_first_always hct hc ht _ o⟩

/-- C45 fails: the sequence emitted for a CNOT through an ancilla is not a CNOT, for no outcomes and no Pauli corrections. -/
theorem c45_not_cnot {w : K} (hw : w ^ 4 = -1) {c t cnt cnt' : Nat} {ty : CnotType} {pl : Placement} {always : Bool} {l : List Instr} (hct : c ≠ t)
    (hc : c ≠ cnt) (ht : t ≠ cnt) (hty : ty ≠ .bellBased) (h : makeCnot false cnt c t ty pl always = .ok (l, cnt')) (o : Nat → Bool) :
    ¬ Does w (l.map (·.op)) o [c, t] [cnt] (gateCX c t) := by
  obtain ⟨k, hk⟩ := c45_measures_target (w := w) hct hc ht hty h o
  exact measured_not_cnot (root_ne hw) hct hc ht hk

/-- CNOT from 1 to 2 with ancilla 10, control first. -/
example (o : Nat → Bool) : ∃ (l : List Instr) (n : Nat), makeCnot false 10 1 2 .controlFirst .dedicated false = .ok (l, n) ∧ l.length = 4 ∧
    ¬ Does (2 : ZMod 17) (l.map (·.op)) o [1, 2] [10] (gateCX 1 2) :=
  ⟨_, _, rfl, rfl, c45_not_cnot (ty := .controlFirst) (by decide) (by decide) (by decide) (by decide) (by decide) rfl o⟩

/-- The same with the target first: from the ground state, the state afterwards is an eigenstate of X on the target. -/
example (o : Nat → Bool) : ∃ (l : List Instr) (n : Nat) (k : Bool) (s' : St (ZMod 17)), makeCnot false 10 1 2 .targetFirst .dedicated false = .ok (l, n) ∧
    Runs 2 (l.map (·.op)) o pair s' ∧ ∀ b, s'.amp (flip b 2) = sg k * s'.amp b := by
  obtain ⟨k, hk⟩ := c45_measures_target (w := (2 : ZMod 17)) (c := 1) (t := 2) (cnt := 10) (ty := .targetFirst) (pl := .dedicated) (always := false)
    (by decide) (by decide) (by decide) (by decide) rfl o
  obtain ⟨s', h, _, e⟩ := hk pair (ground_proper _) (by simp [pair, ground]) (by simp [pair, ground]) (by simp [pair, ground])
  exact ⟨_, _, k, s', rfl, h, e⟩

/-- C45, what holds: control first, the sequence is a CNOT up to Pauli corrections given by the outcomes if the ancilla is
measured in Z at the end. Missing: the code measures it in X. -/
theorem c45_control_first_partial {w : K} (h2 : (2 : K) ≠ 0) {c t cnt cnt' : Nat} {pl : Placement} {l : List Instr} (hct : c ≠ t) (hc : c ≠ cnt)
    (ht : t ≠ cnt) (h : makeCnot false cnt c t .controlFirst pl false = .ok (l, cnt')) (o : Nat → Bool) :
    Does w ((l.map (·.op)).dropLast ++ [.measure cnt .Z false]) o [c, t] [cnt] (gateCX c t) := by
  unfold makeCnot at h
  rw [if_neg (by simp)] at h
  simp only [newId, Outcome.ok.injEq, Prod.mk.injEq] at h
  obtain ⟨rfl, _⟩ := h
  exact control_first_fixed h2 hct hc ht _ o

example (o : Nat → Bool) : ∃ (l : List Instr) (n : Nat), makeCnot false 10 1 2 .controlFirst .dedicated false = .ok (l, n) ∧
    Does (2 : ZMod 17) ((l.map (·.op)).dropLast ++ [.measure 10 .Z false]) o [1, 2] [10] (gateCX 1 2) :=
  ⟨_, _, rfl, c45_control_first_partial (by decide) (by decide) (by decide) (by decide) rfl o⟩

/-- C45, what holds: target first, the sequence is a CNOT up to Pauli corrections given by the outcomes if the ancilla is
prepared in zero. Missing: the code prepares it in plus. -/
theorem c45_target_first_partial {w : K} (h2 : (2 : K) ≠ 0) {c t cnt cnt' : Nat} {pl : Placement} {l : List Instr} (hct : c ≠ t) (hc : c ≠ cnt)
    (ht : t ≠ cnt) (h : makeCnot false cnt c t .targetFirst pl false = .ok (l, cnt')) (o : Nat → Bool) :
    Does w (.init cnt .zero none :: (l.map (·.op)).tail) o [c, t] [cnt] (gateCX c t) := by
  unfold makeCnot at h
  rw [if_neg (by simp)] at h
  simp only [newId, Outcome.ok.injEq, Prod.mk.injEq] at h
  obtain ⟨rfl, _⟩ := h
  exact target_first_fixed h2 hct hc ht _ o

example (o : Nat → Bool) : ∃ (l : List Instr) (n : Nat), makeCnot false 10 1 2 .targetFirst .dedicated false = .ok (l, n) ∧
    Does (2 : ZMod 17) (.init 10 .zero none :: (l.map (·.op)).tail) o [1, 2] [10] (gateCX 1 2) :=
  ⟨_, _, rfl, c45_target_first_partial (by decide) (by decide) (by decide) (by decide) rfl o⟩

end Spec

end Verif.Quantum
