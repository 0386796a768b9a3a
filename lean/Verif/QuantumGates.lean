import Verif.QuantumProps
import Mathlib.Data.Complex.Basic
import Mathlib.Analysis.Real.Sqrt

/-!
# T and S gates, Clifford programs

C54: the sequences emitted for T and S gates and for programs of Clifford gates.
-/

namespace Verif.Quantum

variable {K : Type} [Field K]

theorem acts_proper {w : K} {op : Operation} {o : Bool} {s s' : St K} (h : Acts w op o s s') (hs : Proper s) : Proper s' := by
  have hdrop : ∀ (p : Pauli) (q : Nat) (x : Bool), Proper (⟨upd s.live q false, drop w p q x s.amp⟩ : St K) := by
    intro p q x k hk b hb
    by_cases hkq : k = q
    · subst hkq; simp [drop, hb]
    · have hl : s.live k = false := by simpa [upd, hkq] using hk
      have hz : ∀ y, s.amp (upd b q y) = 0 := fun y => hs k hl _ (by simp [upd, hkq, hb])
      have hz' := hs k hl b hb
      cases p <;> simp [drop, hz, hz']
  have hprep : ∀ (p : K) (q : Nat), s.live q = false → Proper (⟨upd s.live q true, prepare p q s.amp⟩ : St K) := by
    intro p q _ k hk b hb
    by_cases hkq : k = q
    · subst hkq; simp at hk
    · have hl : s.live k = false := by simpa [upd, hkq] using hk
      simp [prepare, hs k hl (upd b q false) (by simp [upd, hkq, hb])]
  have hx : ∀ (q k : Nat) (v : Vec Nat K), k ≠ q → (∀ b, b k = true → v b = 0) → ∀ b, b k = true → v (flip b q) = 0 := by
    intro q k v hkq hv b hb
    exact hv _ (by simp [flip, upd, hkq, hb])
  have hpauli : ∀ (p : Pauli) (q k : Nat) (v : Vec Nat K), k ≠ q → (∀ b, b k = true → v b = 0) → ∀ b, b k = true → pauli w p q v b = 0 := by
    intro p q k v hkq hv b hb
    cases p
    · exact hv b hb
    · exact hx q k v hkq hv b hb
    · simp [pauli, gateY, hx q k v hkq hv b hb]
    · simp [pauli, gateZ, hv b hb]
  have hpaulis : ∀ (ps : List (Nat × Pauli)) (k : Nat), (∀ x ∈ ps, x.1 ≠ k) → ∀ v : Vec Nat K, (∀ b, b k = true → v b = 0) →
      ∀ b, b k = true → paulis w ps v b = 0 := by
    intro ps
    induction ps with
    | nil => intro k _ v hv b hb; exact hv b hb
    | cons p ps ih =>
      intro k hk v hv b hb
      exact hpauli p.2 p.1 k _ (Ne.symm (hk p (by simp))) (ih k (fun x hx => hk x (by simp [hx])) v hv) b hb
  cases op with
  | measure q p neg => obtain ⟨_, rfl⟩ := h; exact hdrop _ _ _
  | multi obs neg _ =>
    obtain ⟨hl, _, rfl⟩ := h
    intro k hk b hb
    have hne : ∀ x ∈ obs, x.1 ≠ k := by
      rintro x hx rfl
      rw [hl x hx] at hk; cases hk
    simp [project, hs k hk b hb, hpaulis obs k hne s.amp (hs k hk) b hb]
  | init q st _ =>
    cases st
    · obtain ⟨hq, rfl⟩ := h
      intro k hk b hb
      by_cases hkq : k = q
      · subst hkq; simp at hk
      · exact hs k (by simpa [upd, hkq] using hk) b hb
    · obtain ⟨hq, rfl⟩ := h; exact hprep _ _ hq
  | magic q _ => obtain ⟨hq, rfl⟩ := h; exact hprep _ _ hq
  | ystate q _ _ =>
    rcases h with ⟨hq, rfl⟩ | ⟨_, _, rfl⟩
    · exact hprep _ _ hq
    · exact hdrop _ _ _
  | sq q g dag =>
    obtain ⟨hq, rfl⟩ := h
    intro k hk b hb
    have hkq : k ≠ q := by rintro rfl; rw [hq] at hk; cases hk
    have hv := hs k hk
    have hu : ∀ y, s.amp (upd b q y) = 0 := fun y => hv _ (by simp [upd, hkq, hb])
    cases g
    · exact hv b hb
    · exact hx q k _ hkq hv b hb
    · simp [single, gateY, hx q k _ hkq hv b hb]
    · simp [single, gateZ, hv b hb]
    · simp [single, gateH, hu]
    · cases dag <;> simp [single, gateS, gateSDg, phase, hv b hb]
  | rotate q => obtain ⟨_, rfl⟩ := h; exact hs
  | bellCnot c =>
    obtain ⟨h1, h2, _, rfl⟩ := h
    intro k hk b hb
    have hkt : k ≠ c.target := by rintro rfl; rw [h2] at hk; cases hk
    simp only [gateCX]
    split
    · exact hx _ k _ hkt (hs k hk) b hb
    · exact hs k hk b hb
  | _ => exact absurd h (by simp [Acts])

theorem runs_proper {w : K} : ∀ {ops : List Operation} {o : Nat → Bool} {s s' : St K}, Runs w ops o s s' → Proper s → Proper s'
  | [], _, _, _, h, hs => by rw [Runs] at h; rw [h]; exact hs
  | _ :: _, _, _, _, ⟨_, h1, h2⟩, hs => runs_proper h2 (acts_proper h1 hs)

/-- All a sequence with one ancilla `m` does to a qubit: the amplitude is multiplied by a number depending on its value. -/
theorem does_diagonal {w : K} {prog : List Operation} {o : Nat → Bool} {t m : Nat} {U : Vec Nat K → Vec Nat K} {x : K} {z : Bool} (hx : x ≠ 0)
    (h : ∀ s : St K, Proper s → s.live t = true → s.live m = false → ∃ s', Runs w prog o s s' ∧ s'.live = s.live ∧
      ∀ b, s'.amp b = x * ((if z && b t then -1 else 1) * U s.amp b)) : Does w prog o [t] [m] U := by
  refine ⟨x, if z then [(t, .Z)] else [], hx, ?_, ?_⟩
  · intro p hp; split at hp <;> simp_all
  · intro s hs hq hf
    obtain ⟨s', h1, h2, h3⟩ := h s hs (hq t (by simp)) (hf m (by simp))
    refine ⟨s', h1, h2, fun b => ?_⟩
    rw [h3 b]
    cases z <;> cases hb : b t <;> simp [paulis, pauli, gateZ, sg, hb]

section
variable {w : K} {t m : Nat} (htm : t ≠ m) (near : Nat) (o : Nat → Bool)
include htm

/-- Joint measurement of a qubit with a resource state `|0> + p |1>`, which is then measured away in X. -/
theorem teleport {p : K} {s : St K} (hs : Proper s) (hm : s.live m = false) (b : Nat → Bool) (r u : Bool) :
    drop w .X m u (project w [(t, .Z), (m, .Z)] r (prepare p m s.amp)) b = 2 * (if b t = r then 1 else sg u * p) * s.amp b := by
  cases hb : b m with
  | true => simp [drop, hb, hs m hm b hb]
  | false =>
    have e : upd b m false = b := upd_id hb
    simp only [drop, hb, project, paulis, pauli, gateZ, prepare, upd_idem, upd_same, upd_ne _ _ htm, e]
    cases r <;> cases u <;> cases b t <;> simp [sg] <;> ring

/-- The same with the observables in the other order. -/
theorem teleport' {p : K} {s : St K} (hs : Proper s) (hm : s.live m = false) (b : Nat → Bool) (r u : Bool) :
    drop w .X m u (project w [(m, .Z), (t, .Z)] r (prepare p m s.amp)) b = 2 * (if b t = r then 1 else sg u * p) * s.amp b := by
  rw [← teleport (w := w) htm hs hm b r u]
  unfold drop project
  simp only [paulis, pauli, gateZ]
  split
  · rfl
  · simp only [mul_left_comm]

/-- CNOT from a qubit onto a resource state, which is then measured away in Z. -/
theorem teleport_local {p : K} {s : St K} (hs : Proper s) (hm : s.live m = false) (b : Nat → Bool) (u : Bool) :
    drop w .Z m u (gateCX t m (prepare p m s.amp)) b = (if b t = u then 1 else p) * s.amp b := by
  cases hb : b m with
  | true => simp [drop, hb, hs m hm b hb]
  | false =>
    have e : upd b m false = b := upd_id hb
    simp only [drop, hb, gateCX, prepare, upd_ne _ _ htm]
    cases u <;> cases hbt : b t <;> simp [flip, upd_idem, e, hb]

end

/-- The teleported S gate does the gate, and also its inverse, up to Pauli corrections. -/
theorem teleported_s {w : K} (hw : w ^ 4 = -1) (h2 : (2 : K) ≠ 0) {t y : Nat} (hty : t ≠ y) (o : Nat → Bool) :
    let ops : List Operation := [.ystate y t none, .multi [(y, .Z), (t, .Z)] false none, .measure y .X false, .sq t .Z false]
    Does w ops o [t] [y] (gateS w t) ∧ Does w ops o [t] [y] (gateSDg w t) := by
  have hw0 := root_ne hw
  have hw4 : w ^ 2 * w ^ 2 = -1 := by rw [← hw]; ring
  have hx : (if o 1 then 2 * sg (o 2) * w ^ 2 else 2 : K) ≠ 0 := by
    split
    · exact mul_ne_zero (mul_ne_zero h2 (sg_ne _)) (pow_ne_zero _ hw0)
    · exact h2
  intro ops
  constructor
  · refine does_diagonal (x := if o 1 then 2 * sg (o 2) * w ^ 2 else 2) (z := xor (o 1) (!o 2)) hx fun s hs hlt hly =>
      ⟨_, ⟨_, .inl ⟨hly, rfl⟩, _, ⟨?_, ?_, rfl⟩, _, ⟨?_, rfl⟩, _, ⟨?_, rfl⟩, rfl⟩, ?_, ?_⟩
    · simp [upd, hlt, hty]
    · simp [Ne.symm hty]
    · simp [upd]
    · simp [upd, hlt, hty]
    · dsimp only; rw [upd_idem, upd_id hly]
    · intro b
      dsimp only
      simp only [single, gateZ]
      rw [teleport' hty hs hly]
      simp only [Nat.zero_add, gateS, phase]
      cases o 1 <;> cases o 2 <;> cases b t <;> simp [sg] <;>
        first | ring1 | linear_combination (2 * s.amp b) * hw4 | linear_combination (-2 * s.amp b) * hw4
  · refine does_diagonal (x := if o 1 then 2 * sg (o 2) * w ^ 2 else 2) (z := xor (o 1) (o 2)) hx fun s hs hlt hly =>
      ⟨_, ⟨_, .inl ⟨hly, rfl⟩, _, ⟨?_, ?_, rfl⟩, _, ⟨?_, rfl⟩, _, ⟨?_, rfl⟩, rfl⟩, ?_, ?_⟩
    · simp [upd, hlt, hty]
    · simp [Ne.symm hty]
    · simp [upd]
    · simp [upd, hlt, hty]
    · dsimp only; rw [upd_idem, upd_id hly]
    · intro b
      dsimp only
      simp only [single, gateZ]
      rw [teleport' hty hs hly]
      simp only [Nat.zero_add, gateSDg, phase]
      cases o 1 <;> cases o 2 <;> cases b t <;> simp [sg] <;>
        first | ring1 | linear_combination (2 * s.amp b) * hw4 | linear_combination (-2 * s.amp b) * hw4

section
variable {w : K} {t y : Nat} (hty : t ≠ y)
include hty

/-- The two CNOTs and Hadamards on a Y state. -/
theorem catalysis (hw : w ^ 4 = -1) {s : St K} (b : Nat → Bool) :
    gateH y (gateCX t y (gateH y (gateCX t y (prepare (w ^ 2) y s.amp)))) b =
      2 * ((if b t then w ^ 2 else 1) * ((if b y then w ^ 2 else 1) * s.amp (upd b y false))) := by
  have hw4 : w ^ 2 * w ^ 2 = -1 := by rw [← hw]; ring
  cases hbt : b t <;> cases hby : b y <;> simp [gateH, gateCX, prepare, flip, upd_idem, sg, upd_ne _ _ hty, hbt, hby] <;>
    first | ring1 | linear_combination (2 * s.amp (upd b y false)) * hw4 | linear_combination (-2 * s.amp (upd b y false)) * hw4

theorem catalytic_s (hw : w ^ 4 = -1) (h2 : (2 : K) ≠ 0) (c1 c2 : BellCNOT) (h1 : c1.control = t) (h1' : c1.target = y) (h3 : c2.control = t)
    (h3' : c2.target = y) (z : Bool) (U : Vec Nat K → Vec Nat K) (hU : ∀ v b, gateS w t v b = (if z && b t then -1 else 1) * U v b) (o : Nat → Bool) :
    Does w [.ystate y t none, .bellCnot c1, .sq y .H false, .rotate y, .bellCnot c2, .sq y .H false, .rotate y, .ystate y t none] o [t] [y] U := by
  have key : ∀ s : St K, Proper s → s.live t = true → s.live y = false →
      Runs w [.ystate y t none, .bellCnot c1, .sq y .H false, .rotate y, .bellCnot c2, .sq y .H false, .rotate y, .ystate y t none] o s
        ⟨upd (upd s.live y true) y false, drop w .Z y false (gateH y (gateCX t y (gateH y (gateCX t y (prepare (w ^ 2) y s.amp)))))⟩ := by
    intro s hs hlt hly
    have l1 : upd s.live y true t = true := by simp [upd, hty, hlt]
    have l2 : upd s.live y true y = true := by simp
    refine ⟨_, .inl ⟨hly, rfl⟩, _, ⟨?_, ?_, ?_, rfl⟩, _, ⟨l2, rfl⟩, _, ⟨l2, rfl⟩, _, ⟨?_, ?_, ?_, rfl⟩, _, ⟨l2, rfl⟩, _, ⟨l2, rfl⟩, _, .inr ⟨l2, ?_, rfl⟩, ?_⟩
    · rw [h1]; exact l1
    · rw [h1']; exact l2
    · rw [h1, h1']; exact hty
    · rw [h3]; exact l1
    · rw [h3']; exact l2
    · rw [h3, h3']; exact hty
    · intro b
      simp only [single, h1, h1', h3, h3']
      rw [catalysis hty hw, catalysis hty hw]
      simp only [upd_same, upd_idem, upd_ne _ _ hty]
      simp
      ring_nf
    · simp only [Runs, single, h1, h1', h3, h3']
  refine does_diagonal (x := 2) (z := z) h2 fun s hs hlt hly => ⟨_, key s hs hlt hly, ?_, ?_⟩
  · dsimp only; rw [upd_idem, upd_id hly]
  · intro b
    dsimp only
    rw [← hU]
    simp only [drop]
    cases hby : b y with
    | true => simp [gateS, phase, hs y hly b hby]
    | false =>
      have e : upd b y false = b := upd_id hby
      simp only [Bool.false_eq_true, if_false]
      rw [catalysis hty hw]
      simp [e, hby, gateS, phase]

/-- Giving back a Y state after measuring it in X and a Hadamard is meaningless. -/
theorem not_returned {s s' : St K} {o : Nat → Bool} {k : Bool} (h2 : (2 : K) ≠ 0) (hw : w ≠ 0) (hk : ∀ b, s.amp (flip b y) = sg k * s.amp b)
    (hr : Runs w [.sq y .H false, .rotate y, .ystate y t none] o s s') (hl : s.live y = true) : ∀ b, s'.amp b = 0 := by
  obtain ⟨_, ⟨_, rfl⟩, _, ⟨_, rfl⟩, _, h, rfl⟩ := hr
  rcases h with ⟨h, _⟩ | ⟨_, hp, rfl⟩
  · simp [hl] at h
  intro b
  have e := hp b
  have e' := hk (upd b y false)
  simp only [single, gateH, upd_idem, upd_same, sg, flip] at e e'
  simp only [drop]
  split
  · rfl
  · simp only [single, gateH, upd_idem, upd_same, sg]
    simp only [Bool.not_false] at e'
    rw [e'] at e ⊢
    cases k
    · simp only [sg] at e ⊢
      have : (w ^ 2 * 2) * s.amp (upd b y false) = 0 := by linear_combination -e
      rcases mul_eq_zero.1 this with h | h
      · exact absurd h (mul_ne_zero (pow_ne_zero _ hw) h2)
      · rw [h]; ring
    · simp only [sg] at e ⊢
      ring

end

/-- The field of complex numbers has the root needed. -/
theorem root_complex : ∃ w : ℂ, w ^ 4 = -1 := by
  have h : ((Real.sqrt 2 / 2 : ℝ) : ℂ) ^ 2 = 1 / 2 := by
    rw [← Complex.ofReal_pow, div_pow, Real.sq_sqrt (by norm_num)]
    norm_num
  refine ⟨(Real.sqrt 2 / 2 : ℝ) * (1 + Complex.I), ?_⟩
  have e : (1 + Complex.I) ^ 2 = 2 * Complex.I := by linear_combination Complex.I_sq
  rw [mul_pow, show (4 : ℕ) = 2 * 2 from rfl, pow_mul, pow_mul, h, e]
  linear_combination Complex.I_sq

namespace Spec

open Stream Gates

/-- C54: the instructions emitted for a T gate do the gate up to Pauli corrections, its last instruction (an S gate) being done
or not depending on the first outcome; with the opposite choice they do the inverse. -/
theorem c54_t {w : K} (hw : w ^ 4 = -1) (h2 : (2 : K) ≠ 0) {loc : Bool} {t cnt cnt' : Nat} {l : List Instr} (ht : t ≠ cnt)
    (h : makeT loc cnt t = .ok (l, cnt')) (o : Nat → Bool) :
    let ops := l.map (·.op)
    let r := o (if loc then 2 else 1)
    Does w (if r then ops else ops.dropLast) o [t] [cnt] (gateT w t) ∧ Does w (if r then ops.dropLast else ops) o [t] [cnt] (gateTDg w t) := by
  have hw0 := root_ne hw
  have hw4 : w * w ^ 3 = -1 := by rw [← hw]; ring
  cases loc
  · simp only [makeT, newId, Bool.false_eq_true, if_false, Outcome.ok.injEq, Prod.mk.injEq] at h
    obtain ⟨rfl, _⟩ := h
    cases hr : o 1 <;> simp only [Bool.false_eq_true, if_false, if_true, List.map_cons, List.map_nil, List.dropLast, plain, hr]
    · constructor
      · refine does_diagonal (x := 2) (z := o 2) h2 fun s hs hlt hlm => ⟨_, ⟨_, ⟨hlm, rfl⟩, _, ⟨?_, ?_, rfl⟩, _, ⟨?_, rfl⟩, rfl⟩, ?_, ?_⟩
        · simp [upd, hlt, ht]
        · simp [ht]
        · simp [upd]
        · dsimp only; rw [upd_idem, upd_id hlm]
        · intro b
          dsimp only
          rw [teleport ht hs hlm]
          simp only [Nat.zero_add, hr, gateT, phase]
          cases o 2 <;> cases b t <;> simp [sg] <;> ring
      · refine does_diagonal (x := 2) (z := !o 2) h2 fun s hs hlt hlm => ⟨_, ⟨_, ⟨hlm, rfl⟩, _, ⟨?_, ?_, rfl⟩, _, ⟨?_, rfl⟩, _, ⟨?_, rfl⟩, rfl⟩, ?_, ?_⟩
        · simp [upd, hlt, ht]
        · simp [ht]
        · simp [upd]
        · simp [upd, hlt, ht]
        · dsimp only; rw [upd_idem, upd_id hlm]
        · intro b
          dsimp only
          simp only [single, gateS, phase]
          rw [teleport ht hs hlm]
          simp only [Nat.zero_add, hr, gateTDg, phase]
          cases o 2 <;> cases b t <;> simp [sg] <;> ring
    · have hx : 2 * (sg (o 2) * w) ≠ 0 := mul_ne_zero h2 (mul_ne_zero (sg_ne _) hw0)
      constructor
      · refine does_diagonal (x := 2 * (sg (o 2) * w)) (z := o 2) hx fun s hs hlt hlm =>
          ⟨_, ⟨_, ⟨hlm, rfl⟩, _, ⟨?_, ?_, rfl⟩, _, ⟨?_, rfl⟩, _, ⟨?_, rfl⟩, rfl⟩, ?_, ?_⟩
        · simp [upd, hlt, ht]
        · simp [ht]
        · simp [upd]
        · simp [upd, hlt, ht]
        · dsimp only; rw [upd_idem, upd_id hlm]
        · intro b
          dsimp only
          simp only [single, gateS, phase]
          rw [teleport ht hs hlm]
          simp only [Nat.zero_add, hr, gateT, phase]
          cases o 2 <;> cases b t <;> simp [sg] <;> ring
      · refine does_diagonal (x := 2 * (sg (o 2) * w)) (z := o 2) hx fun s hs hlt hlm =>
          ⟨_, ⟨_, ⟨hlm, rfl⟩, _, ⟨?_, ?_, rfl⟩, _, ⟨?_, rfl⟩, rfl⟩, ?_, ?_⟩
        · simp [upd, hlt, ht]
        · simp [ht]
        · simp [upd]
        · dsimp only; rw [upd_idem, upd_id hlm]
        · intro b
          dsimp only
          rw [teleport ht hs hlm]
          simp only [Nat.zero_add, hr, gateTDg, phase]
          cases o 2 <;> cases b t <;> simp [sg] <;>
        first | ring1 | linear_combination (2 * s.amp b) * hw4 | linear_combination (-2 * s.amp b) * hw4
  · simp only [makeT, makeCnot, newId, or_true, if_true, Bool.false_eq_true, if_false, Outcome.bind_ok, Outcome.ok.injEq, Prod.mk.injEq] at h
    obtain ⟨rfl, _⟩ := h
    cases hr : o 2 <;> simp only [Bool.false_eq_true, if_false, if_true, List.map_cons, List.map_nil, List.dropLast, plain, List.cons_append, List.nil_append, hr]
    · constructor
      · refine does_diagonal (x := 1) (z := false) one_ne_zero fun s hs hlt hlm => ⟨_, ⟨_, ⟨hlm, rfl⟩, _, ⟨?_, ?_, ht, rfl⟩, _, ⟨?_, rfl⟩, rfl⟩, ?_, ?_⟩
        · simp [upd, hlt, ht]
        · simp [upd]
        · simp [upd]
        · dsimp only; rw [upd_idem, upd_id hlm]
        · intro b
          dsimp only
          rw [teleport_local ht hs hlm]
          simp only [Nat.zero_add, hr, gateT, phase]
          cases b t <;> simp
      · refine does_diagonal (x := 1) (z := true) one_ne_zero fun s hs hlt hlm =>
          ⟨_, ⟨_, ⟨hlm, rfl⟩, _, ⟨?_, ?_, ht, rfl⟩, _, ⟨?_, rfl⟩, _, ⟨?_, rfl⟩, rfl⟩, ?_, ?_⟩
        · simp [upd, hlt, ht]
        · simp [upd]
        · simp [upd]
        · simp [upd, hlt, ht]
        · dsimp only; rw [upd_idem, upd_id hlm]
        · intro b
          dsimp only
          simp only [single, gateS, phase]
          rw [teleport_local ht hs hlm]
          simp only [Nat.zero_add, hr, gateTDg, phase]
          cases b t <;> simp <;> ring
    · constructor
      · refine does_diagonal (x := w) (z := false) hw0 fun s hs hlt hlm =>
          ⟨_, ⟨_, ⟨hlm, rfl⟩, _, ⟨?_, ?_, ht, rfl⟩, _, ⟨?_, rfl⟩, _, ⟨?_, rfl⟩, rfl⟩, ?_, ?_⟩
        · simp [upd, hlt, ht]
        · simp [upd]
        · simp [upd]
        · simp [upd, hlt, ht]
        · dsimp only; rw [upd_idem, upd_id hlm]
        · intro b
          dsimp only
          simp only [single, gateS, phase]
          rw [teleport_local ht hs hlm]
          simp only [Nat.zero_add, hr, gateT, phase]
          cases b t <;> simp <;> ring
      · refine does_diagonal (x := w) (z := false) hw0 fun s hs hlt hlm => ⟨_, ⟨_, ⟨hlm, rfl⟩, _, ⟨?_, ?_, ht, rfl⟩, _, ⟨?_, rfl⟩, rfl⟩, ?_, ?_⟩
        · simp [upd, hlt, ht]
        · simp [upd]
        · simp [upd]
        · dsimp only; rw [upd_idem, upd_id hlm]
        · intro b
          dsimp only
          rw [teleport_local ht hs hlm]
          simp only [Nat.zero_add, hr, gateTDg, phase]
          cases b t <;> simp
          linear_combination (s.amp b) * hw4

/-- A T gate on qubit 1 whose first outcome is one. -/
example : ∃ (l : List Instr) (n : Nat), makeT false 10 1 = .ok (l, n) ∧ l.length = 4 ∧
    Does (2 : ZMod 17) (l.map (·.op)) (fun _ => true) [1] [10] (gateT 2 1) :=
  by
  have := (c54_t (w := (2 : ZMod 17)) (loc := false) (t := 1) (cnt := 10) (by decide) (by decide) (by decide) rfl (fun _ => true)).1
  exact ⟨_, _, rfl, rfl, this⟩

/-- The same over the complex numbers. -/
example : ∃ (w : ℂ) (l : List Instr) (n : Nat), w ^ 4 = -1 ∧ makeT false 10 1 = .ok (l, n) ∧ Does w (l.map (·.op)) (fun _ => true) [1] [10] (gateT w 1) := by
  obtain ⟨w, hw⟩ := root_complex
  have := (c54_t hw (by norm_num) (loc := false) (t := 1) (cnt := 10) (by decide) rfl (fun _ => true)).1
  exact ⟨w, _, _, hw, rfl, this⟩

/-- With local instructions and outcome zero, without the last instruction. -/
example : ∃ (l : List Instr) (n : Nat), makeT true 10 1 = .ok (l, n) ∧ l.length = 4 ∧
    Does (2 : ZMod 17) (l.map (·.op)).dropLast (fun _ => false) [1] [10] (gateT 2 1) :=
  by
  have := (c54_t (w := (2 : ZMod 17)) (loc := true) (t := 1) (cnt := 10) (by decide) (by decide) (by decide) rfl (fun _ => false)).1
  exact ⟨_, _, rfl, rfl, this⟩

/-- C54: what the teleporting stage puts in place of an S gate on a core qubit does the gate up to Pauli corrections. -/
theorem c54_teleported_s {w : K} (hw : w ^ 4 = -1) (h2 : (2 : K) ≠ 0) {core : List Nat} {rot : Bool} {i : Instr} {t cnt cnt' : Nat} {d : Bool}
    {l : List Instr} (hi : i.op = .sq t .S d) (ht : t ∈ core) (hne : t ≠ cnt) (h : teleportedExpand core rot () cnt i = .ok (l, (), cnt')) (o : Nat → Bool) :
    Does w (l.map (·.op)) o [t] [cnt] (if d then gateSDg w t else gateS w t) := by
  unfold teleportedExpand at h
  rw [hi] at h
  simp only [ht, if_true, newId, Outcome.ok.injEq, Prod.mk.injEq] at h
  obtain ⟨rfl, _⟩ := h
  have := teleported_s hw h2 hne o
  cases d
  · exact this.1
  · exact this.2

example (o : Nat → Bool) : ∃ (l : List Instr) (n : Nat), teleportedExpand [1, 2] true () 10 (plain (.sq 1 .S true)) = .ok (l, (), n) ∧
    Does (2 : ZMod 17) (l.map (·.op)) o [1] [10] (gateSDg 2 1) :=
  ⟨_, _, rfl, c54_teleported_s (w := (2 : ZMod 17)) (core := [1, 2]) (rot := true) (i := plain (.sq 1 .S true)) (t := 1) (cnt := 10) (d := true) (by decide) (by decide) rfl (by decide) (by decide) rfl o⟩

/-- C54: with local instructions, what the catalytic stage puts in place of an S gate on a core qubit does the gate up to Pauli
corrections, and gives the Y state back unchanged. -/
theorem c54_catalytic_s {w : K} (hw : w ^ 4 = -1) (h2 : (2 : K) ≠ 0) {core : List Nat} {rot : Bool} {i : Instr} {t cnt cnt' : Nat} {d : Bool}
    {l : List Instr} (hi : i.op = .sq t .S d) (ht : t ∈ core) (hne : t ≠ cnt) (h : catalyticExpand core true rot () cnt i = .ok (l, (), cnt'))
    (o : Nat → Bool) : Does w (l.map (·.op)) o [t] [cnt] (if d then gateSDg w t else gateS w t) := by
  unfold catalyticExpand at h
  rw [hi] at h
  simp only [ht, if_true, newId, makeCnot, or_true, Bool.false_eq_true, if_false, Outcome.bind_ok, Outcome.ok.injEq, Prod.mk.injEq] at h
  obtain ⟨rfl, _⟩ := h
  refine catalytic_s hne hw h2 _ _ rfl rfl rfl rfl d _ (fun v b => ?_) o
  cases d
  · simp
  · cases hb : b t <;> simp [gateS, gateSDg, phase, hb]

example (o : Nat → Bool) : ∃ (l : List Instr) (n : Nat), catalyticExpand [1, 2] true false () 10 (plain (.sq 1 .S false)) = .ok (l, (), n) ∧
    Does (2 : ZMod 17) (l.map (·.op)) o [1] [10] (gateS 2 1) :=
  ⟨_, _, rfl, c54_catalytic_s (w := (2 : ZMod 17)) (core := [1, 2]) (rot := false) (i := plain (.sq 1 .S false)) (t := 1) (cnt := 10) (d := false)
    (by decide) (by decide) rfl (by decide) (by decide) rfl o⟩

/-- C54 fails without local instructions: whatever the outcomes, what the catalytic stage puts in place of an S gate is not an
S gate. It contains the wrong CNOTs of `c45_not_cnot`, which measure the Y state. -/
theorem c54_catalytic_wrong {w : K} (hw : w ^ 4 = -1) (h2 : (2 : K) ≠ 0) {core : List Nat} {rot : Bool} {i : Instr} {t cnt cnt' : Nat} {d : Bool}
    {l : List Instr} (hi : i.op = .sq t .S d) (ht : t ∈ core) (hne : t ≠ cnt) (hfit : cnt + 3 < 2 ^ 32) (ht1 : t ≠ cnt + 1) (ht2 : t ≠ cnt + 2)
    (h : catalyticExpand core false rot () cnt i = .ok (l, (), cnt')) (o : Nat → Bool) :
    ¬ Does w (l.map (·.op)) o [t] [cnt, cnt + 1, cnt + 2] (if d then gateSDg w t else gateS w t) := by
  have hw0 := root_ne hw
  unfold catalyticExpand at h
  rw [hi] at h
  have m1 : (cnt + 1) % 2 ^ 32 = cnt + 1 := Nat.mod_eq_of_lt (by omega)
  have m2 : (cnt + 1 + 1) % 2 ^ 32 = cnt + 2 := Nat.mod_eq_of_lt (by omega)
  simp only [ht, if_true, newId, makeCnot, or_self, reduceCtorEq, Bool.false_eq_true, if_false, Outcome.bind_ok, Outcome.ok.injEq, Prod.mk.injEq, m1, m2,
    cnotMiddle, List.nil_append, List.append_nil] at h
  obtain ⟨rfl, _⟩ := h
  rintro ⟨x, ps, hx, _, hall⟩
  obtain ⟨s', hr, _, hamp⟩ := hall (ground [t]) (ground_proper _) (by simp [ground]) (by
    intro q hq
    simp only [List.mem_cons, List.not_mem_nil, or_false] at hq
    simp only [ground, List.mem_cons, List.not_mem_nil, or_false, decide_eq_false_iff_not]
    rcases hq with rfl | rfl | rfl
    · exact Ne.symm hne
    · exact Ne.symm ht1
    · exact Ne.symm ht2)
  simp only [List.map_append, List.map_cons, List.map_nil, plain, List.append_assoc, List.cons_append, List.nil_append] at hr
  -- the part before the second CNOT, that CNOT, the rest
  obtain ⟨s1, r1, hr⟩ := (runs_append (l1 := [_, _, _, _, _, _, _]) (l2 := _)).1 hr
  obtain ⟨s2, r2, hr⟩ := (runs_append (l1 := [_, _, _, _]) (l2 := _)).1 hr
  have p1 := runs_proper r1 (ground_proper _)
  have l1 : s1.live = upd (ground [t] : St K).live cnt true := by
    obtain ⟨_, a1, _, a2, _, a3, _, a4, _, a5, _, a6, _, a7, a8⟩ := r1
    simp only [Acts, ground, List.mem_singleton, upd_same] at a1
    rcases a1 with ⟨_, rfl⟩ | ⟨h', _⟩
    · obtain ⟨b1, rfl⟩ := a2
      obtain ⟨_, _, rfl⟩ := a3
      obtain ⟨_, _, rfl⟩ := a4
      obtain ⟨_, rfl⟩ := a5
      obtain ⟨_, rfl⟩ := a6
      obtain ⟨_, rfl⟩ := a7
      rw [a8]
      dsimp only at b1 ⊢
      rw [upd_idem, upd_id b1]
      simp [ground]
    · simp [Ne.symm hne] at h'
  have hm := control_first (w := w) (c := t) (t := cnt) (a := cnt + 2) hne ht2 (by omega) (ancillaNextTo t cnt .nextToControl)
    (fun n => o (n + 7)) s1 p1 (by rw [l1]; simp [upd, ground, Ne.symm ht2]) (by rw [l1]; simp [upd, ground, hne]) (by rw [l1]; simp)
  obtain ⟨s3, r3, l3, k3⟩ := hm
  cases runs_det r2 r3
  have hz := not_returned (t := t) hne h2 hw0 k3 hr (by rw [l3, l1]; simp)
  obtain ⟨f, m, hf, hps⟩ := paulis_form (ι := Nat) hw0 ps
  have e := hz m
  rw [hamp, hps] at e
  have : (if d then gateSDg w t else gateS w t) (ground [t] : St K).amp (fun k => xor (m k) (m k)) = 1 := by
    simp only [Bool.xor_self, ground]
    cases d <;> simp [gateS, gateSDg, phase]
  rw [this] at e
  exact absurd e (mul_ne_zero hx (by simpa using hf m))

example (o : Nat → Bool) : ∃ (l : List Instr) (n : Nat), catalyticExpand [1, 2] false false () 10 (plain (.sq 1 .S false)) = .ok (l, (), n) ∧
    ¬ Does (2 : ZMod 17) (l.map (·.op)) o [1] [10, 11, 12] (gateS 2 1) :=
  ⟨_, _, rfl, c54_catalytic_wrong (w := (2 : ZMod 17)) (core := [1, 2]) (rot := false) (i := plain (.sq 1 .S false)) (t := 1) (cnt := 10) (d := false)
    (by decide) (by decide) rfl (by decide) (by decide) (by decide) (by decide) (by decide) rfl o⟩

/-- The unitary of a Clifford gate. Rotations by other angles and T gates have none here. -/
def gateVec (w : K) : Gate → Option (Vec Nat K → Vec Nat K)
  | .basic q .X => some (gateX q)
  | .basic q .Y => some (gateY w q)
  | .basic q .Z => some (gateZ q)
  | .basic q .H => some (gateH q)
  | .basic q .S => some (gateS w q)
  | .basic q .SDg => some (gateSDg w q)
  | .rz q ⟨1, 1, false⟩ => some (gateZ q)
  | .rz q ⟨1, 2, false⟩ => some (gateS w q)
  | .ctrl c (.basic t .X) _ _ => some (gateCX c t)
  | .ctrl c (.basic t .Z) _ _ => some (gateCZ c t)
  | _ => none

/-- The state after a program of Clifford gates. -/
def evolve (w : K) : List Gate → Vec Nat K → Option (Vec Nat K)
  | [], v => some v
  | g :: gs, v =>
    match gateVec w g with
    | none => none
    | some U => evolve w gs (U v)

end Spec

open Spec Stream Stream.Spec Gates

theorem gateVec_smul {w : K} {g : Gate} {U : Vec Nat K → Vec Nat K} (h : gateVec w g = some U) (x : K) (v : Vec Nat K) :
    U (fun b => x * v b) = fun b => x * U v b := by
  unfold gateVec at h
  split at h <;> cases h <;> funext b <;> simp only [gateX, gateY, gateZ, gateH, gateS, gateSDg, phase, gateCX, gateCZ] <;>
    (try split) <;> ring1

theorem evolve_smul {w : K} : ∀ {gs : List Gate} {v v' : Vec Nat K} (x : K), evolve w gs v = some v' →
    evolve w gs (fun b => x * v b) = some fun b => x * v' b
  | [], v, v', x, h => by rw [evolve] at h ⊢; injection h with h; rw [h]
  | g :: gs, v, v', x, h => by
    rw [evolve] at h ⊢
    cases hg : gateVec w g with
    | none => rw [hg] at h; cases h
    | some U =>
      rw [hg] at h
      dsimp only at h ⊢
      rw [gateVec_smul hg]
      exact evolve_smul x h

/-- Hadamard, CNOT, Hadamard. -/
theorem cz_of_cx (c t : Nat) (hct : c ≠ t) (v : Vec Nat K) (b : Nat → Bool) : gateH t (gateCX c t (gateH t v)) b = 2 * gateCZ c t v b := by
  cases hc : b c <;> cases ht : b t <;>
    simp [gateH, gateCX, gateCZ, flip, upd_idem, sg, upd_ne _ _ hct, hc, ht]
  · rw [show upd b t false = b from upd_id ht]; ring
  · rw [show upd b t true = b from upd_id ht]; ring
  · rw [show upd b t false = b from upd_id ht]; ring
  · rw [show upd b t true = b from upd_id ht]; ring

theorem clifford_gate {w : K} {m : Mode} (hm : m.loc = true) {g : Gate} {cnt cnt' : Nat} {l : List Instr} (h : compileGate m cnt g = .ok (l, cnt'))
    (hd : (gateQubits g).Nodup) {U : Vec Nat K → Vec Nat K} (hU : gateVec w g = some U) {s : St K} (hl : ∀ q ∈ gateQubits g, s.live q = true)
    (o : Nat → Bool) : ∃ k s', Runs w (l.map (·.op)) o s s' ∧ s'.live = s.live ∧ s'.amp = fun b => 2 ^ k * U s.amp b := by
  unfold gateVec at hU
  split at hU
  case h_9 c t _ _ =>
    injection hU with hU; subst hU
    simp only [compileGate, makeCnot, hm, or_true, if_true, newId] at h
    split at h
    · cases h
    · cases h
      have hne : c ≠ t := by simpa [gateQubits] using hd
      exact ⟨0, _, ⟨_, ⟨hl c (by simp [gateQubits]), hl t (by simp [gateQubits]), hne, rfl⟩, rfl⟩, rfl, by simp⟩
  case h_10 c t _ _ =>
    injection hU with hU; subst hU
    simp only [compileGate, makeCnot, hm, or_true, if_true, newId] at h
    split at h
    · cases h
    · simp only [Outcome.bind_ok] at h
      cases h
      have hne : c ≠ t := by simpa [gateQubits] using hd
      have lc := hl c (by simp [gateQubits])
      have lt := hl t (by simp [gateQubits])
      refine ⟨1, _, ⟨_, ⟨lt, rfl⟩, _, ⟨lc, lt, hne, rfl⟩, _, ⟨lt, rfl⟩, rfl⟩, rfl, ?_⟩
      funext b
      simp only [single, pow_one]
      exact cz_of_cx c t hne _ b
  case h_11 => cases hU
  all_goals
    injection hU with hU
    subst hU
    simp [compileGate] at h
    obtain ⟨rfl, _⟩ := h
    exact ⟨0, _, ⟨_, ⟨hl _ (by simp [gateQubits]), rfl⟩, rfl⟩, rfl, by simp [single]⟩

namespace Spec

/-- C54: with local instructions, the instructions compiled from a program of Clifford gates take every state to the state the
program takes it to, up to a factor, whatever the outcomes. -/
theorem c54_clifford {w : K} {m : Mode} (hm : m.loc = true) {prog : List Gate} {l : List Instr} (h : CompiledFrom m prog l) (hd : DistinctOperands prog)
    {s : St K} (hl : ∀ g ∈ prog, ∀ q ∈ gateQubits g, s.live q = true) {v : Vec Nat K} (hv : evolve w prog s.amp = some v) (o : Nat → Bool) :
    ∃ k s', Runs w (l.map (·.op)) o s s' ∧ s'.live = s.live ∧ ∀ b, s'.amp b = 2 ^ k * v b := by
  induction h generalizing s o v with
  | nil =>
    rw [evolve] at hv
    injection hv with hv
    subst hv
    exact ⟨0, s, rfl, rfl, by simp⟩
  | @cons c c' g gs is src h t ih =>
    rw [evolve] at hv
    cases hg : gateVec w g with
    | none => rw [hg] at hv; cases hv
    | some U =>
      rw [hg] at hv
      dsimp only at hv
      obtain ⟨k, s1, r1, l1, a1⟩ := clifford_gate hm h (hd g (by simp)) hg (hl g (by simp)) o
      obtain ⟨k', s2, r2, l2, a2⟩ := ih (fun x hx => hd x (by simp [hx])) (s := s1) (fun x hx q hq => by rw [l1]; exact hl x (by simp [hx]) q hq)
        (v := fun b => 2 ^ k * v b) (by rw [a1]; exact evolve_smul _ hv) (fun n => o (n + (is.map (·.op)).length))
      refine ⟨k' + k, s2, ?_, by rw [l2, l1], fun b => ?_⟩
      · rw [List.map_append]
        exact runs_append.2 ⟨s1, r1, r2⟩
      · rw [a2, pow_add]; ring

/-- A Hadamard gate and a CNOT on the ground state: afterwards both qubits are equal. -/
example (o : Nat → Bool) : ∃ (l : List Instr) (k : Nat) (s' : St (ZMod 17)), Runs 2 (l.map (·.op)) o pair s' ∧ l.length = 2 ∧
    s'.amp (fun _ => false) = 2 ^ k ∧ s'.amp (fun q => q = 1 ∨ q = 2) = 2 ^ k ∧ s'.amp (fun q => q = 1) = 0 := by
  have h : CompiledFrom ⟨"q".toList, false, true⟩ [.basic 1 .H, .ctrl 1 (.basic 2 .X) .bellBased .dedicated] _ :=
    .cons (c := 10) (c' := 10) rfl (.cons (c := 10) (c' := 12) rfl .nil)
  obtain ⟨k, s', r, _, e⟩ := c54_clifford (w := (2 : ZMod 17)) rfl h (by unfold DistinctOperands; decide) (s := pair) (by
    intro g hg q hq
    simp at hg
    rcases hg with rfl | rfl <;> simp [gateQubits] at hq
    · subst hq; simp [pair, ground]
    · rcases hq with rfl | rfl <;> simp [pair, ground]) rfl o
  have g0 : pair.amp (fun _ => false) = 1 := by simp [pair, ground]
  have g1 : ∀ b : Nat → Bool, b 1 = true → pair.amp b = 0 := fun b hb => by
    simp only [pair, ground]
    rw [if_neg]
    intro h'; rw [h'] at hb; simp at hb
  have g2 : ∀ b : Nat → Bool, b 2 = true → pair.amp b = 0 := fun b hb => by
    simp only [pair, ground]
    rw [if_neg]
    intro h'; rw [h'] at hb; simp at hb
  have g3 : ∀ b : Nat → Bool, (∀ q, b q = false) → pair.amp b = 1 := fun b hb => by
    rw [show b = fun _ => false from funext hb, g0]
  refine ⟨_, k, s', r, rfl, ?_, ?_, ?_⟩
  · rw [e]
    simp only [gateCX, gateH, Bool.false_eq_true, if_false, sg]
    rw [g3 _ (by intro q; simp [upd]), g1 _ (by simp [upd])]
    ring
  · rw [e]
    simp only [gateCX, gateH, true_or, decide_true, if_true, sg, flip]
    rw [g3 _ (by intro q; by_cases h1 : q = 1 <;> by_cases h2 : q = 2 <;> simp [upd, h1, h2]), g1 _ (by simp [upd])]
    ring
  · rw [e]
    simp only [gateCX, gateH, decide_true, if_true, sg, flip]
    rw [g2 _ (by simp [upd]), g2 _ (by simp [upd])]
    ring

end Spec

end Verif.Quantum
