import Verif.QuantumLocal
import Verif.QuantumProps

/-!
# Local instructions as kernels: lemmas

Every local instruction multiplies the amplitudes by a factor that depends on the values of its two cells, after summing over
the values of the cells that are measured away. Chains of such instructions are sums of products of these factors.
-/

namespace Verif.Quantum

variable {K : Type} [Field K]

/-! ## Sums over the values of cells -/

def sumOver : List Cell → Vec Cell K → Vec Cell K
  | [], f => f
  | x :: xs, f => fun b => sumOver xs f (upd b x false) + sumOver xs f (upd b x true)

theorem sumOver_congr : ∀ {D : List Cell} {f g : Vec Cell K} {b : Cell → Bool}, (∀ β, (∀ q, q ∉ D → β q = b q) → f β = g β) → sumOver D f b = sumOver D g b
  | [], f, g, b, h => h b fun _ _ => rfl
  | x :: xs, f, g, b, h => by
    simp only [sumOver]
    congr 1 <;> refine sumOver_congr fun β hβ => h β fun q hq => ?_
    all_goals
      simp only [List.mem_cons, not_or] at hq
      rw [hβ q hq.2, upd_ne _ _ hq.1]

theorem sumOver_append : ∀ (A B : List Cell) (f : Vec Cell K) (b : Cell → Bool), sumOver (A ++ B) f b = sumOver A (sumOver B f) b
  | [], _, _, _ => rfl
  | x :: A, B, f, b => by simp only [List.cons_append, sumOver, sumOver_append A B f]

theorem sumOver_perm {A B : List Cell} (h : A.Perm B) (f : Vec Cell K) : ∀ b, sumOver A f b = sumOver B f b := by
  induction h with
  | nil => intro b; rfl
  | cons x _ ih => intro b; simp only [sumOver, ih]
  | swap x y l =>
    intro b
    simp only [sumOver]
    by_cases e : x = y
    · rw [e]
    · rw [upd_swap b e false false, upd_swap b e true false, upd_swap b e false true, upd_swap b e true true]
      ring
  | trans _ _ ih1 ih2 => intro b; rw [ih1, ih2]

theorem sumOver_out : ∀ {D : List Cell} {x : Cell} (_ : x ∉ D) (f : Vec Cell K) (b : Cell → Bool) (v : Bool),
    sumOver D f (upd b x v) = sumOver D (fun β => f (upd β x v)) b
  | [], _, _, _, _, _ => rfl
  | y :: D, x, h, f, b, v => by
    simp only [List.mem_cons, not_or] at h
    simp only [sumOver]
    rw [← upd_swap b h.1 v false, ← upd_swap b h.1 v true, sumOver_out h.2, sumOver_out h.2]

theorem sumOver_mul : ∀ {D : List Cell} {g : Vec Cell K} (_ : ∀ x ∈ D, ∀ β v, g (upd β x v) = g β) (f : Vec Cell K) (b : Cell → Bool),
    sumOver D (fun β => g β * f β) b = g b * sumOver D f b
  | [], _, _, _, _ => rfl
  | x :: D, g, h, f, b => by
    simp only [sumOver]
    rw [sumOver_mul (fun y hy => h y (List.mem_cons_of_mem _ hy)), sumOver_mul (fun y hy => h y (List.mem_cons_of_mem _ hy)), h x (by simp), h x (by simp), mul_add]

/-! ## Kernels -/

/-- The factor of an instruction on two cells: their values differ by `s`, and there is a sign if the first is one. -/
structure Ker (K : Type) where
  c : K
  s : Bool
  z : Bool

def Ker.val (k : Ker K) (u v : Cell) (β : Cell → Bool) : K := if xor (β u) (β v) = k.s then k.c * sg (k.z && β u) else 0

/-- The values with those of some cells set to zero. -/
def zero (N : List Cell) (β : Cell → Bool) : Cell → Bool := fun q => if q ∈ N then false else β q

@[simp] theorem zero_nil (β : Cell → Bool) : zero [] β = β := by funext q; simp [zero]

theorem zero_single (u : Cell) (β : Cell → Bool) : zero [u] β = upd β u false := by
  funext q; simp [zero, upd]

theorem zero_pair (u v : Cell) (β : Cell → Bool) : zero [u, v] β = upd (upd β u false) v false := by
  funext q; simp only [zero, upd, List.mem_cons, List.not_mem_nil, or_false]; split <;> split <;> simp_all

/-- What becomes of a cell. -/
inductive Role where
  | made
  | gone
  | kept
  deriving DecidableEq, Repr

/-- The instruction acts on the two cells in this way. -/
def HasRoles (u v : Cell) (i : LocalInstr) : Role → Role → Prop
  | .made, .made => ∃ p q, i = .bellPrepare p q u v ∨ i = .bellPrepare p q v u
  | .gone, .gone => i = .bellMeasure u v ∨ i = .bellMeasure v u
  | .gone, .made => ∃ n, i = .move u v n
  | .made, .gone => ∃ n, i = .move v u n
  | .kept, .made => ∃ n, i = .extendSplit n u v
  | .made, .kept => ∃ n, i = .extendSplit n v u
  | .kept, .gone => i = .mergeContract u v
  | .gone, .kept => i = .mergeContract v u
  | .kept, .kept => False

/-- The cells with a given role. -/
def pick (t : Role) (u v : Cell) (r1 r2 : Role) : List Cell := (if r1 = t then [u] else []) ++ (if r2 = t then [v] else [])

/-- The cells with patches after the instruction. -/
def after (live : Cell → Bool) (u v : Cell) (r1 r2 : Role) : Cell → Bool := fun q =>
  if q ∈ pick .made u v r1 r2 then true else if q ∈ pick .gone u v r1 r2 then false else live q

theorem sg_and_swap (z s x y : Bool) (h : xor x y = s) : (sg (z && y) : K) = sg (z && s) * sg (z && x) := by
  subst h; cases z <;> cases x <;> cases y <;> simp [sg]

/-- Exchanging the cells of a kernel. -/
def Ker.swap (k : Ker K) : Ker K := ⟨k.c * sg (k.z && k.s), k.s, k.z⟩

theorem Ker.swap_val (k : Ker K) (u v : Cell) (β : Cell → Bool) : k.swap.val u v β = k.val v u β := by
  unfold Ker.val Ker.swap
  dsimp only
  rw [Bool.xor_comm (β v) (β u)]
  split
  · rename_i h
    rw [sg_and_swap k.z k.s (β u) (β v) h]
    ring
  · rfl

theorem Ker.swap_ne {k : Ker K} (h : k.c ≠ 0) : k.swap.c ≠ 0 := mul_ne_zero h (sg_ne _)

section
variable {w : K} (h2 : (2 : K) ≠ 0) {sd : Sides} {u v : Cell} (huv : u ≠ v) (x : Run)
include h2 huv

theorem prepare_ker (p q : Option Nat) : ∃ k : Ker K, k.c ≠ 0 ∧ ∀ s : LSt K, LProper s → s.live u = false → s.live v = false →
    ∃ s', LActs w sd (.bellPrepare p q u v) x s s' ∧ s'.live = upd (upd s.live u true) v true ∧ ∀ β, s'.amp β = k.val u v β * s.amp (upd (upd β u false) v false) := by
  rcases x with ⟨way, o, r⟩
  cases way
  · refine ⟨⟨1, false, o⟩, one_ne_zero, fun s hs hu hv => ⟨_, ⟨huv, hu, hv, rfl⟩, rfl, fun β => ?_⟩⟩
    simp only [Bool.false_eq_true, if_false, project, paulis, pauli, gateX, Ker.val, one_mul]
    cases hbu : β u <;> cases hbv : β v
    · rw [show upd (upd β u false) v false = β by rw [upd_id hbu, upd_id hbv], hs u hu (flip (flip β u) v) (by simp [flip, upd, huv, hbu])]
      simp [sg]
    · rw [hs v hv β hbv, hs u hu (flip (flip β u) v) (by simp [flip, upd, huv, hbu])]
      simp
    · rw [hs u hu β hbu, hs v hv (flip (flip β u) v) (by simp [flip, upd, Ne.symm huv, hbv])]
      simp
    · rw [hs u hu β hbu]
      simp [flip, hbu, upd_ne _ _ (Ne.symm huv), hbv]
  · refine ⟨⟨2, o, false⟩, h2, fun s hs hu hv => ⟨_, ⟨huv, hu, hv, rfl⟩, rfl, fun β => ?_⟩⟩
    simp only [if_true, project, paulis, pauli, gateZ, prepare, Ker.val, Bool.false_and, upd_ne _ _ huv]
    cases β u <;> cases β v <;> cases o <;> simp [sg, upd_swap _ huv] <;> ring

theorem measure_ker : ∃ k : Ker K, k.c ≠ 0 ∧ ∀ s : LSt K, s.live u = true → s.live v = true →
    ∃ s', LActs w sd (.bellMeasure u v) x s s' ∧ s'.live = upd (upd s.live u false) v false ∧ ∀ β, s'.amp β = if β u = false ∧ β v = false then
      sumOver [u, v] (fun β => k.val u v β * s.amp β) β else 0 := by
  rcases x with ⟨way, o, r⟩
  refine ⟨⟨1, o, r⟩, one_ne_zero, fun s hu hv => ⟨_, ⟨huv, hu, hv, rfl⟩, rfl, fun β => ?_⟩⟩
  cases hbu : β u <;> cases hbv : β v <;> simp only [drop, gateCX, hbu, hbv, and_self, and_true, true_and, Bool.false_eq_true, Bool.true_eq_false, if_true, if_false, reduceCtorEq,
    upd_ne _ _ (Ne.symm huv), upd_same, upd_ne _ _ huv, sumOver, Ker.val, flip, upd_idem, and_false, false_and, one_mul]
  · cases o <;> cases r <;> simp [sg]
  · simp

theorem move_ker (n : Option Nat) : ∃ k : Ker K, k.c ≠ 0 ∧ ∀ s : LSt K, LProper s → s.live u = true → s.live v = false →
    ∃ s', LActs w sd (.move u v n) x s s' ∧ s'.live = upd (upd s.live u false) v true ∧ ∀ β, s'.amp β = if β u = false then
      sumOver [u] (fun β => k.val u v β * s.amp (upd β v false)) β else 0 := by
  rcases x with ⟨way, o, r⟩
  cases way
  · refine ⟨⟨sg (o && r), r, o⟩, sg_ne _, fun s hs hu hv => ⟨_, ⟨huv, hu, hv, rfl⟩, rfl, fun β => ?_⟩⟩
    cases hbu : β u <;> cases hbv : β v <;> simp only [drop, project, paulis, pauli, gateX, hbu, hbv, Bool.false_eq_true, Bool.true_eq_false, if_true, if_false, reduceCtorEq,
      upd_same, sumOver, Ker.val, upd_ne _ _ (Ne.symm huv)]
    · rw [hs v hv (flip (flip (upd β u r) u) v) (by simp [flip, upd, Ne.symm huv, hbv])]
      rw [show upd (upd β u false) v false = upd β u false by rw [upd_id (by rw [upd_ne _ _ (Ne.symm huv), hbv])],
        show upd (upd β u true) v false = upd β u true by rw [upd_id (by rw [upd_ne _ _ (Ne.symm huv), hbv])]]
      cases o <;> cases r <;> simp [sg]
    · rw [hs v hv (upd β u r) (by rw [upd_ne _ _ (Ne.symm huv), hbv])]
      simp only [flip, upd_same, upd_idem, upd_ne _ _ (Ne.symm huv), hbv]
      cases o <;> cases r <;> simp [sg]
  · refine ⟨⟨2, o, r⟩, h2, fun s hs hu hv => ⟨_, ⟨huv, hu, hv, rfl⟩, rfl, fun β => ?_⟩⟩
    cases hbu : β u <;> cases hbv : β v <;> simp only [drop, project, paulis, pauli, gateZ, prepare, hbu, hbv, Bool.false_eq_true, Bool.true_eq_false, if_true, if_false, reduceCtorEq,
      upd_same, sumOver, Ker.val, upd_ne _ _ (Ne.symm huv)]
    all_goals cases o <;> cases r <;> simp [sg] <;> ring

theorem extend_ker (n : Option Nat) (hz : sd u v = some .Z) : ∃ k : Ker K, k.c ≠ 0 ∧ ∀ s : LSt K, s.live u = true → s.live v = false →
    ∃ s', LActs w sd (.extendSplit n u v) x s s' ∧ s'.live = upd s.live v true ∧ ∀ β, s'.amp β = k.val u v β * s.amp (upd β v false) := by
  rcases x with ⟨way, o, r⟩
  refine ⟨⟨2, o, false⟩, h2, fun s hu hv => ⟨_, ⟨huv, hu, hv, .inl ⟨hz, rfl⟩⟩, rfl, fun β => ?_⟩⟩
  simp only [project, paulis, pauli, gateZ, prepare, Ker.val, Bool.false_and]
  cases β u <;> cases β v <;> cases o <;> simp [sg] <;> ring

theorem contract_ker (hz : sd u v = some .Z) : ∃ k : Ker K, k.c ≠ 0 ∧ ∀ s : LSt K, s.live u = true → s.live v = true →
    ∃ s', LActs w sd (.mergeContract u v) x s s' ∧ s'.live = upd s.live v false ∧ ∀ β, s'.amp β = if β v = false then
      sumOver [v] (fun β => k.val u v β * s.amp β) β else 0 := by
  rcases x with ⟨way, o, r⟩
  refine ⟨⟨2 * sg (r && o), o, r⟩, mul_ne_zero h2 (sg_ne _), fun s hu hv => ⟨_, ⟨huv, hu, hv, .inl ⟨hz, rfl⟩⟩, rfl, fun β => ?_⟩⟩
  cases hbv : β v <;> simp only [drop, project, paulis, pauli, gateZ, hbv, Bool.false_eq_true, Bool.true_eq_false, if_true, if_false, reduceCtorEq, upd_same, sumOver, Ker.val, upd_ne _ _ huv]
  cases β u <;> cases o <;> cases r <;> simp [sg] <;> ring

omit h2 in
theorem extend_x (n : Option Nat) (hz : sd u v = some .X) : ∃ z ρ : Bool, ∃ c : K, c ≠ 0 ∧ ∀ s : LSt K, LProper s → s.live u = true → s.live v = false →
    ∃ s', LActs w sd (.extendSplit n u v) x s s' ∧ s'.live = upd s.live v true ∧ ∀ β, s'.amp β = c * sg (z && β v) * s.amp (upd (upd β v false) u (xor (β u) (xor (β v) ρ))) := by
  rcases x with ⟨way, o, r⟩
  refine ⟨o, false, 1, one_ne_zero, fun s hs hu hv => ⟨_, ⟨huv, hu, hv, .inr ⟨hz, rfl⟩⟩, rfl, fun β => ?_⟩⟩
  simp only [project, paulis, pauli, gateX]
  cases hbv : β v
  · rw [hs v hv (flip (flip β u) v) (by simp [flip, upd, Ne.symm huv, hbv]), upd_id hbv]
    simp only [Bool.xor_false, upd_id rfl]
    simp [sg]
  · rw [hs v hv β hbv]
    simp only [flip, upd_ne _ _ (Ne.symm huv), hbv, Bool.not_true, Bool.xor_false, Bool.xor_true, Bool.and_true, upd_swap _ huv]
    simp

omit h2 in
theorem contract_x (hz : sd u v = some .X) : ∃ z ρ : Bool, ∃ c : K, c ≠ 0 ∧ ∀ s : LSt K, s.live u = true → s.live v = true →
    ∃ s', LActs w sd (.mergeContract u v) x s s' ∧ s'.live = upd s.live v false ∧ ∀ β, s'.amp β = if β v = false then
      sumOver [v] (fun β => c * sg (z && β v) * s.amp (upd β u (xor (β u) (xor (β v) ρ)))) β else 0 := by
  rcases x with ⟨way, o, r⟩
  refine ⟨o, r, sg (o && r), sg_ne _, fun s hu hv => ⟨_, ⟨huv, hu, hv, .inr ⟨hz, rfl⟩⟩, rfl, fun β => ?_⟩⟩
  cases hbv : β v <;> simp only [drop, project, paulis, pauli, gateX, hbv, Bool.false_eq_true, Bool.true_eq_false, if_true, if_false, reduceCtorEq, upd_same, sumOver, upd_ne _ _ huv, flip,
    upd_ne _ _ (Ne.symm huv), upd_swap _ huv, upd_idem]
  cases hbu : β u <;> cases o <;> cases r <;> simp [sg, upd_id hbu] <;> ring

end

end Verif.Quantum
