import Mathlib.Algebra.Field.Basic
import Mathlib.Tactic.Ring
import Verif.Instr

/-!
# What instructions do to logical qubits (specification)

The code has no notion of quantum states. This file says what the instructions mean: a state is a vector of amplitudes over the
values of all qubits, gates act on it as usual, and measuring a product of Pauli operators projects onto an eigenspace. Vectors
are not normalised. The amplitudes are from a field with an element `w` with `w ^ 4 = -1` (an eighth root of unity).
-/

namespace Verif.Quantum

variable {ι : Type} [DecidableEq ι] {K : Type} [Field K]

/-- Amplitudes of the basis states of qubits named by `ι`. -/
abbrev Vec (ι K : Type) := (ι → Bool) → K

/-- The sign of an outcome. -/
def sg : Bool → K
  | false => 1
  | true => -1

/-- The basis state with one qubit flipped. -/
def flip (b : ι → Bool) (q : ι) : ι → Bool := upd b q (!b q)

def gateX (q : ι) (v : Vec ι K) : Vec ι K := fun b => v (flip b q)

def gateZ (q : ι) (v : Vec ι K) : Vec ι K := fun b => sg (b q) * v b

/-- `Y = i X Z`. -/
def gateY (w : K) (q : ι) (v : Vec ι K) : Vec ι K := fun b => (if b q then w ^ 2 else -w ^ 2) * v (flip b q)

/-- Hadamard, times the square root of two. -/
def gateH (q : ι) (v : Vec ι K) : Vec ι K := fun b => v (upd b q false) + sg (b q) * v (upd b q true)

/-- Multiplies the states in which the qubit is one. -/
def phase (p : K) (q : ι) (v : Vec ι K) : Vec ι K := fun b => (if b q then p else 1) * v b

def gateS (w : K) (q : ι) (v : Vec ι K) : Vec ι K := phase (w ^ 2) q v

def gateSDg (w : K) (q : ι) (v : Vec ι K) : Vec ι K := phase (-w ^ 2) q v

def gateT (w : K) (q : ι) (v : Vec ι K) : Vec ι K := phase w q v

/-- The inverse of `w` is `-w ^ 3`. -/
def gateTDg (w : K) (q : ι) (v : Vec ι K) : Vec ι K := phase (-w ^ 3) q v

def gateCX (c t : ι) (v : Vec ι K) : Vec ι K := fun b => v (if b c then flip b t else b)

def gateCZ (c t : ι) (v : Vec ι K) : Vec ι K := fun b => sg (b c && b t) * v b

/-- A Pauli operator on one qubit. -/
def pauli (w : K) : Pauli → ι → Vec ι K → Vec ι K
  | .I, _ => id
  | .X, q => gateX q
  | .Y, q => gateY w q
  | .Z, q => gateZ q

/-- A product of Pauli operators. -/
def paulis (w : K) : List (ι × Pauli) → Vec ι K → Vec ι K
  | [], v => v
  | (q, p) :: ps, v => pauli w p q (paulis w ps v)

/-- Projection onto the eigenspace of the product for the outcome (times two). -/
def project (w : K) (ps : List (ι × Pauli)) (o : Bool) (v : Vec ι K) : Vec ι K := fun b => v b + sg o * paulis w ps v b

/-- Measuring a qubit away: the eigenspace of the Pauli operator for the outcome, then the qubit is dropped (set to zero). -/
def drop (w : K) (p : Pauli) (q : ι) (o : Bool) (v : Vec ι K) : Vec ι K := fun b =>
  if b q then 0
  else
    match p with
    | .I => v b
    | .X => v (upd b q false) + sg o * v (upd b q true)
    | .Y => v (upd b q false) - sg o * w ^ 2 * v (upd b q true)
    | .Z => v (upd b q o)

/-- Preparing a qubit (so far zero) in the state `|0> + p |1>`. -/
def prepare (p : K) (q : ι) (v : Vec ι K) : Vec ι K := fun b => (if b q then p else 1) * v (upd b q false)

/-- The ids in use and the amplitudes. -/
structure St (K : Type) where
  live : Nat → Bool
  amp : Vec Nat K

/-- Ids not in use are zero. -/
def Proper (s : St K) : Prop := ∀ q, s.live q = false → ∀ b, b q = true → s.amp b = 0

/-- Single-qubit operations. -/
def single (w : K) : SqOp → Bool → Nat → Vec Nat K → Vec Nat K
  | .I, _, _ => id
  | .X, _, q => gateX q
  | .Y, _, q => gateY w q
  | .Z, _, q => gateZ q
  | .H, _, q => gateH q
  | .S, false, q => gateS w q
  | .S, true, q => gateSDg w q

/-- What an instruction does when the measurement in it has the outcome `o`. Asking for a Y state for an id in use gives the
state back; this is meaningful only if the qubit is in that state. Rotating a patch does not change its logical state. The other
instructions are not used by the sequences considered here. -/
def Acts (w : K) (op : Operation) (o : Bool) (s s' : St K) : Prop :=
  match op with
  | .measure q p neg => s.live q = true ∧ s' = ⟨upd s.live q false, drop w p q (xor o neg) s.amp⟩
  | .multi obs neg _ => (∀ x ∈ obs, s.live x.1 = true) ∧ (obs.map (·.1)).Nodup ∧ s' = ⟨s.live, project w obs (xor o neg) s.amp⟩
  | .init q .zero _ => s.live q = false ∧ s' = ⟨upd s.live q true, s.amp⟩
  | .init q .plus _ => s.live q = false ∧ s' = ⟨upd s.live q true, prepare 1 q s.amp⟩
  | .magic q _ => s.live q = false ∧ s' = ⟨upd s.live q true, prepare w q s.amp⟩
  | .ystate q _ _ =>
    (s.live q = false ∧ s' = ⟨upd s.live q true, prepare (w ^ 2) q s.amp⟩) ∨
    (s.live q = true ∧ (∀ b, s.amp (upd b q true) = w ^ 2 * s.amp (upd b q false)) ∧ s' = ⟨upd s.live q false, drop w .Z q false s.amp⟩)
  | .sq q g dag => s.live q = true ∧ s' = ⟨s.live, single w g dag q s.amp⟩
  | .rotate q => s.live q = true ∧ s' = s
  | .bellCnot c => s.live c.control = true ∧ s.live c.target = true ∧ c.control ≠ c.target ∧ s' = ⟨s.live, gateCX c.control c.target s.amp⟩
  | _ => False

/-- Running a list of instructions; the n-th one has the outcome `o n`. -/
def Runs (w : K) : List Operation → (Nat → Bool) → St K → St K → Prop
  | [], _, s, s' => s' = s
  | op :: ops, o, s, s' => ∃ m, Acts w op (o 0) s m ∧ Runs w ops (fun n => o (n + 1)) m s'

/-- With these outcomes the sequence does the operation on the given qubits, up to a factor and Pauli operators on them which
depend on the outcomes only. The ids in `fresh` must not be in use before; which ids are in use is the same afterwards. -/
def Does (w : K) (prog : List Operation) (o : Nat → Bool) (qs fresh : List Nat) (U : Vec Nat K → Vec Nat K) : Prop :=
  ∃ (c : K) (ps : List (Nat × Pauli)), c ≠ 0 ∧ (∀ p ∈ ps, p.1 ∈ qs) ∧ ∀ s, Proper s → (∀ q ∈ qs, s.live q = true) → (∀ q ∈ fresh, s.live q = false) →
    ∃ s', Runs w prog o s s' ∧ s'.live = s.live ∧ ∀ b, s'.amp b = c * paulis w ps (U s.amp) b

end Verif.Quantum
