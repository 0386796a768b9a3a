import Verif.Quantum

/-!
# What local instructions do to the patches on the grid (specification)

As in `Quantum.lean`, but the qubits are named by their cells, and the instructions are the local ones a long-range Bell
instruction is broken down into (local_instructions.hpp). They are the usual lattice surgery operations: a patch is prepared
or measured away, and two neighbouring patches are measured jointly in X or in Z, depending on the kind of boundary between them.
-/

namespace Verif.Quantum

variable {K : Type} [Field K]

/-- The cells with a patch and the amplitudes. -/
structure LSt (K : Type) where
  live : Cell → Bool
  amp : Vec Cell K

/-- Cells without patch are zero. -/
def LProper (s : LSt K) : Prop := ∀ q, s.live q = false → ∀ b, b q = true → s.amp b = 0

/-- What a local instruction may depend on: in which of two possible ways it is carried out, and the outcomes of its
measurements. -/
structure Run where
  way : Bool
  o : Bool
  r : Bool

/-- The Pauli operator whose product with itself is measured across the boundary of the patch in the first cell towards the
second cell. -/
abbrev Sides := Cell → Cell → Option Pauli

/-- What a local instruction does.
* A Bell pair is prepared from two patches in `|+>` by measuring ZZ, or from two patches in `|0>` by measuring XX.
* A Bell measurement is a CNOT followed by measuring the first patch in X and the second in Z.
* A patch is extended over a boundary and split again: the new patch is prepared, and ZZ (or XX) is measured.
* Two patches are merged over a boundary and contracted to the first: ZZ (or XX) is measured, then the second patch is
  measured away in X (or Z).
* A patch moves by being extended to the new cell and contracted to it. -/
def LActs (w : K) (sd : Sides) (i : LocalInstr) (x : Run) (s s' : LSt K) : Prop :=
  match i with
  | .bellPrepare _ _ a b => a ≠ b ∧ s.live a = false ∧ s.live b = false ∧ s' = ⟨upd (upd s.live a true) b true,
      if x.way then project w [(a, .Z), (b, .Z)] x.o (prepare 1 b (prepare 1 a s.amp)) else project w [(a, .X), (b, .X)] x.o s.amp⟩
  | .bellMeasure a b => a ≠ b ∧ s.live a = true ∧ s.live b = true ∧ s' = ⟨upd (upd s.live a false) b false,
      drop w .X a x.r (drop w .Z b x.o (gateCX a b s.amp))⟩
  | .move a b _ => a ≠ b ∧ s.live a = true ∧ s.live b = false ∧ s' = ⟨upd (upd s.live a false) b true,
      if x.way then drop w .X a x.r (project w [(a, .Z), (b, .Z)] x.o (prepare 1 b s.amp)) else drop w .Z a x.r (project w [(a, .X), (b, .X)] x.o s.amp)⟩
  | .extendSplit _ a b => a ≠ b ∧ s.live a = true ∧ s.live b = false ∧
      (sd a b = some .Z ∧ s' = ⟨upd s.live b true, project w [(a, .Z), (b, .Z)] x.o (prepare 1 b s.amp)⟩ ∨
       sd a b = some .X ∧ s' = ⟨upd s.live b true, project w [(a, .X), (b, .X)] x.o s.amp⟩)
  | .mergeContract a b => a ≠ b ∧ s.live a = true ∧ s.live b = true ∧
      (sd a b = some .Z ∧ s' = ⟨upd s.live b false, drop w .X b x.r (project w [(a, .Z), (b, .Z)] x.o s.amp)⟩ ∨
       sd a b = some .X ∧ s' = ⟨upd s.live b false, drop w .Z b x.r (project w [(a, .X), (b, .X)] x.o s.amp)⟩)
  | .prepareY _ _ => False
  | .twoPatchMeasure _ _ => False

/-- Running local instructions in order; the n-th one is carried out as given by `x n`. -/
def LRuns (w : K) (sd : Sides) : List LocalInstr → (Nat → Run) → LSt K → LSt K → Prop
  | [], _, s, s' => s' = s
  | i :: is, x, s, s' => ∃ m, LActs w sd i (x 0) s m ∧ LRuns w sd is (fun n => x (n + 1)) m s'

/-- The instructions can be run on every state in which there are patches in the cells `data` and none in the cells `free`. They
then do the operation, up to a factor and Pauli operators on the cells `out`, which depend on the outcomes only, and
leave patches in the cells `made` besides those that were there. -/
def LDoes (w : K) (sd : Sides) (prog : List LocalInstr) (x : Nat → Run) (data free made out : List Cell) (U : Vec Cell K → Vec Cell K) : Prop :=
  ∃ (c : K) (ps : List (Cell × Pauli)), c ≠ 0 ∧ (∀ p ∈ ps, p.1 ∈ out) ∧ ∀ s, LProper s → (∀ q ∈ data, s.live q = true) → (∀ q ∈ free, s.live q = false) →
    ∃ s', LRuns w sd prog x s s' ∧ (∀ q, s'.live q = (s.live q || decide (q ∈ made))) ∧ ∀ b, s'.amp b = c * paulis w ps (U s.amp) b

/-- Two new qubits in a Bell pair: the first in `|+>`, then a CNOT to the second. -/
def bellPair (a b : Cell) (v : Vec Cell K) : Vec Cell K := gateCX a b (prepare 1 a v)

end Verif.Quantum
