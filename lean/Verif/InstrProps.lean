import Verif.Instr

/-!
# C47: commuting instructions and the patches they mention
-/

namespace Verif.Spec

/-- Every patch id written in an operation: the patches it creates, measures or transforms, and the
patches it is placed next to or takes a state near to. -/
def mentioned : Operation → List Nat
  | .declare ids => ids
  | .measure t _ _ => [t]
  | .multi obs _ _ => obs.map (·.1)
  | .init t _ nx => t :: (match nx with | none => [] | some n => [n.target])
  | .bell b => [b.side1, b.side2, b.loc1.target, b.loc2.target]
  | .magic t n => [t, n]
  | .ystate t n _ => [t, n]
  | .sq t _ _ => [t]
  | .rotate t => [t]
  | .busy _ _ after => after.filterMap (·.id)
  | .bellCnot c => [c.control, c.target, c.side1, c.side2]
  | .reset t => [t]

/-- **C47 (negation).** Instructions sharing a patch may be treated as commuting: a patch initialised
next to patch 1 and the rotation of patch 1 are allowed to swap, although where the new patch may go
depends on whether patch 1 has been rotated. The same for a Y state requested near patch 1. -/
theorem c47_neighbour_ignored :
    ({ op := .init 9 .zero (some ⟨1, .Z⟩) } : Instr).canCommute { op := .rotate 1 } = true ∧
    ({ op := .ystate 9 1 none } : Instr).canCommute { op := .rotate 1 } = true ∧
    1 ∈ mentioned (.init 9 .zero (some ⟨1, .Z⟩)) ∧ 1 ∈ mentioned (.ystate 9 1 none) ∧ 1 ∈ mentioned (.rotate 1) := by
  decide

/-- The one id an operation mentions only as a neighbour. -/
def onlyNear : Operation → List Nat
  | .declare ids => ids
  | .init _ _ (some n) => [n.target]
  | .magic _ n => [n]
  | .ystate _ n _ => [n]
  | _ => []

/-- **C47 (what holds).** Instructions treated as commuting share no patch, except possibly one that
is a mere neighbour (or a declared id) of one of them and not recorded as its client. -/
theorem c47_commuting_disjoint_partial (a b : Instr) (h : a.canCommute b = true) (x : Nat)
    (ha : x ∈ mentioned a.op ∨ x ∈ a.clients) (hb : x ∈ mentioned b.op ∨ x ∈ b.clients) :
    (x ∈ onlyNear a.op ∧ x ∉ a.clients) ∨ (x ∈ onlyNear b.op ∧ x ∉ b.clients) := by
  have key : ∀ i : Instr, (x ∈ mentioned i.op ∨ x ∈ i.clients) → x ∈ i.operating ∨ (x ∈ onlyNear i.op ∧ x ∉ i.clients) := by
    intro i hi
    by_cases hc : x ∈ i.clients
    · exact Or.inl (mem_operating.2 (Or.inl hc))
    · have hm : x ∈ mentioned i.op := hi.resolve_right hc
      suffices x ∈ i.op.ids ∨ x ∈ onlyNear i.op by
        rcases this with h | h
        · exact Or.inl (mem_operating.2 (Or.inr h))
        · exact Or.inr ⟨h, hc⟩
      revert hm
      cases i.op with
      | init t s nx =>
        cases nx with
        | none => simp [mentioned, Operation.ids, onlyNear]
        | some n => simp [mentioned, Operation.ids, onlyNear]
      | declare ids => simp [mentioned, Operation.ids, onlyNear]
      | magic t n => simp [mentioned, Operation.ids, onlyNear]
      | ystate t n l => simp [mentioned, Operation.ids, onlyNear]
      | _ => simp_all [mentioned, Operation.ids, onlyNear]
  rcases key a ha with h1 | h1
  · rcases key b hb with h2 | h2
    · exact absurd h2 (canCommute_iff.1 h x h1)
    · exact Or.inr h2
  · exact Or.inl h1

/-- Two measurements of different patches commute; of a common patch they do not. -/
example : ({ op := .multi [(1, .X), (2, .Z)] false none } : Instr).canCommute { op := .multi [(3, .X), (4, .Z)] false none } = true ∧
    ({ op := .multi [(1, .X), (2, .Z)] false none } : Instr).canCommute { op := .multi [(2, .X), (4, .Z)] false none } = false := by
  decide

/-- The patches an operation acts on, without those it only mentions as neighbours or declares. -/
def actsOn : Operation → Nat → Prop
  | .declare _, _ => False
  | .measure t _ _, x => x = t
  | .multi obs _ _, x => ∃ p, (x, p) ∈ obs
  | .init t _ _, x => x = t
  | .bell b, x => x = b.side1 ∨ x = b.side2 ∨ x = b.loc1.target ∨ x = b.loc2.target
  | .magic t _, x => x = t
  | .ystate t _ _, x => x = t
  | .sq t _ _, x => x = t
  | .rotate t, x => x = t
  | .busy _ _ after, x => ∃ p ∈ after, p.id = some x
  | .bellCnot c, x => x = c.control ∨ x = c.target ∨ x = c.side1 ∨ x = c.side2
  | .reset t, x => x = t

/-- C47, exactly: two instructions are treated as commuting if and only if no patch is acted on by, or client of, both. -/
theorem c47_exact (a b : Instr) :
    a.canCommute b = true ↔ ¬ ∃ x, (actsOn a.op x ∨ x ∈ a.clients) ∧ (actsOn b.op x ∨ x ∈ b.clients) := by
  have key : ∀ (i : Instr) x, x ∈ i.operating ↔ (actsOn i.op x ∨ x ∈ i.clients) := by
    intro i x
    rw [mem_operating, or_comm]
    refine or_congr_left ?_
    cases i.op <;> simp [Operation.ids, actsOn]
  rw [canCommute_iff]
  constructor
  · rintro h ⟨x, h1, h2⟩
    exact h x ((key a x).2 h1) ((key b x).2 h2)
  · intro h x h1 h2
    exact h ⟨x, (key a x).1 h1, (key b x).1 h2⟩

/-- Commutation does not depend on the order of the two instructions. -/
theorem c47_symmetric (a b : Instr) : a.canCommute b = b.canCommute a := by
  have : a.canCommute b = true ↔ b.canCommute a = true := by
    rw [canCommute_iff, canCommute_iff]
    exact ⟨fun h x hb ha => h x ha hb, fun h x ha hb => h x hb ha⟩
  cases h1 : a.canCommute b <;> cases h2 : b.canCommute a <;> simp_all

end Verif.Spec
