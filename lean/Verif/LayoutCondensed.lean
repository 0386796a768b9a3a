import Verif.LayoutEdpc

/-! # The states on the border of the condensed EDPC layout (C40) -/

namespace Verif.Layouts.Spec

open Verif Verif.Layouts

/-- C40: in the condensed layout the places of the states depend on the number of qubits, also where the size does not. The squares for five and for nine qubits have the same size, but with five
there is no state to the right of the third row of qubits, and the last corner is for magic states instead of a Y state. -/
theorem c40_condensed_states : ∃ L L', makeEdpc 5 1 true false true {} = .ok L ∧ makeEdpc 9 1 true false true {} = .ok L' ∧ L.furthest = ⟨7, 7⟩ ∧ L'.furthest = ⟨7, 7⟩ ∧
    L.reserved = [⟨0, 2⟩, ⟨0, 5⟩, ⟨2, 0⟩, ⟨2, 7⟩, ⟨5, 0⟩, ⟨7, 2⟩, ⟨7, 5⟩, ⟨7, 7⟩] ∧ L.predistilled = [⟨0, 0⟩, ⟨0, 3⟩, ⟨0, 7⟩, ⟨3, 0⟩, ⟨3, 7⟩, ⟨7, 0⟩, ⟨7, 3⟩] ∧
    L'.reserved = [⟨0, 2⟩, ⟨0, 5⟩, ⟨2, 0⟩, ⟨2, 7⟩, ⟨5, 0⟩, ⟨5, 7⟩, ⟨7, 2⟩, ⟨7, 5⟩] ∧ L'.predistilled = [⟨0, 0⟩, ⟨0, 3⟩, ⟨0, 7⟩, ⟨3, 0⟩, ⟨3, 7⟩, ⟨7, 0⟩, ⟨7, 3⟩, ⟨7, 7⟩] := by
  have key : ∀ n r p, (match makeEdpc n 1 true false true {} with
      | .ok L => decide (L.furthest = ⟨7, 7⟩ ∧ L.reserved = r ∧ L.predistilled = p)
      | _ => false) = true → ∃ L, makeEdpc n 1 true false true {} = .ok L ∧ L.furthest = ⟨7, 7⟩ ∧ L.reserved = r ∧ L.predistilled = p := by
    intro n r p h
    split at h
    · rename_i L e
      exact ⟨L, e, of_decide_eq_true h⟩
    · cases h
  obtain ⟨L, h1, h2, h3, h4⟩ := key 5 [⟨0, 2⟩, ⟨0, 5⟩, ⟨2, 0⟩, ⟨2, 7⟩, ⟨5, 0⟩, ⟨7, 2⟩, ⟨7, 5⟩, ⟨7, 7⟩] [⟨0, 0⟩, ⟨0, 3⟩, ⟨0, 7⟩, ⟨3, 0⟩, ⟨3, 7⟩, ⟨7, 0⟩, ⟨7, 3⟩] (by decide +kernel)
  obtain ⟨L', g1, g2, g3, g4⟩ := key 9 [⟨0, 2⟩, ⟨0, 5⟩, ⟨2, 0⟩, ⟨2, 7⟩, ⟨5, 0⟩, ⟨5, 7⟩, ⟨7, 2⟩, ⟨7, 5⟩] [⟨0, 0⟩, ⟨0, 3⟩, ⟨0, 7⟩, ⟨3, 0⟩, ⟨3, 7⟩, ⟨7, 0⟩, ⟨7, 3⟩, ⟨7, 7⟩] (by decide +kernel)
  exact ⟨L, L', h1, g1, h2, g2, h3, h4, g3, g4⟩

end Verif.Layouts.Spec
