import Verif.Wave

/-! # What holds of the slice together with the unfinished instructions, for any pipeline -/

namespace Verif.Wave

/-- What is left to do after an attempt. -/
def left {σ : Type} (r : Res σ) : List Instr := if r.err then [r.instr] else r.followups

/-- The two instructions of the program name no patch in common. -/
def Apart (P : List Instr) (a b : Nat) : Prop := ∀ x y, P[a]? = some x → P[b]? = some y → ∀ p ∈ x.deps, p ∉ y.deps

/-- A statement about the slice and the unfinished instructions, each with the source instruction it stems from, that is
kept by every step of a pipeline which never attempts an instruction while one that comes before it and shares a patch is
unfinished. -/
structure Ambient {σ : Type} (env : Env σ) (P : List Instr) (Φ : σ → List (Nat × Instr) → Prop) : Prop where
  perm : ∀ {s w w'}, Φ s w → w.Perm w' → Φ s w'
  apply : ∀ {s o i w r}, Φ s ((o, i) :: w) → (∀ x ∈ w, x.1 < o → Apart P x.1 o) → env.apply s i = .ok r →
    Φ r.slice ((left r).map (fun j => (o, j)) ++ w)
  waits : ∀ {s o i w} (k : Nat), Φ s ((o, i) :: w) → Φ s ((o, { i with wait := k }) :: w)
  advance : ∀ {s s' w}, Φ s w → env.advance s = .ok s' → Φ s' w
  reset : ∀ {s s' w}, Φ s w → env.reset s = .ok s' → Φ s' w

/-- The instructions of the program with their positions. -/
def indexed (P : List Instr) : List (Nat × Instr) := P.zipIdx.map (fun x => (x.2, x.1))

theorem mem_indexed {P : List Instr} {x : Nat × Instr} : x ∈ indexed P ↔ P[x.1]? = some x.2 := by
  unfold indexed
  simp only [List.mem_map, Prod.exists, List.mem_zipIdx_iff_getElem?]
  constructor
  · rintro ⟨a, b, h, rfl⟩; exact h
  · intro h; exact ⟨_, _, h, rfl⟩

theorem indexed_fst (P : List Instr) : (indexed P).map (fun x => x.1) = List.range P.length := by
  unfold indexed
  rw [List.map_map, List.range_eq_range', ← List.zipIdx_map_snd 0 P]
  rfl

/-- The statement that says nothing. -/
theorem ambient_true {σ : Type} (env : Env σ) (P : List Instr) : Ambient env P (fun _ _ => True) :=
  ⟨fun _ _ => trivial, fun _ _ _ => trivial, fun _ _ => trivial, fun _ _ => trivial, fun _ _ => trivial⟩

end Verif.Wave
