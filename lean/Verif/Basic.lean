/-!
# Outcomes of C++ operations

`Outcome α` is the result of running a piece of the modelled C++ code:
* `ok a`   : it returned normally with value `a`;
* `throws` : it raised a C++ exception;
* `ub`     : it performed an operation whose behaviour the C++ standard leaves
             undefined (reading past the end, `front()` on an empty queue, ...).
-/

namespace Verif

inductive Outcome (α : Type) where
  | ok (a : α)
  | throws
  | ub
  deriving Repr, DecidableEq

namespace Outcome

/-- Sequencing: a later statement runs only if the earlier one returned normally. -/
def bind {α β : Type} (x : Outcome α) (f : α → Outcome β) : Outcome β :=
  match x with
  | ok a => f a
  | throws => throws
  | ub => ub

instance : Monad Outcome where
  pure := ok
  bind := bind

@[simp] theorem pure_eq {α : Type} (a : α) : (pure a : Outcome α) = ok a := rfl
@[simp] theorem bind_ok {α β : Type} (a : α) (f : α → Outcome β) : (ok a >>= f) = f a := rfl
@[simp] theorem bind_throws {α β : Type} (f : α → Outcome β) : ((throws : Outcome α) >>= f) = throws := rfl
@[simp] theorem bind_ub {α β : Type} (f : α → Outcome β) : ((ub : Outcome α) >>= f) = ub := rfl

theorem bind_eq_ok {α β : Type} {x : Outcome α} {f : α → Outcome β} {b : β} :
    (x >>= f) = ok b ↔ ∃ a, x = ok a ∧ f a = ok b := by
  cases x <;> simp

theorem bind_eq_ub {α β : Type} {x : Outcome α} {f : α → Outcome β} :
    (x >>= f) = ub ↔ x = ub ∨ ∃ a, x = ok a ∧ f a = ub := by
  cases x <;> simp

theorem bind_eq_throws {α β : Type} {x : Outcome α} {f : α → Outcome β} :
    (x >>= f) = throws ↔ x = throws ∨ ∃ a, x = ok a ∧ f a = throws := by
  cases x <;> simp

instance : LawfulMonad Outcome := LawfulMonad.mk'
  (id_map := by intro α x; cases x <;> rfl)
  (pure_bind := by intros; rfl)
  (bind_assoc := by intro α β γ x f g; cases x <;> rfl)

/-- Did the code return normally? -/
def isOk {α : Type} : Outcome α → Bool
  | ok _ => true
  | _ => false

end Outcome

/-- Insertion into an insertion-ordered set (`tsl::ordered_set::insert`): appended at
the end when absent, no effect when present. -/
def oset {α : Type} [DecidableEq α] (s : List α) (a : α) : List α :=
  if a ∈ s then s else s ++ [a]

section oset
variable {α : Type} [DecidableEq α]

@[simp] theorem mem_oset {s : List α} {a x : α} : x ∈ oset s a ↔ x ∈ s ∨ x = a := by
  unfold oset; split <;> simp_all

theorem nodup_oset {s : List α} {a : α} (h : s.Nodup) : (oset s a).Nodup := by
  unfold oset; split
  · exact h
  · rw [List.nodup_append]; refine ⟨h, by simp, ?_⟩
    intro x hx y hy; simp at hy; subst hy; intro e; subst e; contradiction

end oset

/-- Point update of a lookup function (assignment to one key of a map). -/
def upd {α β : Type} [DecidableEq α] (f : α → β) (k : α) (v : β) : α → β :=
  fun x => if x = k then v else f x

@[simp] theorem upd_same {α β : Type} [DecidableEq α] (f : α → β) (k : α) (v : β) : upd f k v k = v := by
  simp [upd]

theorem upd_other {α β : Type} [DecidableEq α] (f : α → β) {k x : α} (v : β) (h : x ≠ k) :
    upd f k v x = f x := by simp [upd, h]

end Verif
