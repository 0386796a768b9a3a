import Verif.Pandora

/-!
# Gates from a database (theorems for C64)
-/

namespace Verif.Pandora
open Verif.Gates

namespace Spec

/-- The row is about the start or end of a wire, a reset or a measurement; it gives no gate. -/
def Skipped (r : Row) : Prop := r.type = 0 ∨ r.type = 1 ∨ r.type = 13 ∨ r.type = 14

/-- The gate a row stands for, by the numbering of Pandora: powers of X (5), Y (6) and Z (7), H (8), X (9), Z (10), powers of CZ
(17) and CX (18), S (27) and T (29) and their inverses (28, 30). Two-qubit powers have exponent 1. -/
inductive Stands : Row → Gate → Prop
  | xpow {c t p} : p = 1 ∨ p = -1 → Stands ⟨5, c, t, p⟩ (.basic (qubit c) .X)
  | ypow {c t p} : p = 1 ∨ p = -1 → Stands ⟨6, c, t, p⟩ (.basic (qubit c) .Y)
  | zpow {c t p} : p = 1 ∨ p = -1 → Stands ⟨7, c, t, p⟩ (.basic (qubit c) .Z)
  | half {c t} : Stands ⟨7, c, t, 1 / 2⟩ (.basic (qubit c) .S)
  | minusHalf {c t} : Stands ⟨7, c, t, -1 / 2⟩ (.basic (qubit c) .SDg)
  | quarter {c t} : Stands ⟨7, c, t, 1 / 4⟩ (.basic (qubit c) .T)
  | minusQuarter {c t} : Stands ⟨7, c, t, -1 / 4⟩ (.basic (qubit c) .TDg)
  | h {c t p} : Stands ⟨8, c, t, p⟩ (.basic (qubit c) .H)
  | x {c t p} : Stands ⟨9, c, t, p⟩ (.basic (qubit c) .X)
  | z {c t p} : Stands ⟨10, c, t, p⟩ (.basic (qubit c) .Z)
  | cz {c t p ty pl} : Stands ⟨17, c, t, p⟩ (.ctrl (qubit c) (.basic (qubit t) .Z) ty pl)
  | cx {c t p ty pl} : Stands ⟨18, c, t, p⟩ (.ctrl (qubit c) (.basic (qubit t) .X) ty pl)
  | s {c t p} : Stands ⟨27, c, t, p⟩ (.basic (qubit c) .S)
  | sdg {c t p} : Stands ⟨28, c, t, p⟩ (.basic (qubit c) .SDg)
  | t {c t p} : Stands ⟨29, c, t, p⟩ (.basic (qubit c) .T)
  | tdg {c t p} : Stands ⟨30, c, t, p⟩ (.basic (qubit c) .TDg)

/-- The rows the reader takes for something else: powers of X and Y are read as powers of Z, powers of CZ as CNOTs. -/
def Misread (r : Row) : Prop := r.type = 5 ∨ r.type = 6 ∨ r.type = 17

/-- A CNOT is delivered with the control measured first and the ancilla next to the control, whatever the layout. -/
def Settled : Gate → Prop
  | .ctrl _ _ ty pl => ty = .controlFirst ∧ pl = .nextToControl
  | _ => True

/-- The gates the rows stand for, in order. -/
inductive Listed : List Row → List Gate → Prop
  | nil : Listed [] []
  | skip {r rs gs} : Skipped r → Listed rs gs → Listed (r :: rs) gs
  | gate {r g rs gs} : ¬ Misread r → Stands r g → Settled g → Listed rs gs → Listed (r :: rs) (g :: gs)

end Spec
open Spec

theorem half_eq (q : Nat) : power q (1 / 2) = .ok (.basic q .S) := by
  rw [power, if_neg (by decide +kernel), if_pos rfl]

theorem minusHalf_eq (q : Nat) : power q (-1 / 2) = .ok (.basic q .SDg) := by
  rw [power, if_neg (by decide +kernel), if_neg (by decide +kernel), if_pos rfl]

theorem quarter_eq (q : Nat) : power q (1 / 4) = .ok (.basic q .T) := by
  rw [power, if_neg (by decide +kernel), if_neg (by decide +kernel), if_neg (by decide +kernel), if_pos rfl]

theorem minusQuarter_eq (q : Nat) : power q (-1 / 4) = .ok (.basic q .TDg) := by
  rw [power, if_neg (by decide +kernel), if_neg (by decide +kernel), if_neg (by decide +kernel), if_neg (by decide +kernel), if_pos rfl]

theorem power_some {c t : Int} {p : Rat} {g : Nat → Gate} (h : ∀ q, power q p = .ok (g q)) : translate ⟨7, c, t, p⟩ = .ok (some (g (qubit c))) := by
  simp [translate, h]

namespace Spec

/-- **C64.** A row that is not misread gives a gate if and only if it stands for that gate. -/
theorem c64_row (r : Row) (h : ¬ Misread r) (g : Gate) : translate r = .ok (some g) ↔ Stands r g ∧ Settled g := by
  obtain ⟨ty, c, t, p⟩ := r
  simp only [Misread, not_or] at h
  obtain ⟨h5, h6, h17⟩ := h
  constructor
  · intro e
    unfold translate at e
    simp only [h5, h6, h17, false_or] at e
    repeat' split at e
    · rename_i ht
      subst ht
      rw [Outcome.bind_eq_ok] at e
      obtain ⟨g', e, e'⟩ := e
      cases e'
      unfold power at e
      repeat' split at e
      · rename_i hp; cases e; exact ⟨.zpow hp, trivial⟩
      · rename_i hp; cases e; subst hp; exact ⟨.half, trivial⟩
      · rename_i hp; cases e; subst hp; exact ⟨.minusHalf, trivial⟩
      · rename_i hp; cases e; subst hp; exact ⟨.quarter, trivial⟩
      · rename_i hp; cases e; subst hp; exact ⟨.minusQuarter, trivial⟩
      · cases e
    · rename_i ht; subst ht; cases e; exact ⟨.h, trivial⟩
    · rename_i ht; subst ht; cases e; exact ⟨.x, trivial⟩
    · rename_i ht; subst ht; cases e; exact ⟨.z, trivial⟩
    · cases e
    · rename_i ht; subst ht; cases e; exact ⟨.cx, rfl, rfl⟩
    · rename_i ht; subst ht; cases e; exact ⟨.s, trivial⟩
    · rename_i ht; subst ht; cases e; exact ⟨.sdg, trivial⟩
    · rename_i ht; subst ht; cases e; exact ⟨.t, trivial⟩
    · rename_i ht; subst ht; cases e; exact ⟨.tdg, trivial⟩
    · cases e
  · rintro ⟨hs, hset⟩
    cases hs with
    | xpow => exact absurd rfl h5
    | ypow => exact absurd rfl h6
    | zpow hp => simp [translate, power, hp]
    | half => exact power_some half_eq
    | minusHalf => exact power_some minusHalf_eq
    | quarter => exact power_some quarter_eq
    | minusQuarter => exact power_some minusQuarter_eq
    | cz => exact absurd rfl h17
    | cx => obtain ⟨rfl, rfl⟩ := hset; rfl
    | _ => rfl

example : ¬ Misread ⟨18, 3, 5, 1⟩ ∧ Stands ⟨18, 3, 5, 1⟩ (.ctrl 3 (.basic 5 .X) .controlFirst .nextToControl) ∧
    Settled (.ctrl 3 (.basic 5 .X) .controlFirst .nextToControl) := ⟨by simp [Misread], .cx, rfl, rfl⟩

/-- **C64, wrong for misread rows.** Such a row never gives the gate it stands for. -/
theorem c64_misread (r : Row) (h : Misread r) (g : Gate) (hg : Stands r g) : translate r ≠ .ok (some g) := by
  intro e
  cases hg with
  | xpow hp => simp [translate, power, hp] at e
  | ypow hp => simp [translate, power, hp] at e
  | cz => simp [translate, cnot] at e
  | _ => simp [Misread] at h

/-- A Pauli X given as a power of X is delivered as a Z, a CZ as a CNOT. -/
theorem c64_wrong_gate : (Misread ⟨5, 2, 0, 1⟩ ∧ Stands ⟨5, 2, 0, 1⟩ (.basic 2 .X) ∧ translate ⟨5, 2, 0, 1⟩ = .ok (some (.basic 2 .Z))) ∧
    (Misread ⟨17, 2, 3, 1⟩ ∧ Stands ⟨17, 2, 3, 1⟩ (.ctrl 2 (.basic 3 .Z) .controlFirst .nextToControl) ∧
      translate ⟨17, 2, 3, 1⟩ = .ok (some (.ctrl 2 (.basic 3 .X) .controlFirst .nextToControl))) :=
  ⟨⟨by simp [Misread], .xpow (Or.inl rfl), rfl⟩, ⟨by simp [Misread], .cz, rfl⟩⟩

end Spec
open Spec

theorem translate_skipped {r : Row} (h : Skipped r) : translate r = .ok none := by
  obtain ⟨ty, c, t, p⟩ := r
  rcases h with rfl | rfl | rfl | rfl <;> rfl

theorem listed_all {rs : List Row} {gs : List Gate} (h : Listed rs gs) : translateAll rs = .ok gs := by
  induction h with
  | nil => rfl
  | skip h _ ih => unfold translateAll; rw [translate_skipped h, Outcome.bind_ok, ih]; rfl
  | gate hm hs hset _ ih => unfold translateAll; rw [(c64_row _ hm _).2 ⟨hs, hset⟩, Outcome.bind_ok, ih]; rfl

theorem read_queue (db : Db) (gs : List Gate) (fuel k : Nat) :
    read db (gs.length + fuel) ⟨gs, k⟩ = (do let (l, e) ← read db fuel ⟨[], k⟩; .ok (gs ++ l, e)) := by
  induction gs with
  | nil =>
    simp only [List.length_nil, Nat.zero_add, List.nil_append]
    cases read db fuel ⟨[], k⟩ <;> rfl
  | cons g gs ih =>
    have : (g :: gs).length + fuel = (gs.length + fuel) + 1 := by simp; omega
    rw [this]
    conv => lhs; unfold read
    simp only [hasNext, getNext, List.isEmpty_cons, Bool.false_eq_true, if_false, Outcome.bind_ok, Bool.not_false, Bool.not_true]
    rw [ih]
    cases read db fuel ⟨[], k⟩ <;> rfl

theorem read_layer (db : Db) (fuel k : Nat) (gs : List Gate) (h : translateAll (db k) = .ok gs) (hne : gs ≠ []) :
    read db (fuel + 1) ⟨[], k⟩ = read db (fuel + 1) ⟨gs, k + 1⟩ := by
  cases gs with
  | nil => exact absurd rfl hne
  | cons g gs =>
    conv => lhs; unfold read
    conv => rhs; unfold read
    simp [hasNext, getNext, advanceLayer, h]

theorem read_end (db : Db) (fuel k : Nat) (h : translateAll (db k) = .ok []) : read db (fuel + 1) ⟨[], k⟩ = .ok ([], true) := by
  unfold read
  simp [hasNext, advanceLayer, h]

theorem read_layers (db : Db) (gss : List (List Gate)) (k fuel : Nat) (h : ∀ (i : Nat) (gs : List Gate), gss[i]? = some gs → Listed (db (k + i)) gs ∧ gs ≠ [])
    (hlast : Listed (db (k + gss.length)) []) : read db (gss.flatten.length + fuel + 1) ⟨[], k⟩ = .ok (gss.flatten, true) := by
  induction gss generalizing k with
  | nil => exact read_end db _ k (listed_all hlast)
  | cons gs gss ih =>
    obtain ⟨h1, h2⟩ := h 0 gs rfl
    rw [read_layer db _ k gs (listed_all h1) h2]
    have e : (gs :: gss).flatten.length + fuel + 1 = gs.length + (gss.flatten.length + fuel + 1) := by simp; omega
    rw [e, read_queue, ih (k + 1) (fun i g hi => by
      have := h (i + 1) g (by simpa using hi)
      rwa [show k + (i + 1) = k + 1 + i by omega] at this) (by
      simp only [List.length_cons] at hlast
      rwa [show k + (gss.length + 1) = k + 1 + gss.length by omega] at hlast)]
    simp

theorem read_congr {db db' : Db} {k : Nat} (hk : translateAll (db k) = .ok []) (h : ∀ l, 1 ≤ l → l ≤ k → db l = db' l) (fuel : Nat) (s : Reader)
    (h1 : 1 ≤ s.layer) (hs : s.layer ≤ k) : read db fuel s = read db' fuel s := by
  induction fuel generalizing s with
  | zero => rfl
  | succ n ih =>
    · obtain ⟨q, l⟩ := s
      dsimp only at h1 hs
      cases q with
      | cons g q =>
        conv => lhs; unfold read
        conv => rhs; unfold read
        simp only [hasNext, getNext, List.isEmpty_cons, Bool.false_eq_true, if_false, Outcome.bind_ok, Bool.not_false, Bool.not_true]
        rw [ih ⟨q, l⟩ h1 hs]
      | nil =>
        have e := h l h1 hs
        cases hg : translateAll (db l) with
        | ok gs =>
          cases gs with
          | nil => rw [read_end db n l hg, read_end db' n l (e ▸ hg)]
          | cons g gs =>
            rw [read_layer db n l _ hg (by simp), read_layer db' n l _ (e ▸ hg) (by simp)]
            have hlt : l < k := by
              rcases Nat.lt_or_ge l k with h | h
              · exact h
              · have : l = k := by omega
                subst this; rw [hk] at hg; cases hg
            conv => lhs; unfold read
            conv => rhs; unfold read
            simp only [hasNext, getNext, List.isEmpty_cons, Bool.false_eq_true, if_false, Outcome.bind_ok, Bool.not_false, Bool.not_true]
            rw [ih ⟨gs, l + 1⟩ (by simp) hlt]
        | throws =>
          have hg' : translateAll (db' l) = .throws := e ▸ hg
          unfold read
          simp [hasNext, advanceLayer, hg, hg']
        | ub =>
          have hg' : translateAll (db' l) = .ub := e ▸ hg
          unfold read
          simp [hasNext, advanceLayer, hg, hg']

namespace Spec

/-- **C64 (partial).** If the layers from 1 on each have at least one gate until one has none, and no row of them is misread, the
stream delivers exactly the gates of those layers, in order, and ends. Missing: misread rows, and gates after a layer without
gates (see the theorems below). -/
theorem c64_partial (db : Db) (gss : List (List Gate)) (h : ∀ (i : Nat) (gs : List Gate), gss[i]? = some gs → Listed (db (1 + i)) gs ∧ gs ≠ [])
    (hlast : ∀ r ∈ db (1 + gss.length), Skipped r) (fuel : Nat) (hf : gss.flatten.length < fuel) :
    read db fuel ⟨[], 1⟩ = .ok (gss.flatten, true) := by
  have hl : Listed (db (1 + gss.length)) [] := by
    generalize db (1 + gss.length) = rs at hlast
    induction rs with
    | nil => exact .nil
    | cons r rs ih => exact .skip (hlast r (by simp)) (ih fun x hx => hlast x (by simp [hx]))
  have := read_layers db gss 1 (fuel - gss.flatten.length - 1) h hl
  rwa [show gss.flatten.length + (fuel - gss.flatten.length - 1) + 1 = fuel by omega] at this

/-- Two layers: an H and a CNOT, then a T and a measurement. -/
example : let db : Db := fun l => match l with
      | 1 => [⟨8, 0, 0, 0⟩, ⟨18, 1, 2, 1⟩]
      | 2 => [⟨29, 0, 0, 0⟩, ⟨14, 1, 0, 0⟩]
      | _ => []
    (∀ (i : Nat) (gs : List Gate), [[Gate.basic 0 .H, .ctrl 1 (.basic 2 .X) .controlFirst .nextToControl], [.basic 0 .T]][i]? = some gs →
      Listed (db (1 + i)) gs ∧ gs ≠ []) ∧ (∀ r ∈ db 3, Skipped r) ∧
    read db 9 ⟨[], 1⟩ = .ok ([.basic 0 .H, .ctrl 1 (.basic 2 .X) .controlFirst .nextToControl, .basic 0 .T], true) := by
  refine ⟨?_, by simp, rfl⟩
  intro i gs hi
  match i, hi with
  | 0, hi =>
    cases hi
    exact ⟨.gate (by simp [Misread]) .h trivial (.gate (by simp [Misread]) .cx ⟨rfl, rfl⟩ .nil), by simp⟩
  | 1, hi =>
    cases hi
    exact ⟨.gate (by simp [Misread]) .t trivial (.skip (by simp [Skipped]) .nil), by simp⟩

/-- **C64, gates are lost.** Whatever follows a layer of which no row gives a gate (for instance only measurements) is never
read: the stream says that it has ended, and delivers the same as if the database stopped there. -/
theorem c64_lost (db db' : Db) (k : Nat) (hk : ∀ r ∈ db k, Skipped r) (h : ∀ l, 1 ≤ l → l ≤ k → db l = db' l) (h1 : 1 ≤ k) (fuel : Nat) :
    read db fuel ⟨[], 1⟩ = read db' fuel ⟨[], 1⟩ := by
  have hl : Listed (db k) [] := by
    generalize db k = rs at hk
    induction rs with
    | nil => exact .nil
    | cons r rs ih => exact .skip (hk r (by simp)) (ih fun x hx => hk x (by simp [hx]))
  exact read_congr (listed_all hl) h fuel ⟨[], 1⟩ (Nat.le_refl 1) h1

/-- A T gate after a layer with only a measurement is not delivered. -/
theorem c64_lost_gate : ∃ db : Db, (∀ r ∈ db 2, Skipped r) ∧ db 3 = [⟨29, 0, 0, 0⟩] ∧ Stands ⟨29, 0, 0, 0⟩ (.basic 0 .T) ∧
    read db 9 ⟨[], 1⟩ = .ok ([.basic 0 .H], true) :=
  ⟨fun l => match l with | 1 => [⟨8, 0, 0, 0⟩] | 2 => [⟨14, 1, 0, 0⟩] | 3 => [⟨29, 0, 0, 0⟩] | _ => [], by simp [Skipped], rfl, .t, rfl⟩

/-- Asking for a gate when there is none left on the next layer is undefined. -/
theorem c64_past_end (db : Db) (k : Nat) (hk : ∀ r ∈ db k, Skipped r) : getNext db ⟨[], k⟩ = .ub := by
  have hl : Listed (db k) [] := by
    generalize db k = rs at hk
    induction rs with
    | nil => exact .nil
    | cons r rs ih => exact .skip (hk r (by simp)) (ih fun x hx => hk x (by simp [hx]))
  simp [getNext, advanceLayer, listed_all hl]

end Spec
end Verif.Pandora
