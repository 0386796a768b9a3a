import Verif.FromStrings
import Verif.LstkProps
import Verif.DotProps
import Verif.JsonLemmas
import Verif.GatePrint
import Verif.LliProps
import Verif.JsonRun

/-!
# The interface by strings (property)

**C76**: what a caller of the interface by strings hands over and gets back.
-/

namespace Verif.FromStrings.Spec

/-- A byte as a character. -/
def byte (b : UInt8) : Char := Char.ofNat b.toNat

/-- Text in UTF-8: the encodings of some characters, one after the other. -/
def Utf8 (t : Str) : Prop := ∃ u : List Char, t = u.flatMap fun c => (String.utf8EncodeChar c).map byte

/-- A value in JSON as far as needed: a string or an integer. -/
inductive Value where
  | str (s : Str)
  | num (z : Int)
  deriving DecidableEq, Repr

def hexValue (c : Char) : Option Nat :=
  if 48 ≤ c.toNat ∧ c.toNat ≤ 57 then some (c.toNat - 48)
  else if 97 ≤ c.toNat ∧ c.toNat ≤ 102 then some (c.toNat - 87)
  else if 65 ≤ c.toNat ∧ c.toNat ≤ 70 then some (c.toNat - 55)
  else none

/-- The escapes of one character (RFC 8259, section 7). -/
def short : Char → Option Char
  | '"' => some '"'
  | '\\' => some '\\'
  | '/' => some '/'
  | 'b' => some '\x08'
  | 'f' => some '\x0c'
  | 'n' => some '\n'
  | 'r' => some '\r'
  | 't' => some '\t'
  | _ => none

/-- The rest of a string in JSON after the opening quote: its content, and the text after the closing quote. Control characters must be escaped. Of the
escapes by number those below 128 are understood. -/
def literal : Str → Option (Str × Str)
  | [] => none
  | '"' :: l => some ([], l)
  | '\\' :: 'u' :: '0' :: '0' :: x :: y :: l => do
    let a ← hexValue x
    let b ← hexValue y
    let r ← literal l
    if a < 8 then some (Char.ofNat (16 * a + b) :: r.1, r.2) else none
  | '\\' :: c :: l => do
    let a ← short c
    let r ← literal l
    some (a :: r.1, r.2)
  | c :: l => do
    let r ← literal l
    if c.toNat < 32 ∨ c = '\\' then none else some (c :: r.1, r.2)

/-- Blanks between the parts. -/
def skip (s : Str) : Str := s.dropWhile fun c => c = ' ' ∨ c = '\t' ∨ c = '\n' ∨ c = '\r'

def value : Str → Option (Value × Str)
  | '"' :: l => (literal l).map fun r => (.str r.1, r.2)
  | '-' :: l => (Dag.Spec.number l).map fun r => (.num (-(r.1 : Int)), r.2)
  | l => (Dag.Spec.number l).map fun r => (.num r.1, r.2)

/-- The members of an object after the opening brace, up to the end of the text. -/
def members : Nat → Str → Option (List (Str × Value))
  | 0, _ => none
  | n + 1, t =>
    match skip t with
    | '"' :: t => do
      let k ← literal t
      match skip k.2 with
      | ':' :: t => do
        let v ← value (skip t)
        match skip v.2 with
        | ',' :: t => do
          let r ← members n t
          some ((k.1, v.1) :: r)
        | '}' :: t => if skip t = [] then some [(k.1, v.1)] else none
        | _ => none
      | _ => none
    | _ => none

/-- Reading an object. -/
def object (t : Str) : Option (List (Str × Value)) :=
  match skip t with
  | '{' :: t => members t.length t
  | _ => none

end Verif.FromStrings.Spec

namespace Verif.FromStrings
open Verif.FromStrings.Spec

/-! ## Escapes -/

theorem literal_plain {c : Char} (l : Str) (h1 : c ≠ '"') (h2 : c ≠ '\\') (h3 : 32 ≤ c.toNat) :
    literal (c :: l) = (literal l).bind fun r => some (c :: r.1, r.2) := by
  rw [literal]
  · cases literal l with
    | none => rfl
    | some r => simp [h2]; omega
  · exact h1
  · intro x y l' h; exact absurd h h2
  · intro c' l' h; exact absurd h h2

theorem hex_value : ∀ k < 16, hexValue (hexDigit k) = some k := by decide

theorem literal_short {c a : Char} (l : Str) (hu : c ≠ 'u') (h : short c = some a) : literal ('\\' :: c :: l) = (literal l).bind fun r => some (a :: r.1, r.2) := by
  rw [literal]
  · rw [h]; rfl
  · intro x y l' h; exact absurd h hu

theorem literal_ascii (c : Char) (l : Str) (hc : c.toNat < 128) : literal (escapeAscii c ++ l) = (literal l).bind fun r => some (c :: r.1, r.2) := by
  unfold escapeAscii
  split
  · subst c; exact literal_short l (by decide) rfl
  split
  · subst c; exact literal_short l (by decide) rfl
  split
  · subst c; exact literal_short l (by decide) rfl
  split
  · subst c; exact literal_short l (by decide) rfl
  split
  · subst c; exact literal_short l (by decide) rfl
  split
  · subst c; exact literal_short l (by decide) rfl
  split
  · subst c; exact literal_short l (by decide) rfl
  split
  · rename_i h
    show literal ('\\' :: 'u' :: '0' :: '0' :: hexDigit (c.toNat / 16) :: hexDigit (c.toNat % 16) :: l) = _
    rw [literal, hex_value _ (by omega), hex_value _ (by omega)]
    show (literal l).bind _ = _
    congr 1
    funext r
    rw [if_pos (by omega), show 16 * (c.toNat / 16) + c.toNat % 16 = c.toNat by omega, Char.ofNat_toNat]
  · rename_i h1 h2 h3
    exact literal_plain l h1 h2 (by omega)

theorem literal_high {c : Char} (l : Str) (h : 128 ≤ c.toNat) : literal (c :: l) = (literal l).bind fun r => some (c :: r.1, r.2) :=
  literal_plain l (by rintro rfl; revert h; decide) (by rintro rfl; revert h; decide) (by omega)

theorem within_iff {lo hi : Nat} {c : Char} : within lo hi c = true ↔ lo ≤ c.toNat ∧ c.toNat ≤ hi := by unfold within; simp

theorem two_high {a b : Char} (h : two a b = true) : 128 ≤ a.toNat ∧ 128 ≤ b.toNat := by
  simp only [two, Bool.and_eq_true, within_iff] at h; omega

theorem three_high {a b c : Char} (h : three a b c = true) : 128 ≤ a.toNat ∧ 128 ≤ b.toNat ∧ 128 ≤ c.toNat := by
  simp only [three, Bool.and_eq_true, Bool.or_eq_true, within_iff] at h; omega

theorem four_high {a b c d : Char} (h : four a b c d = true) : 128 ≤ a.toNat ∧ 128 ≤ b.toNat ∧ 128 ≤ c.toNat ∧ 128 ≤ d.toNat := by
  simp only [four, Bool.and_eq_true, Bool.or_eq_true, within_iff] at h; omega

/-- What is written for a string is read as that string. -/
theorem literal_escape (t : Str) : ∀ e, escape t = .ok e → ∀ l, literal (e ++ '"' :: l) = some (t, l) := by
  fun_induction escape t with
  | case1 => intro e h l; cases h; rfl
  | case2 a t ha ih =>
    intro e h l
    obtain ⟨r, hr, h⟩ := Outcome.bind_eq_ok.1 h
    cases h
    rw [List.append_assoc, literal_ascii _ _ ha, ih r hr]; rfl
  | case3 => intro e h; cases h
  | case4 a ha b t hb ih =>
    intro e h l
    obtain ⟨r, hr, h⟩ := Outcome.bind_eq_ok.1 h
    cases h
    have := two_high hb
    rw [List.cons_append, List.cons_append, literal_high _ (by omega), literal_high _ (by omega), ih r hr]; rfl
  | case5 => intro e h; cases h
  | case6 a ha b hb c t hc ih =>
    intro e h l
    obtain ⟨r, hr, h⟩ := Outcome.bind_eq_ok.1 h
    cases h
    have := three_high hc
    rw [List.cons_append, List.cons_append, List.cons_append, literal_high _ (by omega), literal_high _ (by omega), literal_high _ (by omega), ih r hr]; rfl
  | case7 => intro e h; cases h
  | case8 a ha b hb c hc d t hd ih =>
    intro e h l
    obtain ⟨r, hr, h⟩ := Outcome.bind_eq_ok.1 h
    cases h
    have := four_high hd
    rw [List.cons_append, List.cons_append, List.cons_append, List.cons_append, literal_high _ (by omega), literal_high _ (by omega), literal_high _ (by omega),
      literal_high _ (by omega), ih r hr]; rfl
  | case9 => intro e h; cases h

/-! ## UTF-8 -/

/-- The bytes of the character with the given code. -/
def encoded (v : Nat) : Str :=
  if v ≤ 0x7f then [Char.ofNat v]
  else if v ≤ 0x7ff then [Char.ofNat (v / 64 % 0x20 + 0xc0), Char.ofNat (v % 0x40 + 0x80)]
  else if v ≤ 0xffff then [Char.ofNat (v / 4096 % 0x10 + 0xe0), Char.ofNat (v / 64 % 0x40 + 0x80), Char.ofNat (v % 0x40 + 0x80)]
  else [Char.ofNat (v / 262144 % 0x08 + 0xf0), Char.ofNat (v / 4096 % 0x40 + 0x80), Char.ofNat (v / 64 % 0x40 + 0x80), Char.ofNat (v % 0x40 + 0x80)]

theorem byte_ofNat {n : Nat} (h : n < 256) : byte (UInt8.ofNat n) = Char.ofNat n := by
  unfold byte
  rw [UInt8.toNat_ofNat', Nat.mod_eq_of_lt (by simpa using h)]

theorem bytes_eq (c : Char) : (String.utf8EncodeChar c).map byte = encoded c.toNat := by
  show _ = encoded c.val.toNat
  unfold String.utf8EncodeChar encoded
  generalize c.val.toNat = v
  dsimp only
  by_cases h1 : v ≤ 0x7f
  · rw [if_pos h1, if_pos h1, List.map_cons, List.map_nil, byte_ofNat (by omega)]
  rw [if_neg h1, if_neg h1]
  by_cases h2 : v ≤ 0x7ff
  · rw [if_pos h2, if_pos h2]
    simp only [List.map_cons, List.map_nil]
    rw [byte_ofNat (by omega), byte_ofNat (by omega)]
  rw [if_neg h2, if_neg h2]
  by_cases h3 : v ≤ 0xffff
  · rw [if_pos h3, if_pos h3]
    simp only [List.map_cons, List.map_nil]
    rw [byte_ofNat (by omega), byte_ofNat (by omega), byte_ofNat (by omega)]
  · rw [if_neg h3, if_neg h3]
    simp only [List.map_cons, List.map_nil]
    rw [byte_ofNat (by omega), byte_ofNat (by omega), byte_ofNat (by omega), byte_ofNat (by omega)]

theorem code_ofNat {n : Nat} (h : n.isValidChar) : (Char.ofNat n).toNat = n := by
  unfold Char.ofNat; rw [dif_pos h]; rfl

theorem code_small {n : Nat} (h : n < 256) : (Char.ofNat n).toNat = n := code_ofNat (Or.inl (by omega))

/-- The decoder passes the encoding of a character. -/
theorem escape_encoded (c : Char) (l : Str) (e : Str) (h : escape l = .ok e) : ∃ e', escape (encoded c.toNat ++ l) = .ok e' := by
  have hv : c.toNat.isValidChar := c.valid
  unfold Nat.isValidChar at hv
  unfold encoded
  split
  · rename_i h1
    rw [List.singleton_append, escape.eq_def]
    dsimp only
    rw [code_small (by omega), if_pos (by omega), h]
    exact ⟨_, rfl⟩
  split
  · rename_i h1 h2
    have e1 := code_small (n := c.toNat / 64 % 0x20 + 0xc0) (by omega)
    have e2 := code_small (n := c.toNat % 0x40 + 0x80) (by omega)
    generalize Char.ofNat (c.toNat / 64 % 0x20 + 0xc0) = x at *
    generalize Char.ofNat (c.toNat % 0x40 + 0x80) = y at *
    rw [List.cons_append, List.singleton_append, escape.eq_def]
    dsimp only
    rw [if_neg (by omega), if_pos (by simp only [two, Bool.and_eq_true, within_iff]; omega), h]
    exact ⟨_, rfl⟩
  split
  · rename_i h1 h2 h3
    have e1 := code_small (n := c.toNat / 4096 % 0x10 + 0xe0) (by omega)
    have e2 := code_small (n := c.toNat / 64 % 0x40 + 0x80) (by omega)
    have e3 := code_small (n := c.toNat % 0x40 + 0x80) (by omega)
    generalize Char.ofNat (c.toNat / 4096 % 0x10 + 0xe0) = x at *
    generalize Char.ofNat (c.toNat / 64 % 0x40 + 0x80) = y at *
    generalize Char.ofNat (c.toNat % 0x40 + 0x80) = z at *
    show ∃ e', escape (x :: y :: z :: l) = _
    rw [escape.eq_def]
    dsimp only
    rw [if_neg (by omega), if_neg (by simp only [two, Bool.and_eq_true, within_iff]; omega),
      if_pos (by simp only [three, Bool.and_eq_true, Bool.or_eq_true, within_iff]; omega), h]
    exact ⟨_, rfl⟩
  · rename_i h1 h2 h3
    have e1 := code_small (n := c.toNat / 262144 % 0x08 + 0xf0) (by omega)
    have e2 := code_small (n := c.toNat / 4096 % 0x40 + 0x80) (by omega)
    have e3 := code_small (n := c.toNat / 64 % 0x40 + 0x80) (by omega)
    have e4 := code_small (n := c.toNat % 0x40 + 0x80) (by omega)
    generalize Char.ofNat (c.toNat / 262144 % 0x08 + 0xf0) = w at *
    generalize Char.ofNat (c.toNat / 4096 % 0x40 + 0x80) = x at *
    generalize Char.ofNat (c.toNat / 64 % 0x40 + 0x80) = y at *
    generalize Char.ofNat (c.toNat % 0x40 + 0x80) = z at *
    show ∃ e', escape (w :: x :: y :: z :: l) = _
    rw [escape.eq_def]
    dsimp only
    rw [if_neg (by omega), if_neg (by simp only [two, Bool.and_eq_true, within_iff]; omega),
      if_neg (by simp only [three, Bool.and_eq_true, Bool.or_eq_true, within_iff]; omega),
      if_pos (by simp only [four, Bool.and_eq_true, Bool.or_eq_true, within_iff]; omega), h]
    exact ⟨_, rfl⟩

theorem encoded_valid {v : Nat} (h : v.isValidChar) (t : Str) (ht : Utf8 t) : Utf8 (encoded v ++ t) := by
  obtain ⟨u, rfl⟩ := ht
  refine ⟨Char.ofNat v :: u, ?_⟩
  rw [List.flatMap_cons, bytes_eq, code_ofNat h]

theorem ofNat_eq {c : Char} {n : Nat} (h : n = c.toNat) : Char.ofNat n = c := by rw [h, Char.ofNat_toNat]

theorem utf8_of_escape (t : Str) : ∀ e, escape t = .ok e → Utf8 t := by
  fun_induction escape t with
  | case1 => intro e h; exact ⟨[], rfl⟩
  | case2 a t ha ih =>
    intro e h
    obtain ⟨r, hr, h⟩ := Outcome.bind_eq_ok.1 h
    have := encoded_valid (v := a.toNat) a.valid t (ih r hr)
    rwa [encoded, if_pos (by omega), Char.ofNat_toNat] at this
  | case3 => intro e h; cases h
  | case4 a ha b t hb ih =>
    intro e h
    obtain ⟨r, hr, h⟩ := Outcome.bind_eq_ok.1 h
    simp only [two, Bool.and_eq_true, within_iff] at hb
    have := encoded_valid (v := (a.toNat - 0xc0) * 64 + (b.toNat - 0x80)) (Or.inl (by omega)) t (ih r hr)
    rwa [encoded, if_neg (by omega), if_pos (by omega), ofNat_eq (c := a) (by omega), ofNat_eq (c := b) (by omega)] at this
  | case5 => intro e h; cases h
  | case6 a ha b hb c t hc ih =>
    intro e h
    obtain ⟨r, hr, h⟩ := Outcome.bind_eq_ok.1 h
    simp only [three, Bool.and_eq_true, Bool.or_eq_true, within_iff] at hc
    have := encoded_valid (v := (a.toNat - 0xe0) * 4096 + (b.toNat - 0x80) * 64 + (c.toNat - 0x80)) (by unfold Nat.isValidChar; omega) t (ih r hr)
    rwa [encoded, if_neg (by omega), if_neg (by omega), if_pos (by omega), ofNat_eq (c := a) (by omega), ofNat_eq (c := b) (by omega),
      ofNat_eq (c := c) (by omega)] at this
  | case7 => intro e h; cases h
  | case8 a ha b hb c hc d t hd ih =>
    intro e h
    obtain ⟨r, hr, h⟩ := Outcome.bind_eq_ok.1 h
    simp only [four, Bool.and_eq_true, Bool.or_eq_true, within_iff] at hd
    have := encoded_valid (v := (a.toNat - 0xf0) * 262144 + (b.toNat - 0x80) * 4096 + (c.toNat - 0x80) * 64 + (d.toNat - 0x80))
      (by unfold Nat.isValidChar; omega) t (ih r hr)
    rwa [encoded, if_neg (by omega), if_neg (by omega), if_neg (by omega), ofNat_eq (c := a) (by omega), ofNat_eq (c := b) (by omega),
      ofNat_eq (c := c) (by omega), ofNat_eq (c := d) (by omega)] at this
  | case9 => intro e h; cases h

theorem escape_of_utf8 {t : Str} (h : Utf8 t) : ∃ e, escape t = .ok e := by
  obtain ⟨u, rfl⟩ := h
  induction u with
  | nil => exact ⟨[], rfl⟩
  | cons c u ih =>
    obtain ⟨e, he⟩ := ih
    rw [List.flatMap_cons, bytes_eq]
    exact escape_encoded c _ e he

theorem escape_ub (t : Str) : escape t ≠ .ub := by
  fun_induction escape t with
  | case1 => intro h; cases h
  | case2 a t ha ih => revert ih; cases escape t <;> intro ih h <;> first | exact ih rfl | cases h
  | case3 => intro h; cases h
  | case4 a ha b t hb ih => revert ih; cases escape t <;> intro ih h <;> first | exact ih rfl | cases h
  | case5 => intro h; cases h
  | case6 a ha b hb c t hc ih => revert ih; cases escape t <;> intro ih h <;> first | exact ih rfl | cases h
  | case7 => intro h; cases h
  | case8 a ha b hb c hc d t hd ih => revert ih; cases escape t <;> intro ih h <;> first | exact ih rfl | cases h
  | case9 => intro h; cases h

theorem escape_throws {t : Str} (h : ¬ Utf8 t) : escape t = .throws := by
  cases he : escape t with
  | ok e => exact absurd (utf8_of_escape t e he) h
  | throws => rfl
  | ub => exact absurd he (escape_ub t)

theorem utf8_ascii {t : Str} (h : ∀ c ∈ t, c.toNat < 128) : Utf8 t := by
  refine ⟨t, ?_⟩
  induction t with
  | nil => rfl
  | cons c t ih =>
    rw [List.flatMap_cons, bytes_eq, encoded, if_pos (by have := h c (by simp); omega), Char.ofNat_toNat, List.singleton_append, ← ih fun x hx => h x (by simp [hx])]

theorem utf8_append {a b : Str} (ha : Utf8 a) (hb : Utf8 b) : Utf8 (a ++ b) := by
  obtain ⟨u, rfl⟩ := ha
  obtain ⟨v, rfl⟩ := hb
  exact ⟨u ++ v, by rw [List.flatMap_append]⟩

/-! ## The object -/

theorem value_str {e t : Str} (h : escape t = .ok e) (l : Str) : value ('"' :: (e ++ '"' :: l)) = some (.str t, l) := by
  rw [value, literal_escape t e h]; rfl

theorem value_num (z : Int) (l : Str) (hl : ∀ c r, l = c :: r → isDigit c = false) : value (showInt z ++ l) = some (.num z, l) := by
  unfold showInt
  split
  · rename_i h
    rw [List.cons_append]
    rw [value, Dag.number_show _ _ hl]
    show some (Value.num _, l) = _
    congr 3
    omega
  · rename_i h
    have hd := Lli.showNat_digits z.natAbs
    have hn := Dag.number_show z.natAbs l hl
    cases hs : showNat z.natAbs with
    | nil => exact absurd hs (Lli.showNat_ne_nil _)
    | cons c cs =>
      rw [hs] at hd hn
      have hc := hd c (by simp)
      rw [List.cons_append] at hn ⊢
      rw [value, hn]
      · show some (Value.num _, l) = _
        congr 3
        omega
      · intro l' h; injection h with h _; subst h; revert hc; decide
      · intro l' h; injection h with h _; subst h; revert hc; decide

theorem skip_cons {c : Char} (l : Str) (h1 : c ≠ ' ') (h2 : c ≠ '\t') (h3 : c ≠ '\n') (h4 : c ≠ '\r') : skip (c :: l) = c :: l := by
  unfold skip
  rw [List.dropWhile_cons, if_neg (by simp [h1, h2, h3, h4])]

theorem skip_show (z : Int) (l : Str) : skip (showInt z ++ l) = showInt z ++ l := by
  cases hs : showInt z ++ l with
  | nil => rfl
  | cons c cs =>
    have : isDigit c = true ∨ c = '-' := Qasm.digit_sign_ne hs
    rcases this with h | rfl
    · exact skip_cons _ (by rintro rfl; revert h; decide) (by rintro rfl; revert h; decide) (by rintro rfl; revert h; decide) (by rintro rfl; revert h; decide)
    · exact skip_cons _ (by decide) (by decide) (by decide) (by decide)

theorem escape_plain (t : Str) (h : ∀ c ∈ t, 32 ≤ c.toNat ∧ c.toNat < 128 ∧ c ≠ '"' ∧ c ≠ '\\') : escape t = .ok t := by
  induction t with
  | nil => rfl
  | cons c t ih =>
    have hc := h c (by simp)
    have hn : ∀ x : Char, x.toNat < 32 → c ≠ x := by rintro x hx rfl; omega
    rw [escape.eq_def]
    dsimp only
    rw [if_pos hc.2.1, ih fun x hx => h x (by simp [hx])]
    unfold escapeAscii
    rw [if_neg (hn _ (by decide)), if_neg (hn _ (by decide)), if_neg (hn _ (by decide)), if_neg (hn _ (by decide)), if_neg (hn _ (by decide)),
      if_neg hc.2.2.1, if_neg hc.2.2.2, if_neg (by omega)]
    rfl

theorem members_more {n : Nat} {k k' : Str} {v : Value} {x l : Str} (hk : escape k = .ok k') (hx : skip x = x) (hv : value x = some (v, ',' :: l)) :
    members (n + 1) ("\n   \"".toList ++ k' ++ "\": ".toList ++ x) = (members n l).bind fun r => some ((k, v) :: r) := by
  rw [members, show skip ("\n   \"".toList ++ k' ++ "\": ".toList ++ x) = '"' :: (k' ++ '"' :: ':' :: ' ' :: x) by
    rw [List.append_assoc, List.append_assoc]; rfl]
  show (literal (k' ++ '"' :: ':' :: ' ' :: x)).bind _ = _
  rw [literal_escape k k' hk]
  show (value (skip (' ' :: x))).bind _ = _
  rw [show skip (' ' :: x) = x from hx, hv]
  rfl

theorem members_last {n : Nat} {k k' : Str} {v : Value} {x : Str} (hk : escape k = .ok k') (hx : skip x = x) (hv : value x = some (v, "\n}".toList)) :
    members (n + 1) ("\n   \"".toList ++ k' ++ "\": ".toList ++ x) = some [(k, v)] := by
  rw [members, show skip ("\n   \"".toList ++ k' ++ "\": ".toList ++ x) = '"' :: (k' ++ '"' :: ':' :: ' ' :: x) by
    rw [List.append_assoc, List.append_assoc]; rfl]
  show (literal (k' ++ '"' :: ':' :: ' ' :: x)).bind _ = _
  rw [literal_escape k k' hk]
  show (value (skip (' ' :: x))).bind _ = _
  rw [show skip (' ' :: x) = x from hx, hv]
  rfl

theorem object_dump {m u e o : Str} {z : Int} (he : escape m = .ok e) (ho : escape u = .ok o) :
    object ("{\n   \"err\": \"".toList ++ e ++ "\",\n   \"exit_code\": ".toList ++ showInt z ++ ",\n   \"output\": \"".toList ++ o ++ "\"\n}".toList) =
      some [("err".toList, .str m), ("exit_code".toList, .num z), ("output".toList, .str u)] := by
  have e3 : ",\n   \"output\": \"".toList ++ o ++ "\"\n}".toList = ',' :: ("\n   \"".toList ++ "output".toList ++ "\": ".toList ++ '"' :: (o ++ '"' :: "\n}".toList)) := by
    rw [List.append_assoc, List.append_assoc, List.append_assoc]; rfl
  have e2 : "\",\n   \"exit_code\": ".toList ++ (showInt z ++ (",\n   \"output\": \"".toList ++ o ++ "\"\n}".toList)) =
      '"' :: ',' :: ("\n   \"".toList ++ "exit_code".toList ++ "\": ".toList ++ (showInt z ++ ',' :: ("\n   \"".toList ++ "output".toList ++ "\": ".toList ++ '"' :: (o ++ '"' :: "\n}".toList)))) := by
    rw [e3, List.append_assoc, List.append_assoc]; rfl
  have e1 : "{\n   \"err\": \"".toList ++ e ++ "\",\n   \"exit_code\": ".toList ++ showInt z ++ ",\n   \"output\": \"".toList ++ o ++ "\"\n}".toList =
      '{' :: ("\n   \"".toList ++ "err".toList ++ "\": ".toList ++ '"' :: (e ++ '"' :: ',' :: ("\n   \"".toList ++ "exit_code".toList ++ "\": ".toList ++ (showInt z ++ ',' :: ("\n   \"".toList ++ "output".toList ++ "\": ".toList ++ '"' :: (o ++ '"' :: "\n}".toList)))))) := by
    rw [← e2]
    simp only [List.append_assoc]
    rfl
  rw [e1]
  show members _ _ = _
  obtain ⟨n, hn⟩ : ∃ n, ("\n   \"".toList ++ "err".toList ++ "\": ".toList ++ '"' :: (e ++ '"' :: ',' :: ("\n   \"".toList ++ "exit_code".toList ++ "\": ".toList ++ (showInt z ++ ',' :: ("\n   \"".toList ++ "output".toList ++ "\": ".toList ++ '"' :: (o ++ '"' :: "\n}".toList)))))).length = n + 1 + 1 + 1 := by
    rw [List.append_assoc, List.append_assoc, List.length_append]
    exact ⟨_, by rw [show "\n   \"".toList.length = 5 from rfl, Nat.add_comm]⟩
  rw [hn, members_more (escape_plain "err".toList (by decide)) (skip_cons _ (by decide) (by decide) (by decide) (by decide)) (value_str he _),
    members_more (escape_plain "exit_code".toList (by decide)) (skip_show z _) (value_num z _ (by intro c r h; injection h with h _; subst h; decide)),
    members_last (escape_plain "output".toList (by decide)) (skip_cons _ (by decide) (by decide) (by decide) (by decide)) (value_str ho _)]
  rfl

theorem dump_ok {r : Run} (h1 : Utf8 r.messages) (h2 : Utf8 r.output) :
    ∃ t, r.dump = .ok t ∧ object t = some [("err".toList, .str r.messages), ("exit_code".toList, .num r.code), ("output".toList, .str r.output)] := by
  obtain ⟨e, he⟩ := escape_of_utf8 h1
  obtain ⟨o, ho⟩ := escape_of_utf8 h2
  exact ⟨_, by unfold Run.dump; rw [he, ho]; rfl, object_dump he ho⟩

theorem dump_throws {r : Run} (h : ¬ (Utf8 r.messages ∧ Utf8 r.output)) : r.dump = .throws := by
  unfold Run.dump
  by_cases h1 : Utf8 r.messages
  · obtain ⟨e, he⟩ := escape_of_utf8 h1
    rw [he, escape_throws fun h2 => h ⟨h1, h2⟩]; rfl
  · rw [escape_throws h1]; rfl

theorem utf8_after {x : Char} (hx : x.toNat < 128) {q : Str} : ∀ (u : List Char) (p : Str), (u.flatMap fun c => (String.utf8EncodeChar c).map byte) = p ++ x :: q → Utf8 q := by
  intro u
  induction u with
  | nil => intro p h; simp at h
  | cons c u ih =>
    intro p h
    rw [List.flatMap_cons, bytes_eq, List.append_eq_append_iff] at h
    rcases h with ⟨p', rfl, h⟩ | ⟨p', h1, h2⟩
    · exact ih p' h
    · cases p' with
      | nil => exact ih [] h2.symm
      | cons y p' =>
        rw [List.cons_append] at h2
        injection h2 with h2 h3
        subst h2
        have hm : x ∈ encoded c.toNat := by rw [h1]; simp
        unfold encoded at hm h1
        split at h1
        · have := congrArg List.length h1
          simp at this
          have : p' = [] := List.eq_nil_of_length_eq_zero (by omega)
          subst this
          exact ⟨u, h3⟩
        · rename_i h0
          exfalso
          rw [if_neg h0] at hm
          have big : ∀ n, 128 ≤ n → n < 256 → x ≠ Char.ofNat n := by
            rintro n h1 h2 rfl
            rw [code_small h2] at hx; omega
          split at hm
          · simp only [List.mem_cons, List.not_mem_nil, or_false] at hm
            rcases hm with hm | hm <;> exact big _ (by omega) (by omega) hm
          split at hm
          · simp only [List.mem_cons, List.not_mem_nil, or_false] at hm
            rcases hm with hm | hm | hm <;> exact big _ (by omega) (by omega) hm
          · simp only [List.mem_cons, List.not_mem_nil, or_false] at hm
            rcases hm with hm | hm | hm | hm <;> exact big _ (by omega) (by omega) hm

/-- A byte above 127 between two below is not UTF-8. -/
theorem not_utf8 {a b c : Char} {p q : Str} (ha : a.toNat < 128) (hb : 128 ≤ b.toNat) (hc : c.toNat < 128) : ¬ Utf8 (p ++ a :: b :: c :: q) := by
  rintro ⟨u, hu⟩
  obtain ⟨e, he⟩ := escape_of_utf8 (utf8_after ha u p hu.symm)
  rw [escape.eq_def] at he
  dsimp only at he
  rw [if_neg (by omega), if_neg (by simp only [two, Bool.and_eq_true, within_iff]; omega)] at he
  rcases q with _ | ⟨d, _ | ⟨f, q⟩⟩
  · cases he
  · dsimp only at he
    rw [if_neg (by simp only [three, Bool.and_eq_true, Bool.or_eq_true, within_iff]; omega)] at he
    cases he
  · dsimp only at he
    rw [if_neg (by simp only [three, Bool.and_eq_true, Bool.or_eq_true, within_iff]; omega),
      if_neg (by simp only [four, Bool.and_eq_true, Bool.or_eq_true, within_iff]; omega)] at he
    cases he

theorem cStr_free {s : Str} (h : '\x00' ∉ s) : cStr s = s := by
  unfold cStr
  induction s with
  | nil => rfl
  | cons c s ih =>
    rw [List.takeWhile_cons, if_pos (by simp; rintro rfl; exact h (by simp)), ih fun hm => h (by simp [hm])]

theorem cStr_null (s : Str) : '\x00' ∉ cStr s := by
  unfold cStr
  induction s with
  | nil => simp
  | cons c s ih =>
    rw [List.takeWhile_cons]
    split
    · rename_i h
      simp only [ne_eq, decide_not, Bool.not_eq_eq_eq_not, Bool.not_true, decide_eq_false_iff_not] at h
      simp only [List.mem_cons, not_or]
      exact ⟨fun e => h e.symm, ih⟩
    · simp

theorem cStr_mem {s : Str} {c : Char} (h : c ∈ cStr s) : c ∈ s := (List.takeWhile_prefix _).subset h

theorem intercalate_nil {words : List Str} {d : Char} (h0 : words ≠ []) (h : List.intercalate [d] words = []) : words = [[]] := by
  match words, h0 with
  | [w], _ => simpa [List.intercalate] using h
  | a :: b :: l, _ => simp [List.intercalate, List.intersperse] at h

/-! ## Drawings -/

section
open Verif.Json

/-- Bytes below 128 only. -/
def Ascii (t : Str) : Prop := ∀ c ∈ t, c.toNat < 128

theorem ascii_append {a b : Str} (ha : Ascii a) (hb : Ascii b) : Ascii (a ++ b) := by
  intro c hc
  rcases List.mem_append.1 hc with h | h
  · exact ha c h
  · exact hb c h

theorem ascii_cons {x : Char} {b : Str} (ha : x.toNat < 128) (hb : Ascii b) : Ascii (x :: b) := by
  intro c hc
  rcases List.mem_cons.1 hc with rfl | h
  · exact ha
  · exact hb c h

theorem ascii_plain {t : Str} (h : PlainStr t) : Ascii t := fun c hc => (h c hc).2.2.2

theorem ascii_spaces (n : Nat) : Ascii (spaces n) := by
  intro c hc
  rw [List.eq_of_mem_replicate hc]; decide

instance (t : Str) : Decidable (Ascii t) := inferInstanceAs (Decidable (∀ c ∈ t, c.toNat < 128))

mutual

theorem ascii_dump : ∀ (j : Json.Json) (ind : Nat), Clean j → Ascii (Json.dump ind j)
  | .null, ind, _ => by unfold Json.dump; decide
  | .str s, ind, h => by
    unfold Clean at h
    unfold Json.dump
    exact ascii_cons (by decide) (ascii_append (ascii_plain h) (by decide))
  | .arr [], ind, _ => by unfold Json.dump; decide
  | .arr (x :: xs), ind, h => by
    unfold Clean CleanItems at h
    unfold Json.dump
    exact ascii_append (ascii_append (ascii_append (ascii_append (ascii_append (by decide) (ascii_spaces _)) (ascii_dump x _ h.1)) (ascii_items xs _ h.2))
      (ascii_cons (by decide) (ascii_spaces _))) (by decide)
  | .obj [], ind, _ => by unfold Json.dump; decide
  | .obj ((k, x) :: xs), ind, h => by
    unfold Clean CleanMembers at h
    unfold Json.dump
    exact ascii_append (ascii_append (ascii_append (ascii_append (ascii_append (ascii_append (by decide) (ascii_spaces _))
      (ascii_append (ascii_cons (by decide) (ascii_plain h.1)) (by decide))) (ascii_dump x _ h.2.1)) (ascii_members xs _ h.2.2))
      (ascii_cons (by decide) (ascii_spaces _))) (by decide)

theorem ascii_items : ∀ (l : List Json.Json) (ind : Nat), CleanItems l → Ascii (dumpItems ind l)
  | [], ind, _ => by unfold dumpItems; decide
  | x :: xs, ind, h => by
    unfold CleanItems at h
    unfold dumpItems
    exact ascii_append (ascii_append (ascii_append (by decide) (ascii_spaces _)) (ascii_dump x _ h.1)) (ascii_items xs _ h.2)

theorem ascii_members : ∀ (l : List (Str × Json.Json)) (ind : Nat), CleanMembers l → Ascii (dumpMembers ind l)
  | [], ind, _ => by unfold dumpMembers; decide
  | (k, x) :: xs, ind, h => by
    unfold CleanMembers at h
    unfold dumpMembers
    exact ascii_append (ascii_append (ascii_append (ascii_append (by decide) (ascii_spaces _)) (ascii_append (ascii_cons (by decide) (ascii_plain h.1)) (by decide)))
      (ascii_dump x _ h.2.1)) (ascii_members xs _ h.2.2)

end

theorem ascii_written {L : Layout} : ∀ {ss : List DSlice} {b : Bool} {t : Str}, (∀ s ∈ ss, Json.Spec.Drawable L s) → written L ss b = .ok t → Ascii t
  | [], b, t, _, h => by cases h; decide
  | s :: ss, b, t, hd, h => by
    obtain ⟨j, h1, h2⟩ := Json.Spec.slice_clean (hd s (by simp))
    rw [written, h1, Outcome.bind_ok] at h
    obtain ⟨r, hr, h⟩ := Outcome.bind_eq_ok.1 h
    cases h
    refine ascii_append (ascii_append ?_ (ascii_dump j 0 h2)) (ascii_written (fun x hx => hd x (by simp [hx])) hr)
    cases b <;> decide

end

namespace Spec

/-- **C76** (arguments). The words of a command line that are separated by single spaces arrive as the arguments, empty words too. -/
theorem c76_words (words : List Str) (h0 : words ≠ []) (h1 : words ≠ [[]]) (h : ∀ w ∈ words, ' ' ∉ w ∧ '\x00' ∉ w) :
    arguments (List.intercalate [' '] words) = words := by
  have hs : List.intercalate [' '] words ≠ [] := fun e => h1 (intercalate_nil h0 e)
  unfold arguments
  rw [((Verif.Spec.c01_split _ ' ').1 hs words).2 ⟨h0, fun w hw => (h w hw).1, rfl⟩]
  conv_rhs => rw [← List.map_id words]
  apply List.map_congr_left
  intro w hw
  exact cStr_free (h w hw).2

/-- **C76** (arguments). No argument holds a space, whatever the command line: the name of a file with a space in it cannot be given. -/
theorem c76_no_space (command : Str) : ∀ w ∈ arguments command, ' ' ∉ w ∧ '\x00' ∉ w := by
  intro w hw
  unfold arguments at hw
  obtain ⟨x, hx, rfl⟩ := List.mem_map.1 hw
  constructor
  · intro h
    by_cases hs : command = []
    · subst hs; cases hx
    · exact (((Verif.Spec.c01_split _ ' ').1 hs _).1 rfl).2.1 x hx (cStr_mem h)
  · intro h
    exact cStr_null x h

/-- **C76** (package for web pages). The arguments made by the package: with no layout generator or with LLI, an empty argument takes the place of the option. -/
theorem c76_npm (generator : Str) (qasm always : Bool) (h : ' ' ∉ generator ∧ '\x00' ∉ generator) :
    arguments (npmCommand generator qasm always) =
      (if generator = [] then [[]] else ["-L".toList, generator]) ++ (if qasm then ["-I".toList, "qasm".toList] else [[]]) ++
        ["--cnotcorrections".toList, if always then "always".toList else "never".toList] := by
  by_cases hn : generator = []
  · subst hn
    cases qasm <;> cases always <;> decide
  rw [if_neg hn]
  have e : npmCommand generator qasm always = List.intercalate [' '] (["-L".toList, generator] ++ (if qasm then ["-I".toList, "qasm".toList] else [[]]) ++
      ["--cnotcorrections".toList, if always then "always".toList else "never".toList]) := by
    unfold npmCommand
    rw [if_neg hn]
    cases qasm <;> cases always <;> simp [join, List.intercalate, List.intersperse]
  rw [e]
  apply c76_words
  · simp
  · simp
  · intro w hw
    simp only [List.mem_append, List.mem_cons, List.not_mem_nil, or_false] at hw
    rcases hw with ((rfl | rfl) | hw) | rfl | rfl
    · decide
    · exact h
    · cases qasm
      · simp at hw; subst hw; decide
      · simp only [if_true, List.mem_cons, List.not_mem_nil, or_false] at hw
        rcases hw with rfl | rfl <;> decide
    · decide
    · cases always <;> decide

/-- **C76** (reply). A program that returns: a reader of JSON gets both texts and the exit code. -/
theorem c76_returned (p : Prog) (command input output err : Str) (n : Int) (hr : p (arguments command) input = .ok ⟨output, err, .returned n⟩)
    (ho : Utf8 output) (he : Utf8 err) :
    ∃ t, reply p command input = .ok t ∧ object t = some [("err".toList, .str err), ("exit_code".toList, .num n), ("output".toList, .str output)] := by
  have := dump_ok (r := ⟨output, err, .returned n⟩) he ho
  unfold reply
  rw [hr]
  exact this

/-- **C76** (reply). A program that throws: the exit code is 100 and the text of the exception is the last line of the messages. -/
theorem c76_exception (p : Prog) (command input output err what : Str) (hr : p (arguments command) input = .ok ⟨output, err, .exception what⟩)
    (ho : Utf8 output) (he : Utf8 err) (hw : Utf8 what) :
    ∃ t, reply p command input = .ok t ∧
      object t = some [("err".toList, .str (err ++ "Compiler exception: ".toList ++ what ++ ['\n'])), ("exit_code".toList, .num 100), ("output".toList, .str output)] := by
  have := dump_ok (r := ⟨output, err, .exception what⟩) (utf8_append (utf8_append (utf8_append he (utf8_ascii (by decide))) hw) (utf8_ascii (by decide))) ho
  unfold reply
  rw [hr]
  exact this

/-- **C76** (reply). If the output of the program is not UTF-8 there is no reply: the interface throws itself, which nothing catches. -/
theorem c76_throws (p : Prog) (command input output err : Str) (x : Ended) (hr : p (arguments command) input = .ok ⟨output, err, x⟩) (ho : ¬ Utf8 output) :
    reply p command input = .throws := by
  unfold reply
  rw [hr]
  exact dump_throws fun h => ho h.2

/-- **C76** (finding). A declaration of qubits as it is printed, which is not UTF-8 as the first id is written as one byte: there is no reply. -/
theorem c76_declared (p : Prog) (command input before after err : Str) (x : Ended) (id : Nat) (ids : List Nat) (hid : 128 ≤ id % 256)
    (line : Str) (hl : Lli.printOp (.declare (id :: ids)) = .ok line)
    (hr : p (arguments command) input = .ok ⟨before ++ line ++ '\n' :: after, err, x⟩) :
    reply p command input = .throws := by
  refine c76_throws p command input _ err x hr ?_
  have hp : Lli.printOp (.declare (id :: ids)) = .ok ("DeclareLogicalQubitPatches".toList ++ ' ' :: joinNat (id :: ids) [',']) := rfl
  rw [hp] at hl
  cases hl
  rw [Lli.joinNat_cons]
  have hb : (Char.ofNat (id % 256)).toNat = id % 256 := code_small (by omega)
  cases ids with
  | nil =>
    have := not_utf8 (a := ' ') (b := Char.ofNat (id % 256)) (c := '\n') (p := before ++ "DeclareLogicalQubitPatches".toList) (q := after) (by decide) (by omega) (by decide)
    simpa using this
  | cons y ys =>
    have := not_utf8 (a := ' ') (b := Char.ofNat (id % 256)) (c := ',') (p := before ++ "DeclareLogicalQubitPatches".toList)
      (q := showNat y ++ ys.flatMap (fun v => ',' :: showNat v) ++ '\n' :: after) (by decide) (by omega) (by decide)
    simpa using this

/-- **C76** (drawings). When the program has drawn slices and returned 0, the caller gets the exit code 0, no messages, and a text that is the list of the drawings. -/
theorem c76_drawn (p : Prog) (command input output : Str) (L : Layout) (ss : List DSlice) (hd : ∀ s ∈ ss, Json.Spec.Drawable L s) (hne : ss ≠ [])
    (ho : Json.output L ss = .ok output) (hr : p (arguments command) input = .ok ⟨output, [], .returned 0⟩) :
    ∃ t, reply p command input = .ok t ∧ object t = some [("err".toList, .str []), ("exit_code".toList, .num 0), ("output".toList, .str output)] ∧
      Json.Spec.Album L ss output := by
  obtain ⟨t, h1, h2⟩ := Json.Spec.c61_array hd hne
  rw [ho] at h1
  cases h1
  obtain ⟨w, hw, he⟩ := Outcome.bind_eq_ok.1 ho
  cases he
  obtain ⟨t, ht, hj⟩ := c76_returned p command input _ [] 0 hr (utf8_ascii (ascii_append (ascii_written hd hw) (by decide))) (utf8_ascii (by decide))
  exact ⟨t, ht, hj, h2⟩

/-- The hypotheses of `c76_words` and `c76_npm` are met; an empty word is kept. -/
example : arguments "-L  compact".toList = ["-L".toList, [], "compact".toList] := c76_words ["-L".toList, [], "compact".toList] (by decide) (by decide) (by decide)

example : arguments (npmCommand "compact".toList true false) = ["-L".toList, "compact".toList, "-I".toList, "qasm".toList, "--cnotcorrections".toList, "never".toList] :=
  c76_npm "compact".toList true false (by decide)

/-- A program that writes one line in UTF-8 that is not in ASCII, and a control character. -/
example : ∃ t, reply (fun _ _ => .ok ⟨"\x01".toList ++ [Char.ofNat 0xC3, Char.ofNat 0xA4], "\"\n".toList, .returned (-1)⟩) [] [] = .ok t ∧
    object t = some [("err".toList, .str "\"\n".toList), ("exit_code".toList, .num (-1)), ("output".toList, .str ("\x01".toList ++ [Char.ofNat 0xC3, Char.ofNat 0xA4]))] :=
  c76_returned _ [] [] _ _ (-1) rfl ⟨['\x01', 'ä'], by decide⟩ (utf8_ascii (by decide))

example : ∃ t, reply (fun _ _ => .ok ⟨[], [], .exception "bad".toList⟩) [] [] = .ok t ∧
    object t = some [("err".toList, .str ([] ++ "Compiler exception: ".toList ++ "bad".toList ++ ['\n'])), ("exit_code".toList, .num 100), ("output".toList, .str [])] :=
  c76_exception _ [] [] [] [] _ rfl (utf8_ascii (by decide)) (utf8_ascii (by decide)) (utf8_ascii (by decide))

/-- The hypotheses of `c76_declared` and `c76_throws` are met by the printed declaration of two qubits. -/
example : ∃ line, Lli.printOp (.declare [200, 201]) = .ok line ∧ reply (fun _ _ => .ok ⟨line ++ ['\n'], [], .returned 0⟩) [] [] = .throws :=
  ⟨_, rfl, c76_declared _ [] [] [] [] [] (.returned 0) 200 [201] (by decide) _ rfl rfl⟩

/-- The hypotheses of `c76_drawn` are met by the drawings of two slices. -/
example : ∃ output t, reply (fun _ _ => .ok ⟨output, [], .returned 0⟩) "-L compact".toList [] = .ok t ∧
    object t = some [("err".toList, .str []), ("exit_code".toList, .num 0), ("output".toList, .str output)] ∧
      Json.Spec.Album Json.Spec.exLayout [Json.Spec.exSlice none, Json.Spec.exSlice (some 4)] output := by
  have hd : ∀ s ∈ [Json.Spec.exSlice none, Json.Spec.exSlice (some 4)], Json.Spec.Drawable Json.Spec.exLayout s := by
    intro s hs
    simp only [List.mem_cons, List.not_mem_nil, or_false] at hs
    rcases hs with rfl | rfl <;> exact Json.Spec.ex_drawable _
  obtain ⟨output, h, -⟩ := Json.Spec.c61_array hd (by simp)
  exact ⟨output, c76_drawn _ _ [] output _ _ hd (by simp) h rfl⟩

end Spec

end Verif.FromStrings
