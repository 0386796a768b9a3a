import Verif.Json

/-!
# JSON text (specification and helper lemmas)

What it means for a text to denote a value: cut into tokens it is the sequence of tokens of the value. The text may have white
space between tokens. Only the parts of JSON are covered that occur: no numbers, no truth values, no escapes in strings.
-/

namespace Verif.Json

namespace Spec

inductive Tok where
  | lbrack | rbrack | lbrace | rbrace | comma | colon | null
  | str (s : Str)

/-- The tokens of a text; in a string, the characters read so far are given, the last one first. -/
def lex : Option Str → Str → Option (List Tok)
  | none, [] => some []
  | none, ' ' :: r => lex none r
  | none, '\n' :: r => lex none r
  | none, '\t' :: r => lex none r
  | none, '\r' :: r => lex none r
  | none, '[' :: r => (lex none r).map (.lbrack :: ·)
  | none, ']' :: r => (lex none r).map (.rbrack :: ·)
  | none, '{' :: r => (lex none r).map (.lbrace :: ·)
  | none, '}' :: r => (lex none r).map (.rbrace :: ·)
  | none, ',' :: r => (lex none r).map (.comma :: ·)
  | none, ':' :: r => (lex none r).map (.colon :: ·)
  | none, '"' :: r => lex (some []) r
  | none, 'n' :: 'u' :: 'l' :: 'l' :: r => (lex none r).map (.null :: ·)
  | none, _ :: _ => none
  | some _, [] => none
  | some acc, '"' :: r => (lex none r).map (.str acc.reverse :: ·)
  | some acc, c :: r => if c = '\\' ∨ c.toNat < 32 then none else lex (some (c :: acc)) r

mutual

/-- The JSON grammar: the tokens of a value. -/
def toks : Json → List Tok
  | .null => [.null]
  | .str s => [.str s]
  | .arr [] => [.lbrack, .rbrack]
  | .arr (x :: xs) => .lbrack :: (toks x ++ toksItems xs)
  | .obj [] => [.lbrace, .rbrace]
  | .obj ((k, x) :: xs) => .lbrace :: .str k :: .colon :: (toks x ++ toksMembers xs)

def toksItems : List Json → List Tok
  | [] => [.rbrack]
  | x :: xs => .comma :: (toks x ++ toksItems xs)

def toksMembers : List (Str × Json) → List Tok
  | [] => [.rbrace]
  | (k, x) :: xs => .comma :: .str k :: .colon :: (toks x ++ toksMembers xs)

end

/-- The text is JSON and means `j`. -/
def Denotes (t : Str) (j : Json) : Prop := lex none t = some (toks j)

end Spec

open Spec

mutual

theorem toks_inj : ∀ (j j' : Json) (r r' : List Tok), toks j ++ r = toks j' ++ r' → j = j' ∧ r = r'
  | .null, j', r, r', h => by
    match j', h with
    | .null, h => simp [toks] at h; exact ⟨rfl, h⟩
    | .str _, h => simp [toks] at h
    | .arr [], h => simp [toks] at h
    | .arr (_ :: _), h => simp [toks] at h
    | .obj [], h => simp [toks] at h
    | .obj (_ :: _), h => simp [toks] at h
  | .str s, j', r, r', h => by
    match j', h with
    | .null, h => simp [toks] at h
    | .str _, h => simp [toks] at h; exact ⟨by rw [h.1], h.2⟩
    | .arr [], h => simp [toks] at h
    | .arr (_ :: _), h => simp [toks] at h
    | .obj [], h => simp [toks] at h
    | .obj (_ :: _), h => simp [toks] at h
  | .arr [], j', r, r', h => by
    match j', h with
    | .null, h => simp [toks] at h
    | .str _, h => simp [toks] at h
    | .arr [], h => simp [toks] at h; exact ⟨rfl, h⟩
    | .arr (x :: xs), h =>
      simp only [toks, List.cons_append, List.cons.injEq, true_and, List.nil_append, List.append_assoc] at h
      exact absurd h.symm (toks_ne_rbrack x _ _)
    | .obj [], h => simp [toks] at h
    | .obj (_ :: _), h => simp [toks] at h
  | .arr (x :: xs), j', r, r', h => by
    match j', h with
    | .null, h => simp [toks] at h
    | .str _, h => simp [toks] at h
    | .arr [], h =>
      simp only [toks, List.cons_append, List.cons.injEq, true_and, List.nil_append, List.append_assoc] at h
      exact absurd h (toks_ne_rbrack x _ _)
    | .arr (y :: ys), h =>
      simp only [toks, List.cons_append, List.cons.injEq, true_and, List.append_assoc] at h
      obtain ⟨h1, h2⟩ := toks_inj x y _ _ h
      obtain ⟨h3, h4⟩ := toksItems_inj xs ys _ _ h2
      exact ⟨by rw [h1, h3], h4⟩
    | .obj [], h => simp [toks] at h
    | .obj (_ :: _), h => simp [toks] at h
  | .obj [], j', r, r', h => by
    match j', h with
    | .null, h => simp [toks] at h
    | .str _, h => simp [toks] at h
    | .arr [], h => simp [toks] at h
    | .arr (_ :: _), h => simp [toks] at h
    | .obj [], h => simp [toks] at h; exact ⟨rfl, h⟩
    | .obj (_ :: _), h => simp [toks] at h
  | .obj ((k, x) :: xs), j', r, r', h => by
    match j', h with
    | .null, h => simp [toks] at h
    | .str _, h => simp [toks] at h
    | .arr [], h => simp [toks] at h
    | .arr (_ :: _), h => simp [toks] at h
    | .obj [], h => simp [toks] at h
    | .obj ((k', y) :: ys), h =>
      simp only [toks, List.cons_append, List.cons.injEq, true_and, List.append_assoc, Tok.str.injEq] at h
      obtain ⟨h1, h2⟩ := toks_inj x y _ _ h.2
      obtain ⟨h3, h4⟩ := toksMembers_inj xs ys _ _ h2
      exact ⟨by rw [h.1, h1, h3], h4⟩

theorem toksItems_inj : ∀ (l l' : List Json) (r r' : List Tok), toksItems l ++ r = toksItems l' ++ r' → l = l' ∧ r = r'
  | [], l', r, r', h => by
    match l', h with
    | [], h => simp [toksItems] at h; exact ⟨rfl, h⟩
    | _ :: _, h => simp [toksItems] at h
  | x :: xs, l', r, r', h => by
    match l', h with
    | [], h => simp [toksItems] at h
    | y :: ys, h =>
      simp only [toksItems, List.cons_append, List.cons.injEq, true_and, List.append_assoc] at h
      obtain ⟨h1, h2⟩ := toks_inj x y _ _ h
      obtain ⟨h3, h4⟩ := toksItems_inj xs ys _ _ h2
      exact ⟨by rw [h1, h3], h4⟩

theorem toksMembers_inj : ∀ (l l' : List (Str × Json)) (r r' : List Tok), toksMembers l ++ r = toksMembers l' ++ r' → l = l' ∧ r = r'
  | [], l', r, r', h => by
    match l', h with
    | [], h => simp [toksMembers] at h; exact ⟨rfl, h⟩
    | _ :: _, h => simp [toksMembers] at h
  | (k, x) :: xs, l', r, r', h => by
    match l', h with
    | [], h => simp [toksMembers] at h
    | (k', y) :: ys, h =>
      simp only [toksMembers, List.cons_append, List.cons.injEq, true_and, List.append_assoc, Tok.str.injEq] at h
      obtain ⟨h1, h2⟩ := toks_inj x y _ _ h.2
      obtain ⟨h3, h4⟩ := toksMembers_inj xs ys _ _ h2
      exact ⟨by rw [h.1, h1, h3], h4⟩

theorem toks_ne_rbrack : ∀ (j : Json) (r r' : List Tok), toks j ++ r ≠ .rbrack :: r'
  | .null, _, _ => by simp [toks]
  | .str _, _, _ => by simp [toks]
  | .arr [], _, _ => by simp [toks]
  | .arr (_ :: _), _, _ => by simp [toks]
  | .obj [], _, _ => by simp [toks]
  | .obj (_ :: _), _, _ => by simp [toks]

end

/-- A text means at most one value. -/
theorem denotes_unique {t : Str} {j j' : Json} (h : Denotes t j) (h' : Denotes t j') : j = j' := by
  unfold Denotes at h h'
  rw [h] at h'
  exact (toks_inj j j' [] [] (by simpa using h')).1

/-! ## Printed text -/

/-- Written without escapes. -/
def PlainStr (s : Str) : Prop := ∀ c ∈ s, c ≠ '"' ∧ c ≠ '\\' ∧ 32 ≤ c.toNat ∧ c.toNat < 128

mutual

def Clean : Json → Prop
  | .null => True
  | .str s => PlainStr s
  | .arr l => CleanItems l
  | .obj l => CleanMembers l

def CleanItems : List Json → Prop
  | [] => True
  | x :: xs => Clean x ∧ CleanItems xs

def CleanMembers : List (Str × Json) → Prop
  | [] => True
  | (k, x) :: xs => PlainStr k ∧ Clean x ∧ CleanMembers xs

end

theorem cleanItems_iff : ∀ {l : List Json}, CleanItems l ↔ ∀ x ∈ l, Clean x
  | [] => by simp [CleanItems]
  | x :: xs => by simp [CleanItems, cleanItems_iff (l := xs)]

theorem cleanMembers_iff : ∀ {l : List (Str × Json)}, CleanMembers l ↔ ∀ x ∈ l, PlainStr x.1 ∧ Clean x.2
  | [] => by simp [CleanMembers]
  | (k, x) :: xs => by simp [CleanMembers, cleanMembers_iff (l := xs), and_assoc]

theorem lex_str : ∀ (s acc r : Str), PlainStr s → lex (some acc) (s ++ '"' :: r) = (lex none r).map (.str (acc.reverse ++ s) :: ·)
  | [], acc, r, _ => by simp [lex]
  | c :: s, acc, r, h => by
    have hc := h c (by simp)
    have := lex_str s (c :: acc) r (fun x hx => h x (by simp [hx]))
    rw [List.cons_append, lex]
    · rw [if_neg (by rintro (e | e); · exact hc.2.1 e
                     · omega), this]
      simp
    · exact hc.1

theorem lex_spaces (n : Nat) (r : Str) : lex none (spaces n ++ r) = lex none r := by
  induction n with
  | zero => rfl
  | succ n ih => rw [spaces, List.replicate_succ, List.cons_append, lex]; exact ih

theorem lex_quoted {s : Str} (h : PlainStr s) (r : Str) : lex none ('"' :: (s ++ '"' :: r)) = (lex none r).map (.str s :: ·) := by
  rw [lex, lex_str s [] r h]; rfl

theorem map_map_cons {α : Type} (o : Option (List α)) (l l' : List α) : (o.map (l' ++ ·)).map (l ++ ·) = o.map ((l ++ l') ++ ·) := by
  cases o <;> simp

theorem map_cons {α : Type} (o : Option (List α)) (x : α) (l : List α) : (o.map (l ++ ·)).map (x :: ·) = o.map ((x :: l) ++ ·) := by
  cases o <;> simp

theorem lex_key {k : Str} (h : PlainStr k) (r : Str) : lex none (('"' :: k ++ "\": ".toList) ++ r) = (lex none r).map ([.str k, .colon] ++ ·) := by
  have e : ('"' :: k ++ "\": ".toList) ++ r = '"' :: (k ++ '"' :: ':' :: ' ' :: r) := by simp
  rw [e, lex_quoted h, lex, lex]
  cases lex none r <;> simp

mutual

theorem lex_dump : ∀ (j : Json) (ind : Nat) (r : Str), Clean j → lex none (dump ind j ++ r) = (lex none r).map (toks j ++ ·)
  | .null, ind, r, _ => by
    show lex none ('n' :: 'u' :: 'l' :: 'l' :: r) = _
    rw [lex]; rfl
  | .str s, ind, r, h => by
    unfold Clean at h
    have e : dump ind (.str s) ++ r = '"' :: (s ++ '"' :: r) := by simp [dump]
    rw [e, lex_quoted h]; rfl
  | .arr [], ind, r, _ => by
    show lex none ('[' :: ']' :: r) = _
    rw [lex, lex, toks]
    cases lex none r <;> simp
  | .arr (x :: xs), ind, r, h => by
    unfold Clean CleanItems at h
    have e : dump ind (.arr (x :: xs)) ++ r = '[' :: '\n' :: (spaces (ind + 3) ++ (dump (ind + 3) x ++ (dumpItems (ind + 3) xs ++ ('\n' :: (spaces ind ++ (']' :: r)))))) := by
      simp [dump]
    rw [e, lex, lex, lex_spaces, lex_dump x _ _ h.1, lex_items xs _ ind _ h.2, toks]
    cases lex none r <;> simp
  | .obj [], ind, r, _ => by
    show lex none ('{' :: '}' :: r) = _
    rw [lex, lex, toks]
    cases lex none r <;> simp
  | .obj ((k, x) :: xs), ind, r, h => by
    unfold Clean CleanMembers at h
    have e : dump ind (.obj ((k, x) :: xs)) ++ r = '{' :: '\n' :: (spaces (ind + 3) ++ (('"' :: k ++ "\": ".toList) ++ (dump (ind + 3) x ++ (dumpMembers (ind + 3) xs ++ ('\n' :: (spaces ind ++ ('}' :: r))))))) := by
      simp [dump]
    rw [e, lex, lex, lex_spaces, lex_key h.1, lex_dump x _ _ h.2.1, lex_members xs _ ind _ h.2.2, toks]
    cases lex none r <;> simp

theorem lex_items : ∀ (l : List Json) (ind ind' : Nat) (r : Str), CleanItems l →
    lex none (dumpItems ind l ++ ('\n' :: (spaces ind' ++ (']' :: r)))) = (lex none r).map (toksItems l ++ ·)
  | [], ind, ind', r, _ => by
    show lex none ('\n' :: (spaces ind' ++ (']' :: r))) = _
    rw [lex, lex_spaces, lex, toksItems]; rfl
  | x :: xs, ind, ind', r, h => by
    unfold CleanItems at h
    have e : dumpItems ind (x :: xs) ++ ('\n' :: (spaces ind' ++ (']' :: r))) =
        ',' :: '\n' :: (spaces ind ++ (dump ind x ++ (dumpItems ind xs ++ ('\n' :: (spaces ind' ++ (']' :: r)))))) := by
      simp [dumpItems]
    rw [e, lex, lex, lex_spaces, lex_dump x _ _ h.1, lex_items xs _ ind' _ h.2, toksItems]
    cases lex none r <;> simp

theorem lex_members : ∀ (l : List (Str × Json)) (ind ind' : Nat) (r : Str), CleanMembers l →
    lex none (dumpMembers ind l ++ ('\n' :: (spaces ind' ++ ('}' :: r)))) = (lex none r).map (toksMembers l ++ ·)
  | [], ind, ind', r, _ => by
    show lex none ('\n' :: (spaces ind' ++ ('}' :: r))) = _
    rw [lex, lex_spaces, lex, toksMembers]; rfl
  | (k, x) :: xs, ind, ind', r, h => by
    unfold CleanMembers at h
    have e : dumpMembers ind ((k, x) :: xs) ++ ('\n' :: (spaces ind' ++ ('}' :: r))) =
        ',' :: '\n' :: (spaces ind ++ (('"' :: k ++ "\": ".toList) ++ (dump ind x ++ (dumpMembers ind xs ++ ('\n' :: (spaces ind' ++ ('}' :: r))))))) := by
      simp [dumpMembers]
    rw [e, lex, lex, lex_spaces, lex_key h.1, lex_dump x _ _ h.2.1, lex_members xs _ ind' _ h.2.2, toksMembers]
    cases lex none r <;> simp

end

end Verif.Json
