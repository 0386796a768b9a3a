import Verif.Lstk

/-!
# C01, C05: text helpers
-/

namespace Verif

/-! ## Splitting -/

/-- Reference splitting: always at least one piece. -/
def pieces (d : Char) : Str → List Str
  | [] => [[]]
  | c :: cs =>
    if c = d then [] :: pieces d cs
    else match pieces d cs with
      | [] => [[c]]
      | p :: ps => (c :: p) :: ps

theorem pieces_ne_nil (d : Char) (s : Str) : pieces d s ≠ [] := by
  cases s with
  | nil => simp [pieces]
  | cons c cs =>
    unfold pieces; split
    · simp
    · split <;> simp

/-- Prepend text to the first piece. -/
def consHead (cur : Str) : List Str → List Str
  | [] => [cur]
  | p :: ps => (cur ++ p) :: ps

theorem splitLoop_spec (d : Char) (rest cur : Str) (moved : Bool) (prev : Option Char) (ret : List Str)
    (hp : cur = [] → moved = true → prev = some d) :
    splitLoop d rest cur moved prev ret =
      ret ++ (if rest = [] ∧ cur = [] ∧ moved = false then [] else consHead cur (pieces d rest)) := by
  induction rest generalizing cur moved prev ret with
  | nil =>
    unfold splitLoop
    by_cases hc : cur = []
    · subst hc
      cases moved with
      | true => simp [hp rfl rfl, consHead, pieces]
      | false => simp
    · simp [hc, consHead, pieces]
  | cons c rest ih =>
    unfold splitLoop
    by_cases h : c = d
    · rw [if_pos h, ih _ _ _ _ (by simp [h])]
      simp only [h, pieces, if_true]
      have := pieces_ne_nil d rest
      cases hps : pieces d rest with
      | nil => exact absurd hps this
      | cons p ps => simp [consHead]
    · rw [if_neg h, ih _ _ _ _ (by simp)]
      simp only [pieces, if_neg h]
      have := pieces_ne_nil d rest
      cases hps : pieces d rest with
      | nil => exact absurd hps this
      | cons p ps => simp [consHead]

theorem splitOn_eq_pieces (s : Str) (d : Char) : splitOn s d = if s = [] then [] else pieces d s := by
  unfold splitOn
  rw [splitLoop_spec d s [] false none [] (by simp)]
  by_cases h : s = []
  · simp [h]
  · simp only [h, false_and, if_false, List.nil_append]
    have := pieces_ne_nil d s
    cases hps : pieces d s with
    | nil => exact absurd hps this
    | cons p ps => simp [consHead]

theorem pieces_of_free {d : Char} {p : Str} (h : d ∉ p) : pieces d p = [p] := by
  induction p with
  | nil => rfl
  | cons c p ih =>
    simp at h
    rw [pieces, if_neg (fun e => h.1 e.symm), ih h.2]

theorem pieces_append_sep {d : Char} {p : Str} (h : d ∉ p) (t : Str) : pieces d (p ++ d :: t) = p :: pieces d t := by
  induction p with
  | nil => simp [pieces]
  | cons c p ih =>
    simp at h
    rw [List.cons_append, pieces, if_neg (fun e => h.1 e.symm), ih h.2]

theorem pieces_intercalate {d : Char} {ps : List Str} (hne : ps ≠ []) (h : ∀ p ∈ ps, d ∉ p) :
    pieces d (List.intercalate [d] ps) = ps := by
  induction ps with
  | nil => exact absurd rfl hne
  | cons p ps ih =>
    cases ps with
    | nil => simp [List.intercalate, pieces_of_free (h p (by simp))]
    | cons q qs =>
      have hi : List.intercalate [d] (p :: q :: qs) = p ++ d :: List.intercalate [d] (q :: qs) := by
        simp [List.intercalate]
      rw [hi, pieces_append_sep (h p (by simp)), ih (by simp) (fun x hx => h x (by simp [hx]))]

theorem intercalate_pieces (d : Char) (s : Str) : List.intercalate [d] (pieces d s) = s := by
  induction s with
  | nil => simp [pieces, List.intercalate]
  | cons c s ih =>
    have hne := pieces_ne_nil d s
    unfold pieces
    split
    · rename_i h
      cases hps : pieces d s with
      | nil => exact absurd hps hne
      | cons p ps =>
        rw [hps] at ih
        have : List.intercalate [d] ([] :: p :: ps) = d :: List.intercalate [d] (p :: ps) := by simp [List.intercalate]
        rw [this, ih, h]
    · cases hps : pieces d s with
      | nil => exact absurd hps hne
      | cons p ps =>
        rw [hps] at ih
        simp only
        have : List.intercalate [d] ((c :: p) :: ps) = c :: List.intercalate [d] (p :: ps) := by
          cases ps <;> simp [List.intercalate]
        rw [this, ih]

theorem pieces_free (d : Char) (s : Str) : ∀ p ∈ pieces d s, d ∉ p := by
  induction s with
  | nil => simp [pieces]
  | cons c s ih =>
    unfold pieces
    split
    · intro p hp; simp at hp
      rcases hp with rfl | hp
      · simp
      · exact ih p hp
    · rename_i h
      cases hps : pieces d s with
      | nil => exact absurd hps (pieces_ne_nil d s)
      | cons q qs =>
        intro p hp
        simp at hp
        rcases hp with rfl | hp
        · have := ih q (by simp [hps])
          simp; exact ⟨fun e => h e.symm, this⟩
        · exact ih p (by simp [hps, hp])

namespace Spec

/-- **C01**. For a non-empty text, the pieces returned are exactly the one list of separator-free
texts that gives the text back when joined with the separator; the empty text has no pieces. -/
theorem c01_split (s : Str) (d : Char) :
    (s ≠ [] → ∀ ps, splitOn s d = ps ↔ (ps ≠ [] ∧ (∀ p ∈ ps, d ∉ p) ∧ List.intercalate [d] ps = s)) ∧
    splitOn [] d = [] := by
  refine ⟨?_, rfl⟩
  intro hs ps
  rw [splitOn_eq_pieces, if_neg hs]
  constructor
  · rintro rfl; exact ⟨pieces_ne_nil d s, pieces_free d s, intercalate_pieces d s⟩
  · rintro ⟨h1, h2, h3⟩; rw [← h3, pieces_intercalate h1 h2]

example : splitOn "a,,b,".toList ',' = ["a".toList, [], "b".toList, []] := by decide

/-- The text with every occurrence of `t` replaced by `w`. -/
def replaced (s : Str) (t : Char) (w : Str) : Str := s.flatMap (fun c => if c = t then w else [c])

end Spec

/-! ## Replacing -/

theorem strContains_iff {s : Str} {t : Char} : strContains s t = true ↔ t ∈ s := by
  unfold strContains; rw [List.any_eq_true]
  constructor
  · rintro ⟨x, hx, h⟩; simp at h; exact h ▸ hx
  · intro h; exact ⟨t, h, by simp⟩

theorem takeWhile_split {t : Char} {p : Str} (h : t ∉ p) (q : Str) :
    (p ++ t :: q).takeWhile (· ≠ t) = p ∧ ((p ++ t :: q).dropWhile (· ≠ t)).drop 1 = q := by
  induction p with
  | nil => simp
  | cons c p ih =>
    simp at h
    obtain ⟨h1, h2⟩ := ih h.2
    have hc : c ≠ t := fun e => h.1 e.symm
    constructor
    · rw [List.cons_append, List.takeWhile_cons_of_pos (by simpa using hc), h1]
    · rw [List.cons_append, List.dropWhile_cons_of_pos (by simpa using hc), h2]

theorem exists_first_split {t : Char} {s : Str} (h : t ∈ s) : ∃ p q, s = p ++ t :: q ∧ t ∉ p := by
  induction s with
  | nil => simp at h
  | cons c s ih =>
    by_cases hc : c = t
    · exact ⟨[], s, by simp [hc], by simp⟩
    · simp at h
      rcases h with h | h
      · exact absurd h.symm hc
      · obtain ⟨p, q, rfl, hp⟩ := ih h
        exact ⟨c :: p, q, rfl, by simp [hp]; exact fun e => hc e.symm⟩

theorem replaced_free {t : Char} {p w : Str} (h : t ∉ p) : Spec.replaced p t w = p := by
  induction p with
  | nil => rfl
  | cons c p ih =>
    simp at h
    have := ih h.2
    unfold Spec.replaced at this ⊢
    rw [List.flatMap_cons, this, if_neg (fun e => h.1 e.symm)]; rfl

theorem replaced_append (p q w : Str) (t : Char) :
    Spec.replaced (p ++ q) t w = Spec.replaced p t w ++ Spec.replaced q t w := by
  simp [Spec.replaced]

theorem replaced_sep (w : Str) (t : Char) : Spec.replaced [t] t w = w := by simp [Spec.replaced]

theorem replaceLoop_spec (t : Char) (w : Str) (n : Nat) (s out pre post : Str) (hn : s.length < n)
    (hs : s = pre ++ t :: post) (hp : t ∉ post) :
    replaceLoop t w n s out = out ++ Spec.replaced (pre ++ [t]) t w := by
  induction n generalizing s out pre with
  | zero => simp at hn
  | succ n ih =>
    unfold replaceLoop
    have hmem : t ∈ s := by rw [hs]; simp
    rw [if_pos (strContains_iff.2 hmem)]
    obtain ⟨a, b, hab, ha⟩ := exists_first_split hmem
    obtain ⟨h1, h2⟩ := takeWhile_split ha b
    rw [hab, h1, h2]
    by_cases hb : t ∈ b
    · -- the last occurrence is inside b
      have : ∃ pre', pre = a ++ t :: pre' ∧ b = pre' ++ t :: post := by
        rw [hs] at hab
        clear ih hn h1 h2 hmem hs
        induction a generalizing pre with
        | nil =>
          cases pre with
          | nil => simp at hab; rw [hab] at hp; exact absurd hb hp
          | cons c pre => simp at hab; exact ⟨pre, by simp [hab.1], hab.2.symm⟩
        | cons x a iha =>
          simp at ha
          cases pre with
          | nil => simp at hab; exact absurd hab.1 ha.1
          | cons c pre =>
            simp at hab
            obtain ⟨p', h3, h4⟩ := iha pre hab.2 ha.2
            exact ⟨p', by simp [hab.1, h3], h4⟩
      obtain ⟨pre', h3, h4⟩ := this
      rw [ih b _ pre' (by rw [hab] at hn; simp at hn; omega) h4, h3]
      rw [show a ++ t :: pre' ++ [t] = a ++ ([t] ++ (pre' ++ [t])) by simp]
      simp only [replaced_append, replaced_sep, replaced_free ha]
      simp
    · have hpre : a = pre := by
        rw [hs] at hab
        clear ih hn h1 h2 hmem hs
        induction a generalizing pre with
        | nil =>
          cases pre with
          | nil => rfl
          | cons c pre => simp at hab; rw [← hab.2] at hb; simp at hb
        | cons x a iha =>
          simp at ha
          cases pre with
          | nil => simp at hab; exact absurd hab.1 ha.1
          | cons c pre => simp at hab; rw [hab.1, iha pre hab.2 ha.2]
      subst hpre
      have hstop : replaceLoop t w n b (out ++ a ++ w) = out ++ a ++ w := by
        cases n with
        | zero => rfl
        | succ n =>
          unfold replaceLoop
          rw [if_neg (by rw [strContains_iff]; exact hb)]
      rw [hstop, replaced_append, replaced_sep, replaced_free ha]; simp

namespace Spec

/-- **C05 (negation)**. Escaping `>` in `A->B` gives `A-` followed by the escape, losing the `B`. -/
theorem c05_loses_text : strReplace "A->B".toList '>' "\\>".toList = "A-\\>".toList ∧
    replaced "A->B".toList '>' "\\>".toList = "A-\\>B".toList := by decide

/-- **C05 (what holds)**. The result is right for texts without the target; otherwise it is the right
result for the text up to and including the last target, so the function is right exactly when
nothing follows the last target. -/
theorem c05_replace_partial (t : Char) (w : Str) :
    (∀ s, t ∉ s → strReplace s t w = replaced s t w) ∧
    (∀ pre post, t ∉ post → strReplace (pre ++ t :: post) t w = replaced (pre ++ [t]) t w) ∧
    (∀ pre post, t ∉ post → (strReplace (pre ++ t :: post) t w = replaced (pre ++ t :: post) t w ↔ post = [])) := by
  have h2 : ∀ pre post, t ∉ post → strReplace (pre ++ t :: post) t w = replaced (pre ++ [t]) t w := by
    intro pre post hp
    unfold strReplace
    rw [if_neg (by simp [strContains_iff])]
    simpa using replaceLoop_spec t w _ _ [] pre post (Nat.lt_succ_self _) rfl hp
  refine ⟨?_, h2, ?_⟩
  · intro s hs
    unfold strReplace
    rw [if_pos (by rw [strContains_iff]; exact hs), replaced_free hs]
  · intro pre post hp
    rw [h2 pre post hp, show pre ++ t :: post = (pre ++ [t]) ++ post by simp, replaced_append (pre ++ [t]), replaced_free hp]
    simp

example : strReplace "a>b>".toList '>' "&gt;".toList = "a&gt;b&gt;".toList := by decide

end Spec
end Verif
