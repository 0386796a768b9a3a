import Verif.Qasm
import Verif.LliLemmas

namespace Verif.Qasm
open Verif.Gates Verif.Lli

/-! ## Integers -/

theorem digit_cases {c : Char} (h : isDigit c = true) : isSpace c = false ∧ c ≠ '\x00' ∧ c ≠ '-' ∧ c ≠ '+' := by
  have hne : ∀ d : Char, isDigit d = false → c ≠ d := by
    rintro d hd rfl; rw [h] at hd; simp at hd
  refine ⟨?_, hne _ (by decide), hne _ (by decide), hne _ (by decide)⟩
  unfold isSpace
  simp only [decide_eq_false_iff_not, not_or]
  exact ⟨hne _ (by decide), hne _ (by decide), hne _ (by decide), hne _ (by decide), hne _ (by decide), hne _ (by decide)⟩

theorem takeWhile_all {α : Type} {p : α → Bool} {l : List α} (h : ∀ x ∈ l, p x = true) : l.takeWhile p = l := by
  induction l with
  | nil => rfl
  | cons a l ih => rw [List.takeWhile_cons, h a (by simp), if_pos rfl, ih (fun x hx => h x (by simp [hx]))]

theorem dropWhile_all {α : Type} {p : α → Bool} {l : List α} (h : ∀ x ∈ l, p x = true) : l.dropWhile p = [] := by
  induction l with
  | nil => rfl
  | cons a l ih => rw [List.dropWhile_cons, h a (by simp), if_pos rfl, ih (fun x hx => h x (by simp [hx]))]

theorem longDigits_showNat (neg : Bool) (n : Nat) (h : n < 2 ^ 63) :
    longDigits neg (showNat n) = .ok (if neg then -(n : Int) else n) := by
  have hd := showNat_digits n
  have hr := readDigits_showNat n
  have hne := showNat_ne_nil n
  cases hs : showNat n with
  | nil => exact absurd hs hne
  | cons c cs =>
    rw [hs] at hd hr
    unfold longDigits
    simp only [hd c (by simp), if_true, hr]
    rw [if_neg (by cases neg <;> simp <;> omega), dropWhile_all hd]
    simp

/-- A decimal number is read as its value when it fits in a `long`. -/
theorem parseLong_showNat (n : Nat) (h : n < 2 ^ 63) : parseLong (showNat n) = .ok (n : Int) := by
  have hd := showNat_digits n
  have hl := longDigits_showNat false n h
  have hne := showNat_ne_nil n
  unfold parseLong
  rw [takeWhile_all (by intro x hx; simpa using (digit_cases (hd x hx)).2.1)]
  cases hs : showNat n with
  | nil => exact absurd hs hne
  | cons c cs =>
    rw [hs] at hd hl
    have hc := digit_cases (hd c (by simp))
    rw [List.dropWhile_cons, hc.1]
    simp only [Bool.false_eq_true, if_false, hc.2.2.1, hc.2.2.2] at hl ⊢
    exact hl

/-- A negative decimal number. -/
theorem parseLong_neg (n : Nat) (h : n < 2 ^ 63) : parseLong ('-' :: showNat n) = .ok (-(n : Int)) := by
  have hd := showNat_digits n
  unfold parseLong
  rw [takeWhile_all (by
    intro x hx
    rcases List.mem_cons.1 hx with rfl | hx
    · decide
    · simpa using (digit_cases (hd x hx)).2.1)]
  rw [List.dropWhile_cons, if_neg (by decide)]
  simp only [if_true]
  simpa using longDigits_showNat true n h

theorem parseQubit_showNat (n : Nat) (h : n < 2 ^ 63) : parseQubit (showNat n) = .ok (n % 2 ^ 32) := by
  unfold parseQubit; rw [parseLong_showNat n h]
  simp only [Outcome.bind_ok, Outcome.ok.injEq]; omega

/-! ## Arguments `name[index]` -/

/-- `name[i]`. -/
def qref (name : Str) (i : Nat) : Str := name ++ '[' :: (showNat i ++ [']'])

theorem indexArg_qref (name : Str) (i : Nat) (hn : '[' ∉ name) (hi : i < 2 ^ 63) : indexArg (qref name i) = .ok (i % 2 ^ 32) := by
  have h2 : '[' ∉ showNat i ++ [']'] := by
    simp only [List.mem_append, List.mem_singleton, not_or]
    exact ⟨notDigit_mem (by decide), by decide⟩
  have h3 : ']' ∉ showNat i := notDigit_mem (by decide)
  unfold indexArg qref
  rw [splitOn_cons (by simp), pieces_sep hn, pieces_of_free h2]
  simp only [at_, List.getElem?_cons_succ, List.getElem?_cons_zero, Outcome.bind_ok]
  rw [splitOn_cons (by simp), pieces_sep h3]
  simp only [List.getElem?_cons_zero, Outcome.bind_ok]
  exact parseQubit_showNat i hi

/-- Characters a register name may not contain for the line format to be unambiguous. -/
def plainName (name : Str) : Prop := ' ' ∉ name ∧ ';' ∉ name ∧ ',' ∉ name ∧ '[' ∉ name

theorem qref_free {name : Str} (hp : plainName name) (i : Nat) : ' ' ∉ qref name i ∧ ';' ∉ qref name i ∧ ',' ∉ qref name i := by
  obtain ⟨h1, h2, h3, h4⟩ := hp
  unfold qref
  simp only [List.mem_append, List.mem_cons, List.not_mem_nil, or_false, not_or]
  exact ⟨⟨h1, by decide, notDigit_mem (by decide), by decide⟩, ⟨h2, by decide, notDigit_mem (by decide), by decide⟩,
    ⟨h3, by decide, notDigit_mem (by decide), by decide⟩⟩

theorem dropSpaces_free {s : Str} (h : ' ' ∉ s) : dropSpaces s = s := by
  unfold dropSpaces
  cases s with
  | nil => rfl
  | cons c s =>
    rw [List.dropWhile_cons, if_neg]
    simp only [decide_eq_true_eq]
    rintro rfl; simp at h

theorem dropSpaces_blanks {b s : Str} (hb : ∀ c ∈ b, c = ' ') (h : ' ' ∉ s) : dropSpaces (b ++ s) = s := by
  induction b with
  | nil => exact dropSpaces_free h
  | cons c b ih =>
    have hc := hb c (by simp); subst hc
    have := ih (fun c hc => hb c (by simp [hc]))
    unfold dropSpaces at this ⊢
    rw [List.cons_append, List.dropWhile_cons, if_pos (by simp)]
    exact this

/-! ## Whole lines -/

/-- What may follow the arguments: nothing, or a semicolon and any text. -/
def tailAnn : Option Str → Str
  | none => []
  | some t => ';' :: t

/-- The annotations written after the semicolon. -/
def annOf : Option Str → List Str
  | none => []
  | some t => annotations ((pieces ';' t)[0]?.getD [])

theorem splitOnFirst_sep {w d : Str} (h : ' ' ∉ w) : splitOnFirst (w ++ ' ' :: d) ' ' = .ok (w, d) := by
  unfold splitOnFirst
  rw [if_pos (strContains_iff.2 (by simp))]
  have h1 : (w ++ ' ' :: d).takeWhile (· ≠ ' ') = w := by
    induction w with
    | nil => simp
    | cons c w ih =>
      simp at h
      rw [List.cons_append, List.takeWhile_cons, if_pos (by simpa using fun e => h.1 e.symm), ih h.2]
  have h2 : (w ++ ' ' :: d).dropWhile (· ≠ ' ') = ' ' :: d := by
    clear h1
    induction w with
    | nil => simp
    | cons c w ih =>
      simp at h
      rw [List.cons_append, List.dropWhile_cons, if_pos (by simpa using fun e => h.1 e.symm), ih h.2]
  rw [h1, h2]; rfl

theorem splitLine_spec (w d : Str) (tl : Option Str) (hw : ' ' ∉ w) (hw2 : ';' ∉ w) (hd : ';' ∉ d) :
    splitLine (w ++ ' ' :: d ++ tailAnn tl) = .ok ⟨w, (splitOn d ',').map dropSpaces, annOf tl⟩ := by
  have hc : strContains (w ++ ' ' :: d ++ tailAnn tl) ' ' = true := strContains_iff.2 (by simp)
  have hfree : ';' ∉ w ++ ' ' :: d := by
    simp only [List.mem_append, List.mem_cons, not_or]; exact ⟨hw2, by decide, hd⟩
  unfold splitLine
  rw [if_pos hc]
  cases tl with
  | none =>
    simp only [tailAnn, List.append_nil]
    rw [splitOn_cons (by simp), pieces_of_free hfree]
    simp only [splitPieces, at_, List.getElem?_cons_zero, Outcome.bind_ok, splitOnFirst_sep hw]
    rfl
  | some t =>
    simp only [tailAnn]
    rw [splitOn_cons (by simp), pieces_sep hfree]
    simp only [splitPieces, at_, List.getElem?_cons_zero, Outcome.bind_ok, splitOnFirst_sep hw, List.getElem?_cons_succ]
    rfl

/-- Lines starting with a non-blank, non-slash character are not comments and are not trimmed. -/
theorem parseGate_start (dflt : Placement) (c : Char) (s : Str) (h1 : isSpace c = false) (h2 : c ≠ '/') :
    parseGate dflt (c :: s) = (do
      let l ← splitLine (c :: s)
      if isIgnored l.instr then .ok .ignored
      else if l.instr = "qreg".toList then parseQreg l.args
      else do
        let g ← parseQasmGate dflt l
        .ok (.gate g)) := by
  unfold parseGate
  have : ltrim (c :: s) = c :: s := by unfold ltrim; rw [List.dropWhile_cons, h1]; rfl
  rw [this, if_neg]
  intro hp
  rw [show "//".toList = ['/', '/'] from rfl] at hp
  simp [List.isPrefixOf] at hp
  exact h2 hp.1.symm

end Verif.Qasm
