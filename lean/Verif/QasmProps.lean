import Verif.QasmLemmas

/-!
# Properties of the QASM reader: C06, C07, C10, C48, C49
-/

namespace Verif.Qasm
open Verif.Gates Verif.Lli

theorem two_args {name1 name2 : Str} (h1 : plainName name1) (h2 : plainName name2) (a b : Nat) {bl : Str} (hb : ∀ c ∈ bl, c = ' ') :
    (splitOn (qref name1 a ++ ',' :: (bl ++ qref name2 b)) ',').map dropSpaces = [qref name1 a, qref name2 b] := by
  have f1 := qref_free h1 a
  have f2 := qref_free h2 b
  have hc : ',' ∉ bl ++ qref name2 b := by
    simp only [List.mem_append, not_or]
    exact ⟨fun h => absurd (hb _ h) (by decide), f2.2.2⟩
  rw [splitOn_cons (by simp), pieces_sep f1.2.2, pieces_of_free hc]
  simp only [List.map_cons, List.map_nil, dropSpaces_free f1.1, dropSpaces_blanks hb f2.1]

theorem one_arg {name : Str} (h1 : plainName name) (a : Nat) {bl : Str} (hb : ∀ c ∈ bl, c = ' ') :
    (splitOn (bl ++ qref name a) ',').map dropSpaces = [qref name a] := by
  have f1 := qref_free h1 a
  have hc : ',' ∉ bl ++ qref name a := by
    simp only [List.mem_append, not_or]
    exact ⟨fun h => absurd (hb _ h) (by decide), f1.2.2⟩
  rw [splitOn_cons (by simp [qref]), pieces_of_free hc]
  simp only [List.map_cons, List.map_nil, dropSpaces_blanks hb f1.1]

/-- A line whose keyword starts with a letter and contains neither space nor semicolon. -/
theorem parseGate_line (dflt : Placement) (c : Char) (w d : Str) (tl : Option Str) (h1 : isSpace c = false) (h2 : c ≠ '/')
    (hw : ' ' ∉ c :: w) (hw2 : ';' ∉ c :: w) (hd : ';' ∉ d) (hi : isIgnored (c :: w) = false) (hq : c :: w ≠ "qreg".toList) :
    parseGate dflt ((c :: w) ++ ' ' :: d ++ tailAnn tl) = (do
      let g ← parseQasmGate dflt ⟨c :: w, (splitOn d ',').map dropSpaces, annOf tl⟩
      .ok (.gate g)) := by
  rw [show (c :: w) ++ ' ' :: d ++ tailAnn tl = c :: (w ++ ' ' :: d ++ tailAnn tl) from rfl, parseGate_start dflt c _ h1 h2]
  rw [show c :: (w ++ ' ' :: d ++ tailAnn tl) = (c :: w) ++ ' ' :: d ++ tailAnn tl from rfl, splitLine_spec _ _ _ hw hw2 hd]
  simp only [Outcome.bind_ok, hi, Bool.false_eq_true, if_false, hq]

theorem two_args_semi {name1 name2 : Str} (h1 : plainName name1) (h2 : plainName name2) (a b : Nat) {bl : Str} (hb : ∀ c ∈ bl, c = ' ') :
    ';' ∉ qref name1 a ++ ',' :: (bl ++ qref name2 b) := by
  simp only [List.mem_append, List.mem_cons, not_or]
  exact ⟨(qref_free h1 a).2.1, by decide, fun h => absurd (hb _ h) (by decide), (qref_free h2 b).2.1⟩

theorem one_arg_semi {name1 : Str} (h1 : plainName name1) (a : Nat) {bl : Str} (hb : ∀ c ∈ bl, c = ' ') :
    ';' ∉ bl ++ qref name1 a := by
  simp only [List.mem_append, not_or]
  exact ⟨fun h => absurd (hb _ h) (by decide), (qref_free h1 a).2.1⟩

namespace Spec

/-- The QASM keyword of each single-qubit gate. -/
def keyword : BasicType → Str
  | .X => ['x'] | .Y => ['y'] | .Z => ['z'] | .S => ['s'] | .T => ['t'] | .H => ['h']
  | .SDg => ['s', 'd', 'g'] | .TDg => ['t', 'd', 'g']

/-- **C06 (two-qubit gates).** `cx q[a],q[b]` and `cz q[a],q[b]`, with any plain register name, any
blanks after the comma and any text after a semicolon, give control `a` and target `b`. -/
theorem c06_two_qubit (dflt : Placement) (name bl : Str) (tl : Option Str) (a b : Nat) (hn : plainName name)
    (hbl : ∀ c ∈ bl, c = ' ') (ha : a < 2 ^ 32) (hb : b < 2 ^ 32) :
    (∃ ty pl, parseGate dflt ("cx ".toList ++ (qref name a ++ ',' :: (bl ++ qref name b)) ++ tailAnn tl) =
      .ok (.gate (.ctrl a (.basic b .X) ty pl))) ∧
    (∃ ty pl, parseGate dflt ("cz ".toList ++ (qref name a ++ ',' :: (bl ++ qref name b)) ++ tailAnn tl) =
      .ok (.gate (.ctrl a (.basic b .Z) ty pl))) := by
  have hs := two_args_semi hn hn a b hbl
  have h2 := two_args hn hn a b hbl
  have ia : indexArg (qref name a) = .ok a := by
    rw [indexArg_qref _ _ hn.2.2.2 (by omega), Nat.mod_eq_of_lt ha]
  have ib : indexArg (qref name b) = .ok b := by
    rw [indexArg_qref _ _ hn.2.2.2 (by omega), Nat.mod_eq_of_lt hb]
  constructor
  · refine ⟨cnotTypeOf (annOf tl), placementOf dflt (annOf tl), ?_⟩
    have := parseGate_line dflt 'c' ['x'] _ tl (by decide) (by decide) (by decide) (by decide) hs (by decide) (by decide)
    rw [h2] at this
    exact this.trans (by simp [parseQasmGate, basicOf, parseControlled, ia, ib])
  · refine ⟨cnotTypeOf (annOf tl), placementOf dflt (annOf tl), ?_⟩
    have := parseGate_line dflt 'c' ['z'] _ tl (by decide) (by decide) (by decide) (by decide) hs (by decide) (by decide)
    rw [h2] at this
    exact this.trans (by simp [parseQasmGate, basicOf, parseControlled, ia, ib])

example : parseGate .dedicated "cx q[3], q[12];".toList = .ok (.gate (.ctrl 3 (.basic 12 .X) .controlFirst .dedicated)) := by decide

/-- **C06 (single-qubit gates).** -/
theorem c06_single_qubit (dflt : Placement) (g : BasicType) (name bl : Str) (tl : Option Str) (a : Nat) (hn : plainName name)
    (hbl : ∀ c ∈ bl, c = ' ') (ha : a < 2 ^ 32) :
    parseGate dflt (keyword g ++ ' ' :: (bl ++ qref name a) ++ tailAnn tl) = .ok (.gate (.basic a g)) := by
  have hs := one_arg_semi hn a hbl
  have h2 := one_arg hn a hbl
  have ia : indexArg (qref name a) = .ok a := by
    rw [indexArg_qref _ _ hn.2.2.2 (by omega), Nat.mod_eq_of_lt ha]
  cases g <;>
  · unfold keyword
    rw [parseGate_line dflt _ _ _ tl (by decide) (by decide) (by decide) (by decide) hs (by decide) (by decide), h2]
    simp [parseQasmGate, basicOf, at_, ia]

example : plainName "qreg_1".toList := by unfold plainName; decide

/-- Indices from 2^32 on are not refused: they wrap around. -/
theorem c06_index_wraps (name : Str) (i : Nat) (hn : '[' ∉ name) (hi : i < 2 ^ 63) :
    indexArg (qref name i) = .ok (i % 2 ^ 32) := indexArg_qref name i hn hi

example : parseGate .dedicated "x q[4294967296]".toList = .ok (.gate (.basic 0 .X)) := by decide

/-- **C07.** A text names a CNOT type or an ancilla placement exactly when it is the printed name of it. -/
theorem c07_names (s : Str) :
    (∀ t, CnotType.ofStr s = some t ↔ s = t.str) ∧ (∀ p, Placement.ofStr s = some p ↔ s = p.str) := by
  constructor
  · intro t
    constructor
    · intro h
      unfold CnotType.ofStr at h
      split at h
      · cases h; assumption
      · split at h
        · cases h; assumption
        · split at h
          · cases h; assumption
          · cases h
    · rintro rfl; cases t <;> decide
  · intro p
    constructor
    · intro h
      unfold Placement.ofStr at h
      split at h
      · cases h; assumption
      · split at h
        · cases h; assumption
        · split at h
          · cases h; assumption
          · cases h
    · rintro rfl; cases p <;> decide

/-- **C07 (in a line).** The annotation ` // %type,placement` after a `cx` sets exactly these two values. -/
theorem c07_annotated_line (dflt : Placement) (name : Str) (a b : Nat) (ty : CnotType) (pl : Placement) (hn : plainName name)
    (ha : a < 2 ^ 32) (hb : b < 2 ^ 32) :
    parseGate dflt ("cx ".toList ++ (qref name a ++ ',' :: qref name b) ++ ';' :: (" // %".toList ++ ty.str ++ ',' :: pl.str)) =
      .ok (.gate (.ctrl a (.basic b .X) ty pl)) := by
  have hs := two_args_semi hn hn a b (bl := []) (by simp)
  have h2 := two_args hn hn a b (bl := []) (by simp)
  have ia : indexArg (qref name a) = .ok a := by
    rw [indexArg_qref _ _ hn.2.2.2 (by omega), Nat.mod_eq_of_lt ha]
  have ib : indexArg (qref name b) = .ok b := by
    rw [indexArg_qref _ _ hn.2.2.2 (by omega), Nat.mod_eq_of_lt hb]
  have := parseGate_line dflt 'c' ['x'] _ (some (" // %".toList ++ ty.str ++ ',' :: pl.str)) (by decide) (by decide) (by decide)
    (by decide) hs (by decide) (by decide)
  rw [h2] at this
  have hann : annOf (some (" // %".toList ++ ty.str ++ ',' :: pl.str)) = [ty.str, pl.str] := by
    cases ty <;> cases pl <;> decide
  rw [hann] at this
  have e1 : cnotTypeOf [ty.str, pl.str] = ty := by cases ty <;> cases pl <;> decide
  have e2 : placementOf dflt [ty.str, pl.str] = pl := by cases ty <;> cases pl <;> rfl
  exact this.trans (by simp [parseQasmGate, basicOf, parseControlled, ia, ib, e1, e2])

end Spec

/-! ## Angles -/

theorem equalAt_ne {c d : Char} (h : c ≠ d) (ds s : Str) : equalAt (d :: ds) (c :: s) = .ok false := by
  unfold equalAt; rw [if_neg (fun e => h e.symm)]

theorem digit_ne_star {c : Char} (h : isDigit c = true) : c ≠ '*' := by rintro rfl; simp [isDigit] at h

/-- Digits are moved over. -/
theorem splitStr_digits (s rest cur : Str) (m : Bool) (ret : List Str) (n : Nat) (h : ∀ c ∈ s, isDigit c = true) :
    splitStrLoop "*pi/".toList (n + s.length) (s ++ rest) cur m ret = splitStrLoop "*pi/".toList n rest (cur ++ s) m ret := by
  induction s generalizing cur n with
  | nil => simp
  | cons c s ih =>
    rw [List.length_cons, ← Nat.add_assoc, List.cons_append]
    have he : equalAt "*pi/".toList (c :: (s ++ rest)) = .ok false := equalAt_ne (digit_ne_star (h c (by simp))) _ _
    rw [splitStrLoop, he]
    simp only
    rw [ih _ _ (fun c hc => h c (by simp [hc]))]
    simp

theorem splitStr_quotient (a b : Str) (ha : ∀ c ∈ a, isDigit c = true) (hb : ∀ c ∈ b, isDigit c = true) (hb0 : b ≠ []) :
    splitOnStr (a ++ ("*pi/".toList ++ b)) "*pi/".toList = some (.ok [a, b]) := by
  unfold splitOnStr
  have hl : (a ++ ("*pi/".toList ++ b)).length + 1 = ((3 + 1 + b.length) + 1) + a.length := by
    simp only [List.length_append, show "*pi/".toList.length = 4 from rfl]; omega
  rw [hl, splitStr_digits _ _ _ _ _ _ ha]
  have he : equalAt "*pi/".toList ("*pi/".toList ++ b) = .ok true := rfl
  have hstep : splitStrLoop "*pi/".toList ((3 + 1 + b.length) + 1) ("*pi/".toList ++ b) ([] ++ a) false [] =
      splitStrLoop "*pi/".toList (3 + 1 + b.length) b [] true [a] := by
    rw [show "*pi/".toList ++ b = '*' :: ('p' :: 'i' :: '/' :: b) from rfl] at he ⊢
    rw [splitStrLoop, he]; rfl
  rw [hstep]
  have := splitStr_digits b [] [] true [a] (3 + 1) hb
  rw [List.append_nil] at this
  rw [this]
  simp only [List.nil_append, splitStrLoop]
  rw [if_pos hb0]; rfl

namespace Spec

/-- Phase of a diagonal gate on |1>, in units of pi (gates.hpp:53); for a rotation the sign flag counts. -/
def phase : Gate → Option Rat
  | .rz _ f => some ((if f.neg then -1 else 1) * (f.num : Rat) / f.den)
  | .basic _ .Z => some 1
  | .basic _ .S => some (1 / 2)
  | .basic _ .T => some (1 / 4)
  | .basic _ .SDg => some (-1 / 2)
  | .basic _ .TDg => some (-1 / 4)
  | _ => none

/-- The text of the angle `± n*pi/d`, or `± pi/d` when no numerator is written. -/
def angleText (neg : Bool) (n : Option Nat) (d : Nat) : Str :=
  (if neg then ['-'] else []) ++ (match n with
    | some n => showNat n ++ ("*pi/".toList ++ showNat d)
    | none => "pi/".toList ++ showNat d)

end Spec
open Spec

theorem parseUnsigned_quotient (neg : Bool) (n d : Nat) (hn : n < 2 ^ 63) (hd : d < 2 ^ 63) :
    parseUnsigned (showNat n ++ ("*pi/".toList ++ showNat d)) neg = .ok ⟨n, d, neg⟩ := by
  have h0 := showNat_ne_nil n
  have hdg := showNat_digits n
  unfold parseUnsigned
  rw [if_neg]
  · unfold parseQuotient
    rw [splitStr_quotient _ _ (showNat_digits n) (showNat_digits d) (showNat_ne_nil d)]
    simp only [Outcome.bind_ok, parseLong_showNat n hn, parseLong_showNat d hd]
  · cases hs : showNat n with
    | nil => exact absurd hs h0
    | cons c cs =>
      rw [hs] at hdg
      intro hp
      rw [show "pi/".toList = ['p', 'i', '/'] from rfl] at hp
      simp only [List.cons_append, List.isPrefixOf, Bool.and_eq_true, beq_iff_eq] at hp
      have := hdg c (by simp)
      rw [← hp.1] at this; simp [isDigit] at this

theorem parseUnsigned_pi (neg : Bool) (d : Nat) (hd : d < 2 ^ 63) : parseUnsigned ("pi/".toList ++ showNat d) neg = .ok ⟨1, d, neg⟩ := by
  unfold parseUnsigned
  rw [if_pos (by rw [show "pi/".toList = ['p', 'i', '/'] from rfl]; simp [List.isPrefixOf])]
  show (do let d ← parseLong (showNat d); Outcome.ok _) = _
  rw [parseLong_showNat d hd, Outcome.bind_ok]

theorem parseAngle_text (neg : Bool) (n : Option Nat) (d : Nat) (hn : ∀ m, n = some m → m < 2 ^ 63) (hd : d < 2 ^ 63) :
    parseAngle (angleText neg n d) = .ok ⟨n.getD 1, d, neg⟩ := by
  cases n with
  | none =>
    have h := parseUnsigned_pi neg d hd
    cases neg <;> exact h
  | some n =>
  have h := parseUnsigned_quotient neg n d (hn n rfl) hd
  unfold angleText
  cases neg with
  | true => exact h
  | false =>
    simp only [Bool.false_eq_true, if_false, List.nil_append]
    have h0 := showNat_ne_nil n
    have hdg := showNat_digits n
    cases hs : showNat n with
    | nil => exact absurd hs h0
    | cons c cs =>
      rw [hs] at hdg h
      have hc := (digit_cases (hdg c (by simp))).2.2.1
      unfold parseAngle
      split
      · rename_i t ht; simp at ht; exact absurd ht.1 hc
      · exact h

theorem digit_free {s : Str} (h : ∀ c ∈ s, isDigit c = true) {c : Char} (hc : isDigit c = false) : c ∉ s := by
  intro hm; rw [h c hm] at hc; simp at hc

theorem angle_free (neg : Bool) (n : Option Nat) (d : Nat) (c : Char) (h1 : isDigit c = false) (h2 : c ≠ '-' ∧ c ≠ '*' ∧ c ≠ 'p' ∧ c ≠ 'i' ∧ c ≠ '/') :
    c ∉ angleText neg n d := by
  have hsg : c ∉ (if neg then ['-'] else []) := by cases neg <;> simp [h2.1]
  unfold angleText
  rw [show "*pi/".toList = ['*', 'p', 'i', '/'] from rfl, show "pi/".toList = ['p', 'i', '/'] from rfl]
  cases n with
  | none =>
    simp only [List.mem_append, List.mem_cons, List.not_mem_nil, or_false, not_or]
    exact ⟨hsg, ⟨h2.2.2.1, h2.2.2.2.1, h2.2.2.2.2⟩, digit_free (showNat_digits d) h1⟩
  | some n =>
    simp only [List.mem_append, List.mem_cons, List.not_mem_nil, or_false, not_or]
    exact ⟨hsg, digit_free (showNat_digits n) h1, ⟨h2.2.1, h2.2.2.1, h2.2.2.2.1, h2.2.2.2.2⟩, digit_free (showNat_digits d) h1⟩

theorem bracketArg_text (pre ang : Str) (h1 : '(' ∉ pre) (h2 : '(' ∉ ang) (h3 : ')' ∉ ang) (h4 : ang ≠ []) :
    bracketArg (pre ++ '(' :: (ang ++ [')'])) = .ok ang := by
  unfold bracketArg
  have : '(' ∉ ang ++ [')'] := by simp [h2]
  rw [splitOn_cons (by simp), pieces_sep h1, pieces_of_free this]
  simp only [at_, List.getElem?_cons_succ, List.getElem?_cons_zero, Outcome.bind_ok]
  rw [splitOn_cons (by simp), pieces_sep h3]
  rfl

theorem angleText_ne (neg : Bool) (n : Option Nat) (d : Nat) : angleText neg n d ≠ [] := by
  unfold angleText; cases n <;> simp

theorem angleText_not_special (neg : Bool) (n : Option Nat) (d : Nat) : angleText neg n d ≠ "pi*-1".toList := by
  intro h
  unfold angleText at h
  rw [show "pi*-1".toList = ['p', 'i', '*', '-', '1'] from rfl] at h
  cases neg with
  | true => simp at h
  | false =>
    cases n with
    | none => simp at h
    | some n =>
      have hdg := showNat_digits n
      cases hs : showNat n with
      | nil => exact absurd hs (showNat_ne_nil n)
      | cons c cs =>
        rw [hs] at hdg
        simp [hs] at h
        have := hdg c (by simp)
        rw [h.1] at this; simp [isDigit] at this

/-- What the parser makes of a whole `rz` line. -/
theorem parse_rz_line (dflt : Placement) (neg : Bool) (n : Option Nat) (d a : Nat) (name bl : Str) (tl : Option Str) (hp : plainName name)
    (hbl : ∀ c ∈ bl, c = ' ') (ha : a < 2 ^ 32) (hn : ∀ m, n = some m → m < 2 ^ 63) (hd : d < 2 ^ 63) :
    parseGate dflt ("rz(".toList ++ angleText neg n d ++ ") ".toList ++ (bl ++ qref name a) ++ tailAnn tl) =
      .ok (.gate (if d = 1 then .basic a .Z else .rz a ⟨n.getD 1, d, neg⟩)) := by
  have hs := one_arg_semi hp a hbl
  have h2 := one_arg hp a hbl
  have ia : indexArg (qref name a) = .ok a := by
    rw [indexArg_qref _ _ hp.2.2.2 (by omega), Nat.mod_eq_of_lt ha]
  have heq : "rz(".toList ++ angleText neg n d ++ ") ".toList ++ (bl ++ qref name a) ++ tailAnn tl =
      ('r' :: ('z' :: '(' :: (angleText neg n d ++ [')']))) ++ ' ' :: (bl ++ qref name a) ++ tailAnn tl := by
    rw [show "rz(".toList = ['r', 'z', '('] from rfl, show ") ".toList = [')', ' '] from rfl]; simp
  have hfree : ∀ c : Char, isDigit c = false → (c ≠ '-' ∧ c ≠ '*' ∧ c ≠ 'p' ∧ c ≠ 'i' ∧ c ≠ '/') → (c ≠ 'r' ∧ c ≠ 'z' ∧ c ≠ '(' ∧ c ≠ ')') →
      c ∉ 'r' :: ('z' :: '(' :: (angleText neg n d ++ [')'])) := by
    intro c h1 h2 h3
    simp only [List.mem_cons, List.mem_append, List.not_mem_nil, or_false, not_or]
    exact ⟨h3.1, h3.2.1, h3.2.2.1, angle_free neg n d c h1 h2, h3.2.2.2⟩
  rw [heq, parseGate_line dflt 'r' _ _ tl (by decide) (by decide) (hfree ' ' (by decide) (by decide) (by decide))
    (hfree ';' (by decide) (by decide) (by decide)) hs ?_ ?_, h2]
  · have hb : bracketArg ('r' :: ('z' :: '(' :: (angleText neg n d ++ [')']))) = .ok (angleText neg n d) :=
      bracketArg_text ['r', 'z'] _ (by decide) (angle_free _ _ _ _ (by decide) (by decide)) (angle_free _ _ _ _ (by decide) (by decide))
        (angleText_ne _ _ _)
    have hbas : basicOf ('r' :: ('z' :: '(' :: (angleText neg n d ++ [')']))) = none := by
      unfold basicOf; simp
    simp only [parseQasmGate, hbas]
    rw [if_neg (by simp), if_neg (by simp), if_pos (by rfl)]
    simp only [parseRz, hb, Outcome.bind_ok, angleText_not_special, if_false, parseAngle_text neg n d hn hd]
    by_cases h1 : d = 1
    · subst h1; simp [at_, ia]
    · have : ¬ ((d : Int) = 1) := by omega
      simp [this, h1, idx, ia]
  · unfold isIgnored
    simp
  · simp

/-- What the parser makes of a whole `crz` line. -/
theorem parse_crz_line (dflt : Placement) (neg : Bool) (n : Option Nat) (d a b : Nat) (name bl : Str) (tl : Option Str) (hp : plainName name)
    (hbl : ∀ c ∈ bl, c = ' ') (ha : a < 2 ^ 32) (hb : b < 2 ^ 32) (hn : ∀ m, n = some m → m < 2 ^ 63) (hd : d < 2 ^ 63) :
    parseGate dflt ("crz(".toList ++ angleText neg n d ++ ") ".toList ++ (qref name a ++ ',' :: (bl ++ qref name b)) ++ tailAnn tl) =
      if neg = false ∧ n = none then .ok (.gate (.ctrl a (.rz b ⟨1, d, false⟩) (cnotTypeOf (annOf tl)) (placementOf dflt (annOf tl)))) else .throws := by
  have hs := two_args_semi hp hp a b hbl
  have h2 := two_args hp hp a b hbl
  have ia : indexArg (qref name a) = .ok a := by
    rw [indexArg_qref _ _ hp.2.2.2 (by omega), Nat.mod_eq_of_lt ha]
  have ib : indexArg (qref name b) = .ok b := by
    rw [indexArg_qref _ _ hp.2.2.2 (by omega), Nat.mod_eq_of_lt hb]
  have heq : "crz(".toList ++ angleText neg n d ++ ") ".toList ++ (qref name a ++ ',' :: (bl ++ qref name b)) ++ tailAnn tl =
      ('c' :: ('r' :: 'z' :: '(' :: (angleText neg n d ++ [')']))) ++ ' ' :: (qref name a ++ ',' :: (bl ++ qref name b)) ++ tailAnn tl := by
    rw [show "crz(".toList = ['c', 'r', 'z', '('] from rfl, show ") ".toList = [')', ' '] from rfl]; simp
  have hfree : ∀ c : Char, isDigit c = false → (c ≠ '-' ∧ c ≠ '*' ∧ c ≠ 'p' ∧ c ≠ 'i' ∧ c ≠ '/') → (c ≠ 'c' ∧ c ≠ 'r' ∧ c ≠ 'z' ∧ c ≠ '(' ∧ c ≠ ')') →
      c ∉ 'c' :: ('r' :: 'z' :: '(' :: (angleText neg n d ++ [')'])) := by
    intro c h1 h2 h3
    simp only [List.mem_cons, List.mem_append, List.not_mem_nil, or_false, not_or]
    exact ⟨h3.1, h3.2.1, h3.2.2.1, h3.2.2.2.1, angle_free neg n d c h1 h2, h3.2.2.2.2⟩
  rw [heq, parseGate_line dflt 'c' _ _ tl (by decide) (by decide) (hfree ' ' (by decide) (by decide) (by decide))
    (hfree ';' (by decide) (by decide) (by decide)) hs ?_ ?_, h2]
  · have hbr : bracketArg ('c' :: ('r' :: 'z' :: '(' :: (angleText neg n d ++ [')']))) = .ok (angleText neg n d) :=
      bracketArg_text ['c', 'r', 'z'] _ (by decide) (angle_free _ _ _ _ (by decide) (by decide)) (angle_free _ _ _ _ (by decide) (by decide))
        (angleText_ne _ _ _)
    have hbas : basicOf ('c' :: ('r' :: 'z' :: '(' :: (angleText neg n d ++ [')']))) = none := by
      unfold basicOf; simp
    simp only [parseQasmGate, hbas]
    rw [if_neg (by simp), if_neg (by simp), if_neg (by simp), if_pos (by rfl)]
    have hpre : ((('c' :: ('r' :: 'z' :: '(' :: (angleText neg n d ++ [')']))).drop 3).take 4 = "(pi/".toList) ↔ (neg = false ∧ n = none) := by
      rw [show "(pi/".toList = ['(', 'p', 'i', '/'] from rfl]
      unfold angleText
      rw [show "*pi/".toList = ['*', 'p', 'i', '/'] from rfl, show "pi/".toList = ['p', 'i', '/'] from rfl]
      cases neg with
      | true => cases n <;> simp
      | false =>
        cases n with
        | none => simp
        | some n =>
          have hdg := showNat_digits n
          cases hsn : showNat n with
          | nil => exact absurd hsn (showNat_ne_nil n)
          | cons c cs =>
            rw [hsn] at hdg
            have h3 := hdg c (by simp)
            simp [hsn]
            rintro rfl
            simp [isDigit] at h3
    unfold parseCrz
    by_cases hc : neg = false ∧ n = none
    · rw [if_pos (hpre.2 hc), if_pos hc]
      simp only [hbr, Outcome.bind_ok, parseAngle_text neg n d hn hd, idx, List.getElem?_cons_succ, List.getElem?_cons_zero, ia, ib, crz]
      rw [hc.1, hc.2]
      rfl
    · rw [if_neg (fun h => hc (hpre.1 h)), if_neg hc]
      rfl
  · unfold isIgnored
    simp
  · simp

namespace Spec

/-- **C10 (what holds).** For every numerator, written or not, denominator other than 1, and sign, `rz(±n*pi/d) q[a]`
is read as a rotation of qubit `a` by exactly that angle. Missing: `d = 1` with even `n`
(`c10_even_multiples_wrong`), angles written `n*pi` (`c10_no_denominator_undefined`) and the bare `pi`. -/
theorem c10_angle_partial (dflt : Placement) (neg : Bool) (n : Option Nat) (d a : Nat) (name bl : Str) (tl : Option Str) (hp : plainName name)
    (hbl : ∀ c ∈ bl, c = ' ') (ha : a < 2 ^ 32) (hn : ∀ m, n = some m → m < 2 ^ 63) (hd : d < 2 ^ 63) (hd1 : d ≠ 1) :
    ∃ g, parseGate dflt ("rz(".toList ++ angleText neg n d ++ ") ".toList ++ (bl ++ qref name a) ++ tailAnn tl) = .ok (.gate g) ∧
      (∃ f, g = .rz a f) ∧ phase g = some ((if neg then -1 else 1) * ((n.getD 1 : Nat) : Rat) / d) := by
  refine ⟨_, parse_rz_line dflt neg n d a name bl tl hp hbl ha hn hd, ?_⟩
  rw [if_neg hd1]
  exact ⟨⟨_, rfl⟩, rfl⟩

example : parseGate .dedicated "rz(-3*pi/8) q[2];".toList = .ok (.gate (.rz 2 ⟨3, 8, true⟩)) := by decide
example : angleText true (some 3) 8 = "-3*pi/8".toList ∧ angleText true none 8 = "-pi/8".toList := by decide

/-- C10 for controlled rotations: `crz(pi/d) q[a],q[b]` is read as a rotation of qubit `b` by `pi/d` controlled by qubit `a`. Other angles
are refused (`c10_crz_refused`). -/
theorem c10_crz_partial (dflt : Placement) (d a b : Nat) (name bl : Str) (tl : Option Str) (hp : plainName name)
    (hbl : ∀ c ∈ bl, c = ' ') (ha : a < 2 ^ 32) (hb : b < 2 ^ 32) (hd : d < 2 ^ 63) :
    ∃ f ty pl, parseGate dflt ("crz(".toList ++ angleText false none d ++ ") ".toList ++ (qref name a ++ ',' :: (bl ++ qref name b)) ++ tailAnn tl) = .ok (.gate (.ctrl a (.rz b f) ty pl)) ∧
      phase (.rz b f) = some (1 / (d : Rat)) := by
  refine ⟨_, _, _, parse_crz_line dflt false none d a b name bl tl hp hbl ha hb (by simp) hd, ?_⟩
  have : (1 : Rat) * ((1 : Int) : Rat) / ((d : Int) : Rat) = 1 / (d : Rat) := by rw [Rat.one_mul]; rfl
  exact congrArg some this

example : parseGate .dedicated "crz(pi/4) q[2],q[5];".toList = .ok (.gate (.ctrl 2 (.rz 5 ⟨1, 4, false⟩) .controlFirst .dedicated)) := by decide

/-- **C10 (negation).** Controlled rotations by any angle but `pi/d` are refused. -/
theorem c10_crz_refused (dflt : Placement) (neg : Bool) (n : Option Nat) (d a b : Nat) (name bl : Str) (tl : Option Str) (hp : plainName name)
    (hbl : ∀ c ∈ bl, c = ' ') (ha : a < 2 ^ 32) (hb : b < 2 ^ 32) (hn : ∀ m, n = some m → m < 2 ^ 63) (hd : d < 2 ^ 63) (h : neg = true ∨ n ≠ none) :
    parseGate dflt ("crz(".toList ++ angleText neg n d ++ ") ".toList ++ (qref name a ++ ',' :: (bl ++ qref name b)) ++ tailAnn tl) = .throws := by
  rw [parse_crz_line dflt neg n d a b name bl tl hp hbl ha hb hn hd, if_neg]
  rintro ⟨h1, h2⟩
  rcases h with h | h
  · rw [h1] at h; cases h
  · exact h h2

/-- **C10 (negation).** Every multiple of pi written with denominator 1 becomes a `Z` gate, also the even
ones, which mean the identity. -/
theorem c10_even_multiples_wrong (dflt : Placement) (neg : Bool) (n a : Nat) (name : Str) (hp : plainName name)
    (ha : a < 2 ^ 32) (hn : n < 2 ^ 63) :
    parseGate dflt ("rz(".toList ++ angleText neg (some n) 1 ++ ") ".toList ++ qref name a) = .ok (.gate (.basic a .Z)) := by
  have := parse_rz_line dflt neg (some n) 1 a name [] none hp (by simp) ha (by simpa using hn) (by decide)
  simpa [tailAnn] using this

example : angleText false (some 2) 1 = "2*pi/1".toList := by decide

/-- **C10 (negation).** An angle `n*pi` without denominator, which the code means to support
(parse_gates.cpp:129), reads a destroyed string; the plain angle `pi` is refused. -/
theorem c10_no_denominator_undefined :
    parseGate .dedicated "rz(3*pi) q[0]".toList = .ub ∧ parseGate .dedicated "rz(pi) q[0]".toList = .throws := by
  decide

/-- **C48 (negation).** The slicer changes the default ancilla placement after the gate file has been
opened (slicer.cpp:400 and 518-521), but opening the file already parses its first gate: of two equal
`cx` lines the first keeps the old default and only the second gets the new one. -/
theorem c48_first_gate_old_default :
    ∃ f, openGates .dedicated ["qreg q[2];".toList, "cx q[0],q[1];".toList, "cx q[0],q[1];".toList] = .ok f ∧
      f.drain .nextToTarget 5 = .ok [.ctrl 0 (.basic 1 .X) .controlFirst .dedicated, .ctrl 0 (.basic 1 .X) .controlFirst .nextToTarget] := by
  refine ⟨_, rfl, ?_⟩
  decide

/-- **C49 (negation).** A gate on an index outside the declared register is accepted. -/
theorem c49_index_not_checked :
    ∃ f, openGates .dedicated ["qreg q[2];".toList, "h q[7];".toList] = .ok f ∧ f.qreg = some ("q".toList, 2) ∧
      f.drain .dedicated 5 = .ok [.basic 7 .H] := by
  refine ⟨_, rfl, ?_, ?_⟩ <;> decide

end Spec
end Verif.Qasm
