import Verif.QasmProps
import Verif.DotProps

/-!
# Gates printed and read back: C75

`operator<<` for gates (`/repo/src/gates/gates.cpp:195-258`) against the reader (`/repo/src/gates/parse_gates.cpp`).
-/

namespace Verif.Qasm
open Verif.Gates Verif.Lli

theorem qubitText_ref (n : Nat) : qubitText n = qref "q".toList n := by
  unfold qubitText qref
  rw [show "q[".toList = ['q', '['] from rfl, show "q".toList = ['q'] from rfl]
  simp

theorem plain_q : plainName "q".toList := by unfold plainName; decide

/-- A text without the first character of the separator is one part. -/
theorem splitStr_free (s cur : Str) (n : Nat) (h : '*' ∉ s) (hc : cur ++ s ≠ []) :
    splitStrLoop "*pi/".toList (n + 1 + s.length) s cur false [] = some (.ok [cur ++ s]) := by
  induction s generalizing cur n with
  | nil =>
    rw [List.append_nil] at hc ⊢
    rw [List.length_nil, Nat.add_zero, splitStrLoop, if_pos hc]
    rfl
  | cons c s ih =>
    rw [List.length_cons, ← Nat.add_assoc]
    have he : equalAt "*pi/".toList (c :: s) = .ok false := equalAt_ne (by rintro rfl; exact h List.mem_cons_self) _ _
    rw [splitStrLoop, he]
    simp only
    rw [ih _ _ (fun hm => h (List.mem_cons_of_mem _ hm)) (by simp)]
    simp

theorem splitOnStr_free {s : Str} (h : '*' ∉ s) (hs : s ≠ []) : splitOnStr s "*pi/".toList = some (.ok [s]) := by
  have := splitStr_free s [] 0 h hs
  unfold splitOnStr
  rw [show s.length + 1 = 0 + 1 + s.length by omega, this]
  rfl

theorem parseQuotient_free {s : Str} (h : '*' ∉ s) (hs : s ≠ []) (neg : Bool) : parseQuotient s neg = .throws := by
  unfold parseQuotient
  rw [splitOnStr_free h hs]
  have h2 : '*' ∉ s ++ "/1".toList := by
    rw [show "/1".toList = ['/', '1'] from rfl]
    simp [h]
  simp only [Outcome.bind_ok]
  rw [splitOnStr_free h2 (by simp [hs])]
  rfl

theorem parseUnsigned_digit {c : Char} {s : Str} (hd : isDigit c = true) (h : '*' ∉ s) (neg : Bool) : parseUnsigned (c :: s) neg = .throws := by
  unfold parseUnsigned
  rw [if_neg]
  · exact parseQuotient_free (by
      intro hm
      rcases List.mem_cons.1 hm with e | e
      · rw [← e] at hd; simp [isDigit] at hd
      · exact h e) (by simp) neg
  · rw [show "pi/".toList = ['p', 'i', '/'] from rfl]
    intro hp
    simp only [List.isPrefixOf, Bool.and_eq_true, beq_iff_eq] at hp
    rw [← hp.1] at hd
    simp [isDigit] at hd

theorem int_free {c : Char} (h1 : isDigit c = false) (h2 : c ≠ '-') (z : Int) : c ∉ showInt z := by
  unfold showInt
  split
  · rw [List.mem_cons, not_or]; exact ⟨h2, notDigit_mem h1⟩
  · exact notDigit_mem h1

/-- The angle as it is printed for a rotation, `3pi/4`, is refused. -/
theorem parseAngle_printed (a b : Int) : parseAngle (showInt a ++ ("pi/".toList ++ showInt b)) = .throws := by
  have hf : ∀ s : Str, (∀ c ∈ s, isDigit c = true) → '*' ∉ s ++ ("pi/".toList ++ showInt b) := by
    intro s hs
    rw [show "pi/".toList = ['p', 'i', '/'] from rfl]
    simp only [List.mem_append, List.mem_cons, List.not_mem_nil, or_false, not_or]
    exact ⟨digit_free hs (by decide), ⟨by decide, by decide, by decide⟩, int_free (by decide) (by decide) _⟩
  have hd := showNat_digits a.natAbs
  cases hs : showNat a.natAbs with
  | nil => exact absurd hs (showNat_ne_nil _)
  | cons c cs =>
    rw [hs] at hd
    have hc := hd c List.mem_cons_self
    have hx : ∀ neg, parseUnsigned (c :: (cs ++ ("pi/".toList ++ showInt b))) neg = .throws :=
      fun neg => parseUnsigned_digit hc (hf cs (fun x hx => hd x (List.mem_cons_of_mem _ hx))) neg
    unfold showInt
    split
    · rw [hs]
      exact hx true
    · rw [hs]
      unfold parseAngle
      split
      · rename_i t ht
        rw [List.cons_append, List.cons.injEq] at ht
        rw [ht.1] at hc
        simp [isDigit] at hc
      · exact hx false

theorem parseLong_showInt (z : Int) (h : z.natAbs < 2 ^ 63) : parseLong (showInt z) = .ok z := by
  unfold showInt
  split
  · rw [parseLong_neg _ h, show -(z.natAbs : Int) = z by omega]
  · rw [parseLong_showNat _ h, show (z.natAbs : Int) = z by omega]

theorem parseAngle_pi (d : Int) (h : d.natAbs < 2 ^ 63) : parseAngle ("pi/".toList ++ showInt d) = .ok ⟨1, d, false⟩ := by
  show parseUnsigned ("pi/".toList ++ showInt d) false = _
  unfold parseUnsigned
  rw [if_pos (by rw [show "pi/".toList = ['p', 'i', '/'] from rfl]; simp [List.isPrefixOf])]
  show (do let d ← parseLong (showInt d); Outcome.ok _) = _
  rw [parseLong_showInt d h, Outcome.bind_ok]

theorem digit_sign_ne {c : Char} {z : Int} {cs r : Str} (hs : showInt z ++ r = c :: cs) : isDigit c = true ∨ c = '-' := by
  have hd := showNat_digits z.natAbs
  unfold showInt at hs
  split at hs
  · rw [List.cons_append, List.cons.injEq] at hs
    exact .inr hs.1.symm
  · cases hn : showNat z.natAbs with
    | nil => exact absurd hn (showNat_ne_nil _)
    | cons d ds =>
      rw [hn, List.cons_append, List.cons.injEq] at hs
      rw [hn] at hd
      exact .inl (hs.1 ▸ hd d List.mem_cons_self)

/-- The angle of a printed rotation. -/
abbrev rzText (f : Frac) : Str := showInt f.num ++ ("pi/".toList ++ showInt f.den)

/-- The angle of a printed controlled rotation. -/
abbrev crzText (f : Frac) : Str := (if f.num ≠ 1 then showInt f.num ++ "*pi".toList else []) ++ ("pi/".toList ++ showInt f.den)

theorem rzText_free (f : Frac) {c : Char} (h1 : isDigit c = false) (h2 : c ≠ '-' ∧ c ≠ '*' ∧ c ≠ 'p' ∧ c ≠ 'i' ∧ c ≠ '/') : c ∉ rzText f := by
  unfold rzText
  rw [show "pi/".toList = ['p', 'i', '/'] from rfl]
  simp only [List.mem_append, List.mem_cons, List.not_mem_nil, or_false, not_or]
  exact ⟨int_free h1 h2.1 _, ⟨h2.2.2.1, h2.2.2.2.1, h2.2.2.2.2⟩, int_free h1 h2.1 _⟩

theorem crzText_free (f : Frac) {c : Char} (h1 : isDigit c = false) (h2 : c ≠ '-' ∧ c ≠ '*' ∧ c ≠ 'p' ∧ c ≠ 'i' ∧ c ≠ '/') : c ∉ crzText f := by
  unfold crzText
  rw [show "pi/".toList = ['p', 'i', '/'] from rfl, show "*pi".toList = ['*', 'p', 'i'] from rfl]
  rw [List.mem_append, not_or]
  constructor
  · split
    · simp only [List.mem_append, List.mem_cons, List.not_mem_nil, or_false, not_or]
      exact ⟨int_free h1 h2.1 _, h2.2.1, h2.2.2.1, h2.2.2.2.1⟩
    · exact List.not_mem_nil
  · simp only [List.mem_append, List.mem_cons, List.not_mem_nil, or_false, not_or]
    exact ⟨⟨h2.2.2.1, h2.2.2.2.1, h2.2.2.2.2⟩, int_free h1 h2.1 _⟩

theorem index_q {n : Nat} (h : n < 2 ^ 32) : indexArg (qref "q".toList n) = .ok n := by
  rw [indexArg_qref _ _ plain_q.2.2.2 (by omega), Nat.mod_eq_of_lt h]

theorem read_rz (dflt : Placement) (q : Nat) (f : Frac) : parseGate dflt (Gate.rz q f).print = .throws := by
  have hs := one_arg_semi plain_q q (bl := []) (by simp)
  have heq : (Gate.rz q f).print = ('r' :: ('z' :: '(' :: (rzText f ++ [')']))) ++ ' ' :: ([] ++ qref "q".toList q) ++ tailAnn (some []) := by
    unfold Gate.print
    dsimp only
    rw [qubitText_ref, show "rz(".toList = ['r', 'z', '('] from rfl, show ") ".toList = [')', ' '] from rfl]
    simp [tailAnn, rzText]
  have hfree : ∀ c : Char, isDigit c = false → (c ≠ '-' ∧ c ≠ '*' ∧ c ≠ 'p' ∧ c ≠ 'i' ∧ c ≠ '/') → (c ≠ 'r' ∧ c ≠ 'z' ∧ c ≠ '(' ∧ c ≠ ')') →
      c ∉ 'r' :: ('z' :: '(' :: (rzText f ++ [')'])) := by
    intro c h1 h2 h3
    simp only [List.mem_cons, List.mem_append (t := [')']), List.not_mem_nil, or_false, not_or]
    exact ⟨h3.1, h3.2.1, h3.2.2.1, rzText_free f h1 h2, h3.2.2.2⟩
  rw [heq, parseGate_line dflt 'r' _ _ _ (by decide) (by decide) (hfree ' ' (by decide) (by decide) (by decide))
    (hfree ';' (by decide) (by decide) (by decide)) hs ?_ ?_]
  · have hb : bracketArg ('r' :: ('z' :: '(' :: (rzText f ++ [')']))) = .ok (rzText f) :=
      bracketArg_text ['r', 'z'] _ (by decide) (rzText_free _ (by decide) (by decide)) (rzText_free _ (by decide) (by decide)) (by simp [rzText])
    have hbas : basicOf ('r' :: ('z' :: '(' :: (rzText f ++ [')']))) = none := by
      unfold basicOf; simp
    simp only [parseQasmGate, hbas]
    rw [if_neg (by simp), if_neg (by simp), if_pos (by rfl)]
    have hne : rzText f ≠ "pi*-1".toList := by
      intro h
      rcases digit_sign_ne (z := f.num) (r := "pi/".toList ++ showInt f.den) (c := 'p') (cs := ['i', '*', '-', '1']) h with h | h
      · simp [isDigit] at h
      · exact absurd h (by decide)
    simp only [parseRz, hb, Outcome.bind_ok, hne, if_false]
    rw [show parseAngle (rzText f) = .throws from parseAngle_printed _ _]
    rfl
  · unfold isIgnored; simp
  · simp

theorem read_basic (dflt : Placement) (q : Nat) (t : BasicType) (h : q < 2 ^ 32) : parseGate dflt (Gate.basic q t).print = .ok (.gate (.basic q t)) := by
  have := Spec.c06_single_qubit dflt t "q".toList [] (some []) q plain_q (by simp) h
  rw [← this]
  unfold Gate.print
  dsimp only
  rw [qubitText_ref]
  cases t <;> simp [BasicType.print, Spec.keyword, tailAnn]

theorem read_ctrl (dflt : Placement) (c q : Nat) (t : BasicType) (ty : CnotType) (pl : Placement) (hc : c < 2 ^ 32) (hq : q < 2 ^ 32) :
    parseGate dflt (Gate.ctrl c (.basic q t) ty pl).print = if t = .X ∨ t = .Z then .ok (.gate (.ctrl c (.basic q t) .controlFirst dflt)) else .throws := by
  have hs := two_args_semi plain_q plain_q c q (bl := []) (by simp)
  have h2 := two_args plain_q plain_q c q (bl := []) (by simp)
  have heq : (Gate.ctrl c (.basic q t) ty pl).print = ('c' :: t.print) ++ ' ' :: (qref "q".toList c ++ ',' :: ([] ++ qref "q".toList q)) ++ tailAnn (some []) := by
    unfold Gate.print
    dsimp only
    rw [qubitText_ref, qubitText_ref]
    simp [tailAnn]
  rw [heq]
  have ic : indexArg (qref ['q'] c) = .ok c := index_q hc
  have iq : indexArg (qref ['q'] q) = .ok q := index_q hq
  cases t <;>
  · unfold BasicType.print
    rw [parseGate_line dflt _ _ _ _ (by decide) (by decide) (by decide) (by decide) hs (by decide) (by decide), h2]
    simp [parseQasmGate, basicOf, parseControlled, ic, iq, cnotTypeOf, placementOf, annOf, annotations, pieces]

theorem read_crz (dflt : Placement) (c q : Nat) (f : Frac) (ty : CnotType) (pl : Placement) (hc : c < 2 ^ 32) (hq : q < 2 ^ 32) (hd : f.den.natAbs < 2 ^ 63) :
    parseGate dflt (Gate.ctrl c (.rz q f) ty pl).print = if f.num = 1 then .ok (.gate (.ctrl c (.rz q ⟨1, f.den, false⟩) .controlFirst dflt)) else .throws := by
  have hs := two_args_semi plain_q plain_q c q (bl := []) (by simp)
  have h2 := two_args plain_q plain_q c q (bl := []) (by simp)
  have heq : (Gate.ctrl c (.rz q f) ty pl).print =
      ('c' :: ('r' :: 'z' :: '(' :: (crzText f ++ [')']))) ++ ' ' :: (qref "q".toList c ++ ',' :: ([] ++ qref "q".toList q)) ++ tailAnn (some []) := by
    unfold Gate.print
    dsimp only
    rw [qubitText_ref, qubitText_ref, show "crz(".toList = ['c', 'r', 'z', '('] from rfl, show ") ".toList = [')', ' '] from rfl]
    simp [tailAnn, crzText]
  have hfree : ∀ x : Char, isDigit x = false → (x ≠ '-' ∧ x ≠ '*' ∧ x ≠ 'p' ∧ x ≠ 'i' ∧ x ≠ '/') → (x ≠ 'c' ∧ x ≠ 'r' ∧ x ≠ 'z' ∧ x ≠ '(' ∧ x ≠ ')') →
      x ∉ 'c' :: ('r' :: 'z' :: '(' :: (crzText f ++ [')'])) := by
    intro x h1 h2 h3
    simp only [List.mem_cons, List.mem_append (t := [')']), List.not_mem_nil, or_false, not_or]
    exact ⟨h3.1, h3.2.1, h3.2.2.1, h3.2.2.2.1, crzText_free f h1 h2, h3.2.2.2.2⟩
  rw [heq, parseGate_line dflt 'c' _ _ _ (by decide) (by decide) (hfree ' ' (by decide) (by decide) (by decide))
    (hfree ';' (by decide) (by decide) (by decide)) hs ?_ ?_, h2]
  · have hbr : bracketArg ('c' :: ('r' :: 'z' :: '(' :: (crzText f ++ [')']))) = .ok (crzText f) :=
      bracketArg_text ['c', 'r', 'z'] _ (by decide) (crzText_free _ (by decide) (by decide)) (crzText_free _ (by decide) (by decide)) (by simp [crzText])
    have hbas : basicOf ('c' :: ('r' :: 'z' :: '(' :: (crzText f ++ [')']))) = none := by
      unfold basicOf; simp
    simp only [parseQasmGate, hbas]
    rw [if_neg (by simp), if_neg (by simp), if_neg (by simp), if_pos (by rfl)]
    unfold parseCrz
    by_cases h1 : f.num = 1
    · have hx : crzText f = "pi/".toList ++ showInt f.den := by unfold crzText; rw [if_neg (fun h => h h1)]; rfl
      rw [if_pos h1, if_pos (by rw [hx, show "pi/".toList = ['p', 'i', '/'] from rfl]; rfl)]
      simp only [hbr, Outcome.bind_ok, idx, List.getElem?_cons_succ, List.getElem?_cons_zero, index_q hc, index_q hq]
      rw [hx, parseAngle_pi f.den hd]
      rfl
    · have hx : crzText f = showInt f.num ++ ("*pi".toList ++ ("pi/".toList ++ showInt f.den)) := by
        unfold crzText; rw [if_pos h1, List.append_assoc]
      rw [if_neg h1, if_neg]
      · rfl
      · intro h
        cases hn : crzText f with
        | nil => rw [hx] at hn; simp at hn
        | cons x xs =>
          rw [hn, show "(pi/".toList = ['(', 'p', 'i', '/'] from rfl] at h
          simp only [List.drop_succ_cons, List.drop_zero, List.cons_append, List.take_succ_cons, List.cons.injEq] at h
          rcases digit_sign_ne (hx.symm.trans hn) with e | e
          · rw [h.2.1] at e; simp [isDigit] at e
          · rw [h.2.1] at e; exact absurd e (by decide)
  · unfold isIgnored; simp
  · simp

theorem read_reset (dflt : Placement) (r : Str) (q : Nat) : parseGate dflt (Gate.reset r q).print = .throws := by
  have heq : (Gate.reset r q).print = 'r' :: ("esetq[".toList ++ (showNat q ++ [']'])) := by
    unfold Gate.print
    dsimp only
    rw [qubitText_ref]
    rfl
  have hsp : strContains ('r' :: ("esetq[".toList ++ (showNat q ++ [']']))) ' ' = false := by
    rw [show "esetq[".toList = ['e', 's', 'e', 't', 'q', '['] from rfl]
    unfold strContains
    rw [List.any_eq_false]
    intro x hx
    simp only [List.mem_cons, List.cons_append, List.nil_append, List.mem_append, List.not_mem_nil, or_false] at hx
    rintro h
    rw [beq_iff_eq] at h
    subst h
    rcases hx with h | h | h | h | h | h | h | h | h
    all_goals first | exact absurd h (by decide) | exact space_showNat _ h
  rw [heq, parseGate_start dflt _ _ (by decide) (by decide)]
  unfold splitLine
  rw [hsp]
  simp only [Bool.false_eq_true, if_false, Outcome.bind_ok]
  rw [show "esetq[".toList = ['e', 's', 'e', 't', 'q', '['] from rfl]
  simp [isIgnored, parseQasmGate, basicOf]

theorem nat_front {a b : Nat} {x y : Str} (h : showNat a ++ x = showNat b ++ y) (hx : ∀ c r, x = c :: r → isDigit c = false) (hy : ∀ c r, y = c :: r → isDigit c = false) :
    a = b ∧ x = y := by
  have h1 := Dag.number_show a x hx
  rw [h, Dag.number_show b y hy] at h1
  have := Option.some.inj h1
  exact ⟨(congrArg Prod.fst this).symm, (congrArg Prod.snd this).symm⟩

theorem int_front {a b : Int} {x y : Str} (h : showInt a ++ x = showInt b ++ y) (hx : ∀ c r, x = c :: r → isDigit c = false) (hy : ∀ c r, y = c :: r → isDigit c = false) :
    a = b ∧ x = y := by
  have hn : ∀ (n : Nat) (u v : Str), showNat n ++ u ≠ '-' :: v := by
    intro n u v e
    have hd := showNat_digits n
    cases hs : showNat n with
    | nil => exact absurd hs (showNat_ne_nil n)
    | cons c cs =>
      rw [hs, List.cons_append, List.cons.injEq] at e
      have := hd c (by rw [hs]; exact List.mem_cons_self)
      rw [e.1] at this
      simp [isDigit] at this
  unfold showInt at h
  split at h
  · split at h
    · rw [List.cons_append, List.cons_append, List.cons.injEq] at h
      obtain ⟨e1, e2⟩ := nat_front h.2 hx hy
      exact ⟨by omega, e2⟩
    · exact absurd h.symm (hn _ _ _)
  · split at h
    · exact absurd h (hn _ _ _)
    · obtain ⟨e1, e2⟩ := nat_front h hx hy
      exact ⟨by omega, e2⟩

theorem qubit_front {a b : Nat} {x y : Str} (h : qubitText a ++ x = qubitText b ++ y) : a = b ∧ x = y := by
  unfold qubitText at h
  rw [List.append_assoc, List.append_assoc, List.append_assoc, List.append_assoc, List.append_cancel_left_eq] at h
  obtain ⟨e1, e2⟩ := nat_front h (by rintro c r e; cases e; decide) (by rintro c r e; cases e; decide)
  exact ⟨e1, (List.cons.inj e2).2⟩

theorem type_front {t t' : BasicType} {x y : Str} (h : t.print ++ ' ' :: x = t'.print ++ ' ' :: y) : t = t' ∧ x = y := by
  have hf : ∀ t : BasicType, ' ' ∉ t.print := fun t => by cases t <;> decide
  have h1 := congrArg (List.takeWhile (· ≠ ' ')) h
  have h2 := congrArg (List.dropWhile (· ≠ ' ')) h
  rw [(Dag.span_ne (hf t)).1, (Dag.span_ne (hf t')).1] at h1
  rw [(Dag.span_ne (hf t)).2, (Dag.span_ne (hf t')).2] at h2
  exact ⟨by cases t <;> cases t' <;> first | rfl | exact absurd h1 (by decide), (List.cons.inj h2).2⟩

/-- The kinds of gates, told apart by the first characters of their text. -/
def kind : Gate → Nat
  | .basic _ _ => 0
  | .rz _ _ => 1
  | .ctrl _ (.basic _ _) _ _ => 2
  | .ctrl _ (.rz _ _) _ _ => 3
  | .reset _ _ => 4

def kindOf : Str → Nat
  | 'c' :: 'r' :: _ => 3
  | 'c' :: _ => 2
  | 'r' :: 'z' :: _ => 1
  | 'r' :: _ => 4
  | _ => 0

theorem kind_print (g : Gate) : kindOf g.print = kind g := by
  cases g with
  | basic q t => cases t <;> rfl
  | rz q f => rfl
  | reset r q => rfl
  | ctrl c t ty pl =>
    cases t with
    | basic q t => cases t <;> rfl
    | rz q f => rfl

namespace Spec

/-- What the text of a gate does not say: the sign of an angle, how a CNOT is carried out, the register of a reset. -/
def unsaid : Gate → Gate
  | .basic q t => .basic q t
  | .rz q f => .rz q { f with neg := false }
  | .ctrl c (.basic q t) _ _ => .ctrl c (.basic q t) .controlFirst .dedicated
  | .ctrl c (.rz q f) _ _ => .ctrl c (.rz q { f with neg := false }) .controlFirst .dedicated
  | .reset _ q => .reset [] q

/-- **C75 (what the text says).** Two gates have the same text exactly when they differ at most in the sign of an angle, the way a CNOT is carried out and the
register of a reset. -/
theorem c75_text (g g' : Gate) : g.print = g'.print ↔ unsaid g = unsaid g' := by
  have hsep : ∀ (c : Char) (r : Str), isDigit c = false → ∀ c' r', c :: r = c' :: r' → isDigit c' = false := by
    rintro c r h c' r' e; cases e; exact h
  constructor
  · intro h
    have hk : kind g = kind g' := by rw [← kind_print, ← kind_print, h]
    cases g with
    | basic q t =>
      cases g' with
      | basic q' t' =>
        unfold Gate.print at h
        dsimp only at h
        rw [List.append_assoc, List.append_assoc] at h
        obtain ⟨e1, h1⟩ := type_front h
        rw [(qubit_front h1).1, e1]
      | rz q' f' => cases hk
      | ctrl c' t' ty' pl' => cases t' <;> cases hk
      | reset r' q' => cases hk
    | rz q f =>
      cases g' with
      | basic q' t' => cases hk
      | rz q' f' =>
        unfold Gate.print at h
        simp only [List.append_assoc, List.append_cancel_left_eq] at h
        obtain ⟨e1, h1⟩ := int_front h (hsep _ _ (by decide)) (hsep _ _ (by decide))
        rw [List.append_cancel_left_eq] at h1
        obtain ⟨e2, h2⟩ := int_front h1 (hsep _ _ (by decide)) (hsep _ _ (by decide))
        rw [List.append_cancel_left_eq] at h2
        unfold unsaid
        dsimp only
        rw [(qubit_front h2).1, e1, e2]
      | ctrl c' t' ty' pl' => cases t' <;> cases hk
      | reset r' q' => cases hk
    | reset r q =>
      cases g' with
      | basic q' t' => cases hk
      | rz q' f' => cases hk
      | ctrl c' t' ty' pl' => cases t' <;> cases hk
      | reset r' q' =>
        unfold Gate.print at h
        dsimp only at h
        rw [List.append_cancel_left_eq] at h
        have h : qubitText q ++ [] = qubitText q' ++ [] := by rw [List.append_nil, List.append_nil]; exact h
        unfold unsaid
        dsimp only
        rw [(qubit_front h).1]
    | ctrl c t ty pl =>
      cases g' with
      | basic q' t' => cases t <;> cases hk
      | rz q' f' => cases t <;> cases hk
      | reset r' q' => cases t <;> cases hk
      | ctrl c' t' ty' pl' =>
        cases t with
        | basic q t =>
          cases t' with
          | basic q' t' =>
            unfold Gate.print at h
            simp only [List.append_assoc, List.cons_append, List.cons.injEq, true_and] at h
            obtain ⟨e1, h1⟩ := type_front h
            obtain ⟨e2, h2⟩ := qubit_front h1
            obtain ⟨e3, -⟩ := qubit_front (List.cons.inj h2).2
            rw [e1, e2, e3]
            rfl
          | rz q' f' => cases hk
        | rz q f =>
          cases t' with
          | basic q' t' => cases hk
          | rz q' f' =>
            unfold Gate.print at h
            simp only [List.append_assoc, List.append_cancel_left_eq] at h
            have hno : ∀ (z : Int) (u v : Str), "pi/".toList ++ u ≠ showInt z ++ v := by
              intro z u v e
              rcases digit_sign_ne (c := 'p') (cs := ['i', '/'] ++ u) e.symm with e | e
              · simp [isDigit] at e
              · exact absurd e (by decide)
            have key : f.num = f'.num ∧ showInt f.den ++ (") ".toList ++ (qubitText c ++ (',' :: (qubitText q ++ [';'])))) =
                showInt f'.den ++ (") ".toList ++ (qubitText c' ++ (',' :: (qubitText q' ++ [';'])))) := by
              by_cases n1 : f.num = 1
              · rw [if_neg (fun x => x n1)] at h
                by_cases n2 : f'.num = 1
                · rw [if_neg (fun x => x n2), List.nil_append, List.nil_append, List.append_cancel_left_eq] at h
                  exact ⟨n1.trans n2.symm, h⟩
                · rw [if_pos n2, List.nil_append, List.append_assoc] at h
                  exact absurd h (hno _ _ _)
              · rw [if_pos n1, List.append_assoc] at h
                by_cases n2 : f'.num = 1
                · rw [if_neg (fun x => x n2), List.nil_append] at h
                  exact absurd h.symm (hno _ _ _)
                · rw [if_pos n2, List.append_assoc] at h
                  obtain ⟨e1, h1⟩ := int_front h (hsep _ _ (by decide)) (hsep _ _ (by decide))
                  rw [List.append_cancel_left_eq, List.append_cancel_left_eq] at h1
                  exact ⟨e1, h1⟩
            obtain ⟨e1, h1⟩ := key
            obtain ⟨e2, h2⟩ := int_front h1 (hsep _ _ (by decide)) (hsep _ _ (by decide))
            rw [List.append_cancel_left_eq] at h2
            obtain ⟨e3, h3⟩ := qubit_front h2
            obtain ⟨e4, -⟩ := qubit_front (List.cons.inj h3).2
            unfold unsaid
            dsimp only
            rw [e1, e2, e3, e4]
  · intro h
    have hp : ∀ g, (unsaid g).print = g.print := by
      intro g
      cases g with
      | basic q t => rfl
      | rz q f => rfl
      | reset r q => rfl
      | ctrl c t ty pl => cases t <;> rfl
    rw [← hp g, h, hp g']

example : Gate.print (.rz 2 ⟨3, 8, true⟩) = Gate.print (.rz 2 ⟨3, 8, false⟩) ∧ unsaid (.rz 2 ⟨3, 8, true⟩) = unsaid (.rz 2 ⟨3, 8, false⟩) := by decide

/-- Qubits and denominators are in the range of their types (the smallest denominator left out). -/
def InRange : Gate → Prop
  | .basic q _ => q < 2 ^ 32
  | .rz _ _ => True
  | .ctrl c (.basic q _) _ _ => c < 2 ^ 32 ∧ q < 2 ^ 32
  | .ctrl c (.rz q f) _ _ => c < 2 ^ 32 ∧ q < 2 ^ 32 ∧ f.den.natAbs < 2 ^ 63
  | .reset _ _ => True

/-- The gate written by the text of a gate, as QASM: the text says neither how a CNOT is carried out nor the sign of an angle. -/
def written (dflt : Placement) : Gate → Option Gate
  | .basic q t => some (.basic q t)
  | .rz _ _ => none
  | .ctrl c (.basic q .X) _ _ => some (.ctrl c (.basic q .X) .controlFirst dflt)
  | .ctrl c (.basic q .Z) _ _ => some (.ctrl c (.basic q .Z) .controlFirst dflt)
  | .ctrl _ (.basic _ _) _ _ => none
  | .ctrl c (.rz q f) _ _ => if f.num = 1 then some (.ctrl c (.rz q ⟨1, f.den, false⟩) .controlFirst dflt) else none
  | .reset _ _ => none

/-- **C75 (what is read).** What the reader makes of the text of any gate. -/
theorem c75_read (dflt : Placement) (g : Gate) (h : InRange g) :
    parseGate dflt g.print = match written dflt g with | some g' => .ok (.gate g') | none => .throws := by
  cases g with
  | basic q t => exact read_basic dflt q t h
  | rz q f => exact read_rz dflt q f
  | reset r q => exact read_reset dflt r q
  | ctrl c t ty pl =>
    cases t with
    | basic q t =>
      rw [read_ctrl dflt c q t ty pl h.1 h.2]
      cases t <;> rfl
    | rz q f =>
      rw [read_crz dflt c q f ty pl h.1 h.2.1 h.2.2]
      unfold written
      by_cases h1 : f.num = 1
      · simp only [if_pos h1]
      · simp only [if_neg h1]

/-- **C75 (what survives).** A gate is read back from its text exactly when it is a gate on one qubit other than a rotation and a reset, or a CNOT, CZ or
rotation by `+pi/d` under a control, carried out the way taken when nothing is said. -/
theorem c75_survives_partial (dflt : Placement) (g : Gate) (h : InRange g) :
    parseGate dflt g.print = .ok (.gate g) ↔
      (∃ q t, g = .basic q t) ∨ (∃ c q t, (t = .X ∨ t = .Z) ∧ g = .ctrl c (.basic q t) .controlFirst dflt) ∨
        ∃ c q d, g = .ctrl c (.rz q ⟨1, d, false⟩) .controlFirst dflt := by
  rw [c75_read dflt g h]
  constructor
  · intro hx
    cases g with
    | basic q t => exact .inl ⟨q, t, rfl⟩
    | rz q f => cases hx
    | reset r q => cases hx
    | ctrl c t ty pl =>
      cases t with
      | basic q t =>
        cases t <;> first | cases hx; done | (cases hx; exact .inr (.inl ⟨c, q, _, by simp, rfl⟩))
      | rz q f =>
        by_cases h1 : f.num = 1
        · simp only [written, h1, if_true] at hx
          have hx := ParseResult.gate.inj (Outcome.ok.inj hx)
          exact .inr (.inr ⟨c, q, f.den, hx.symm⟩)
        · simp only [written, h1, if_false] at hx
          cases hx
  · rintro (⟨q, t, rfl⟩ | ⟨c, q, t, rfl | rfl, rfl⟩ | ⟨c, q, d, rfl⟩) <;> rfl

example : InRange (.ctrl 3 (.rz 12 ⟨1, -4, false⟩) .controlFirst .dedicated) ∧
    Gate.print (.ctrl 3 (.rz 12 ⟨1, -4, false⟩) .controlFirst .dedicated) = "crz(pi/-4) q[3],q[12];".toList :=
  ⟨⟨by decide, by decide, by decide⟩, by decide⟩

/-- **C75 fails for rotations and resets**: their text cannot be read, whatever they are. -/
theorem c75_rotations_wrong (dflt : Placement) (g : Gate) (h : (∃ q f, g = .rz q f) ∨ ∃ r q, g = .reset r q) : parseGate dflt g.print = .throws := by
  rcases h with ⟨q, f, rfl⟩ | ⟨r, q, rfl⟩
  · exact read_rz dflt q f
  · exact read_reset dflt r q

example : Gate.print (.rz 2 ⟨3, 8, true⟩) = "rz(3pi/8) q[2];".toList ∧ Gate.print (.reset "q".toList 2) = "resetq[2]".toList ∧
    Gate.print (.ctrl 0 (.rz 1 ⟨3, 8, false⟩) .controlFirst .dedicated) = "crz(3*pipi/8) q[0],q[1];".toList := by decide

/-- **C75 fails for other gates under a control, and for their angles**: the text of a controlled rotation by `-pi/d` is read as one by `+pi/d`, and one with
another numerator is refused. -/
theorem c75_controlled_wrong (dflt : Placement) (c q : Nat) (d : Int) (ty : CnotType) (pl : Placement) (hc : c < 2 ^ 32) (hq : q < 2 ^ 32) (hd : d.natAbs < 2 ^ 63) :
    parseGate dflt (Gate.ctrl c (.rz q ⟨1, d, true⟩) ty pl).print = .ok (.gate (.ctrl c (.rz q ⟨1, d, false⟩) .controlFirst dflt)) ∧
      ∀ n : Int, n ≠ 1 → ∀ b, parseGate dflt (Gate.ctrl c (.rz q ⟨n, d, b⟩) ty pl).print = .throws := by
  constructor
  · rw [read_crz dflt c q _ ty pl hc hq hd, if_pos rfl]
  · intro n hn b
    rw [read_crz dflt c q _ ty pl hc hq hd, if_neg hn]

end Spec

end Verif.Qasm
