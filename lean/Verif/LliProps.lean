import Verif.LliLemmas

/-!
# Properties of the LLI text format: C02, C03, C04
-/

namespace Verif.Lli

/-! ## Reading a printed line -/

theorem parseInstr_word {w : Str} (h : ' ' ∉ w) (rest : Str) :
    parseInstr (w ++ ' ' :: rest) = (match kindOf w with | none => .throws | some k => parseArgs (pieces ' ' rest) k) := by
  unfold parseInstr
  rw [splitOn_cons (by simp), pieces_sep h]
  rfl

theorem argId_showNat (n : Nat) (as : List Str) :
    argId (showNat n :: as) = if n < 2 ^ 31 then .ok (n, as) else .throws := by
  unfold argId nextArg
  simp only [Outcome.bind_ok, parsePatchId_showNat]
  split <;> rfl

theorem pieces_nat (n : Nat) (t : Str) : pieces ' ' (showNat n ++ ' ' :: t) = showNat n :: pieces ' ' t :=
  pieces_sep (space_showNat n) t

theorem pieces_nat_end (n : Nat) : pieces ' ' (showNat n) = [showNat n] := pieces_of_free (space_showNat n)

/-! ## What the reader can produce -/

namespace Spec

/-- An operation survives being printed and read back. -/
def RoundTrips (op : Operation) : Prop :=
  ∃ line i, printOp op = .ok line ∧ parseInstr line = .ok i ∧ i.op = op

/-- The operations the LLI text can carry: ids fit in an `int`, nothing is negated or daggered, no
local instructions are attached, and the kind has a keyword of its own. -/
def Carried : Operation → Prop
  | .declare ids => ids = []
  | .measure t _ neg => t < 2 ^ 31 ∧ neg = false
  | .multi obs neg loc => (∀ e ∈ obs, e.1 < 2 ^ 31) ∧ (obs.map (·.1)).Nodup ∧ neg = false ∧ loc = none
  | .init t _ nx => t < 2 ^ 31 ∧ ∀ n, nx = some n → n.target < 2 ^ 31
  | .bell b => b.side1 < 2 ^ 31 ∧ b.side2 < 2 ^ 31 ∧ b.loc1.target < 2 ^ 31 ∧ b.loc2.target < 2 ^ 31 ∧
      b.localInstrs = none ∧ b.counter = none
  | .magic t n => t < 2 ^ 31 ∧ n < 2 ^ 31
  | .ystate t n loc => t < 2 ^ 31 ∧ n < 2 ^ 31 ∧ loc = none
  | .sq t o dg => t < 2 ^ 31 ∧ (o = .H ∨ o = .S) ∧ dg = false
  | .rotate t => t < 2 ^ 31
  | .busy _ _ _ => False
  | .bellCnot c => c.control < 2 ^ 31 ∧ c.target < 2 ^ 31 ∧ c.side1 < 2 ^ 31 ∧ c.side2 < 2 ^ 31 ∧
      c.route = none ∧ c.counterPairs = none ∧ c.localSets = none ∧ c.phase = none
  | .reset _ => False

end Spec
open Spec

/-- Shape of the results of `parseArgs`. -/
def Shape : Operation → Prop
  | .measure _ _ neg => neg = false
  | .multi obs neg loc => (keys obs).Nodup ∧ neg = false ∧ loc = none
  | .bell b => b.localInstrs = none ∧ b.counter = none
  | .ystate _ _ loc => loc = none
  | .sq _ _ dg => dg = false
  | .busy _ _ _ => False
  | .bellCnot c => c.route = none ∧ c.counterPairs = none ∧ c.localSets = none ∧ c.phase = none
  | .reset _ => False
  | _ => True

theorem parseArgs_shape {as : List Str} {k : Kind} {i : Instr} (h : parseArgs as k = .ok i) : Shape i.op := by
  cases k <;> simp only [parseArgs, Outcome.bind_eq_ok] at h
  case bell =>
    obtain ⟨_, _, _, _, _, _, _, _, h⟩ := h
    split at h <;> cases h
    exact ⟨rfl, rfl⟩
  case init =>
    obtain ⟨_, _, _, _, _, _, h⟩ := h
    split at h
    · cases h; trivial
    · simp only [Outcome.bind_eq_ok] at h
      obtain ⟨_, _, h⟩ := h; cases h; trivial
  case multi =>
    obtain ⟨_, _, m, hm, h⟩ := h
    cases h
    exact ⟨parseDictLoop_nodup (by simp [keys]) hm, rfl, rfl⟩
  case declare => obtain ⟨_, _, _, _, h⟩ := h; cases h; trivial
  case measure => obtain ⟨_, _, _, _, _, _, h⟩ := h; cases h; rfl
  case magic => obtain ⟨_, _, _, _, h⟩ := h; cases h; trivial
  case pauli => obtain ⟨_, _, _, _, _, _, h⟩ := h; cases h; rfl
  case h => obtain ⟨_, _, h⟩ := h; cases h; rfl
  case s => obtain ⟨_, _, h⟩ := h; cases h; rfl
  case rotate => obtain ⟨_, _, h⟩ := h; cases h; trivial
  case ystate => obtain ⟨_, _, _, _, h⟩ := h; cases h; rfl
  case cnot => obtain ⟨_, _, _, _, _, _, _, _, h⟩ := h; cases h; exact ⟨rfl, rfl, rfl, rfl⟩

theorem parseInstr_shape {line : Str} {i : Instr} (h : parseInstr line = .ok i) : Shape i.op := by
  unfold parseInstr at h
  simp only [Outcome.bind_eq_ok] at h
  obtain ⟨_, _, h⟩ := h
  split at h
  · simp at h
  · exact parseArgs_shape h

theorem roundTrips_shape {op : Operation} (h : RoundTrips op) : Shape op := by
  obtain ⟨_, i, _, hp, rfl⟩ := h
  exact parseInstr_shape hp

/-! ## Per kind -/

theorem rt_measure (t : Nat) (o : Pauli) : RoundTrips (.measure t o false) ↔ t < 2 ^ 31 := by
  have hp : printOp (.measure t o false) = .ok ("MeasureSinglePatch".toList ++ ' ' :: (showNat t ++ ' ' :: pauliStr o)) := by
    simp [printOp]
  have hr : parseInstr ("MeasureSinglePatch".toList ++ ' ' :: (showNat t ++ ' ' :: pauliStr o)) =
      if t < 2 ^ 31 then .ok { op := .measure t o false } else .throws := by
    rw [parseInstr_word (by decide), show kindOf "MeasureSinglePatch".toList = some .measure by decide]
    rw [pieces_nat, pieces_of_free (pauliStr_free _ _ (by decide))]
    simp only [parseArgs, argId_showNat]
    split
    · simp [nextArg, pauliOf_pauliStr]
    · rfl
  unfold RoundTrips; rw [hp]
  constructor
  · rintro ⟨line, i, h1, h2, _⟩
    cases h1; rw [hr] at h2
    by_cases h : t < 2 ^ 31
    · exact h
    · rw [if_neg h] at h2; cases h2
  · intro h; exact ⟨_, _, rfl, by rw [hr, if_pos h], rfl⟩

/-- Turning an exact reading result into the round-trip equivalence. -/
theorem rt_of {op : Operation} {line : Str} {P : Prop} [Decidable P] {i : Instr} (hp : printOp op = .ok line)
    (hr : parseInstr line = if P then .ok i else .throws) (ho : i.op = op) : RoundTrips op ↔ P := by
  unfold RoundTrips; rw [hp]
  constructor
  · rintro ⟨_, j, h1, h2, _⟩
    cases h1; rw [hr] at h2
    by_cases h : P
    · exact h
    · rw [if_neg h] at h2; cases h2
  · intro h; exact ⟨_, i, rfl, by rw [hr, if_pos h], ho⟩

theorem not_rt_of {op : Operation} {line : Str} (hp : printOp op = .ok line) (hr : parseInstr line = .throws) :
    ¬ RoundTrips op := by
  rintro ⟨_, j, h1, h2, _⟩
  rw [hp] at h1; cases h1; rw [hr] at h2; cases h2

theorem rt_rotate (t : Nat) : RoundTrips (.rotate t) ↔ t < 2 ^ 31 := by
  refine rt_of (line := "RotateSingleCellPatch".toList ++ ' ' :: showNat t) (i := { op := .rotate t }) rfl ?_ rfl
  rw [parseInstr_word (by decide), show kindOf "RotateSingleCellPatch".toList = some .rotate by decide, pieces_nat_end]
  simp only [parseArgs, argId_showNat]
  split <;> rfl

theorem rt_magic (t n : Nat) : RoundTrips (.magic t n) ↔ t < 2 ^ 31 ∧ n < 2 ^ 31 := by
  refine rt_of (line := "RequestMagicState".toList ++ ' ' :: (showNat t ++ ' ' :: showNat n)) (i := { op := .magic t n }) rfl ?_ rfl
  rw [parseInstr_word (by decide), show kindOf "RequestMagicState".toList = some .magic by decide, pieces_nat, pieces_nat_end]
  simp only [parseArgs, argId_showNat]
  by_cases h1 : t < 2 ^ 31 <;> by_cases h2 : n < 2 ^ 31 <;> simp [h1, h2, argId_showNat]

theorem rt_ystate (t n : Nat) : RoundTrips (.ystate t n none) ↔ t < 2 ^ 31 ∧ n < 2 ^ 31 := by
  refine rt_of (line := "RequestYState".toList ++ ' ' :: (showNat t ++ ' ' :: showNat n)) (i := { op := .ystate t n none }) ?_ ?_ rfl
  · simp [printOp]
  rw [parseInstr_word (by decide), show kindOf "RequestYState".toList = some .ystate by decide, pieces_nat, pieces_nat_end]
  simp only [parseArgs, argId_showNat]
  by_cases h1 : t < 2 ^ 31 <;> by_cases h2 : n < 2 ^ 31 <;> simp [h1, h2, argId_showNat]

theorem rt_h (t : Nat) : RoundTrips (.sq t .H false) ↔ t < 2 ^ 31 := by
  refine rt_of (line := "HGate".toList ++ ' ' :: showNat t) (i := { op := .sq t .H false }) rfl ?_ rfl
  rw [parseInstr_word (by decide), show kindOf "HGate".toList = some .h by decide, pieces_nat_end]
  simp only [parseArgs, argId_showNat]
  split <;> rfl

theorem rt_s (t : Nat) : RoundTrips (.sq t .S false) ↔ t < 2 ^ 31 := by
  refine rt_of (line := "SGate".toList ++ ' ' :: showNat t) (i := { op := .sq t .S false }) rfl ?_ rfl
  rw [parseInstr_word (by decide), show kindOf "SGate".toList = some .s by decide, pieces_nat_end]
  simp only [parseArgs, argId_showNat]
  split <;> rfl

/-- The lines printed for logical Pauli gates are refused by the reader. -/
theorem pauli_line_refused (t : Nat) (o : SqOp) (dg : Bool) (h : o = .X ∨ o = .Y ∨ o = .Z) :
    ∃ line, printOp (.sq t o dg) = .ok line ∧ parseInstr line = .throws := by
  rcases h with rfl | rfl | rfl
  · exact ⟨"XGate".toList ++ ' ' :: showNat t, rfl, by rw [parseInstr_word (by decide)]; rfl⟩
  · exact ⟨"YGate".toList ++ ' ' :: showNat t, rfl, by rw [parseInstr_word (by decide)]; rfl⟩
  · exact ⟨"ZGate".toList ++ ' ' :: showNat t, rfl, by rw [parseInstr_word (by decide)]; rfl⟩

theorem placement_split (n : NextTo) : parsePlacement (nextStr n) = if n.target < 2 ^ 31 then .ok n else .throws := by
  unfold parsePlacement; rw [nextStr_split]
  simp only [parsePatchId_showNat]
  split <;> simp [pauliOf_pauliStr]

theorem rt_init (t : Nat) (s : InitState) (nx : Option NextTo) :
    RoundTrips (.init t s nx) ↔ t < 2 ^ 31 ∧ ∀ n, nx = some n → n.target < 2 ^ 31 := by
  cases nx with
  | none =>
    simp only [reduceCtorEq, false_implies, implies_true, and_true]
    refine rt_of (line := "Init".toList ++ ' ' :: (showNat t ++ ' ' :: stateStr s)) (i := { op := .init t s none, clients := [t] }) ?_ ?_ rfl
    · simp [printOp]
    rw [parseInstr_word (by decide), show kindOf "Init".toList = some .init by decide, pieces_nat, pieces_of_free (stateStr_free s)]
    simp only [parseArgs, argId_showNat]
    split
    · simp [nextArg, parseState_stateStr]
    · rfl
  | some n =>
    simp only [Option.some.injEq, forall_eq']
    refine rt_of (line := "Init".toList ++ ' ' :: (showNat t ++ ' ' :: (stateStr s ++ ' ' :: nextStr n)))
      (i := { op := .init t s (some n), clients := [t] }) ?_ ?_ rfl
    · simp [printOp]
    rw [parseInstr_word (by decide), show kindOf "Init".toList = some .init by decide, pieces_nat,
      pieces_sep (stateStr_free s), pieces_of_free (nextStr_space n)]
    simp only [parseArgs, argId_showNat]
    by_cases h1 : t < 2 ^ 31
    · simp only [h1, if_true, Outcome.bind_ok, nextArg, parseState_stateStr, placement_split, true_and]
      split <;> simp
    · simp [h1]

theorem rt_multi (obs : List (Nat × Pauli)) (hd : (keys obs).Nodup) :
    RoundTrips (.multi obs false none) ↔ ∀ e ∈ obs, e.1 < 2 ^ 31 := by
  refine rt_of (line := "MultiBodyMeasure".toList ++ ' ' :: joinStr (obs.map obsEntry) [',']) (i := { op := .multi obs false none }) ?_ ?_ rfl
  · simp [printOp]
  rw [parseInstr_word (by decide), show kindOf "MultiBodyMeasure".toList = some .multi by decide, pieces_of_free (obsJoin_space obs)]
  simp only [parseArgs, nextArg, Outcome.bind_ok, parseDict]
  by_cases ho : obs = []
  · subst ho; simp; rfl
  · rw [obsJoin_split obs ho, parseDictLoop_obs obs [] (by simpa using hd)]
    split <;> simp

theorem rt_bell (b : BellInit) (h1 : b.localInstrs = none) (h2 : b.counter = none) :
    RoundTrips (.bell b) ↔ b.side1 < 2 ^ 31 ∧ b.side2 < 2 ^ 31 ∧ b.loc1.target < 2 ^ 31 ∧ b.loc2.target < 2 ^ 31 := by
  obtain ⟨s1, s2, l1, l2, li, co⟩ := b
  simp only at h1 h2; subst h1; subst h2
  refine rt_of (line := "BellPairInit".toList ++ ' ' :: (showNat s1 ++ ' ' :: (showNat s2 ++ ' ' :: (nextStr l1 ++ ',' :: nextStr l2))))
    (i := { op := .bell ⟨s1, s2, l1, l2, none, none⟩ }) ?_ ?_ rfl
  · simp [printOp]
  have hfree : ' ' ∉ nextStr l1 ++ ',' :: nextStr l2 := by
    simp only [List.mem_append, List.mem_cons, not_or]
    exact ⟨nextStr_space _, by decide, nextStr_space _⟩
  rw [parseInstr_word (by decide), show kindOf "BellPairInit".toList = some .bell by decide, pieces_nat, pieces_nat,
    pieces_of_free hfree]
  simp only [parseArgs, argId_showNat]
  by_cases g1 : s1 < 2 ^ 31
  · by_cases g2 : s2 < 2 ^ 31
    · simp only [g1, g2, if_true, Outcome.bind_ok, argId_showNat, nextArg, true_and]
      rw [splitOn_cons (by simp), pieces_sep (nextStr_comma l1), pieces_of_free (nextStr_comma l2)]
      simp only [parseLocsLoop, nextStr_split, parsePatchId_showNat]
      by_cases g3 : l1.target < 2 ^ 31 <;> by_cases g4 : l2.target < 2 ^ 31 <;>
        simp [g3, g4, pauliOf_pauliStr]
    · simp [g1, g2, argId_showNat]
  · simp [g1]

theorem rt_bellCnot (c : BellCNOT) (h : c.route = none ∧ c.counterPairs = none ∧ c.localSets = none ∧ c.phase = none) :
    RoundTrips (.bellCnot c) ↔ c.control < 2 ^ 31 ∧ c.target < 2 ^ 31 ∧ c.side1 < 2 ^ 31 ∧ c.side2 < 2 ^ 31 := by
  obtain ⟨a, b, s1, s2, r, cp, ls, ph⟩ := c
  obtain ⟨h1, h2, h3, h4⟩ := h
  simp only at h1 h2 h3 h4; subst h1; subst h2; subst h3; subst h4
  refine rt_of (line := "BellBasedCNOT".toList ++ ' ' :: (showNat a ++ ' ' :: (showNat b ++ ' ' :: (showNat s1 ++ ' ' :: showNat s2))))
    (i := { op := .bellCnot ⟨a, b, s1, s2, none, none, none, none⟩ }) ?_ ?_ rfl
  · simp [printOp]
  rw [parseInstr_word (by decide), show kindOf "BellBasedCNOT".toList = some .cnot by decide, pieces_nat, pieces_nat,
    pieces_nat, pieces_nat_end]
  simp only [parseArgs, argId_showNat]
  by_cases g1 : a < 2 ^ 31 <;> by_cases g2 : b < 2 ^ 31 <;> by_cases g3 : s1 < 2 ^ 31 <;> by_cases g4 : s2 < 2 ^ 31 <;>
    simp [g1, g2, g3, g4, argId_showNat]

theorem joinNat_cons (x : Nat) (xs : List Nat) :
    joinNat (x :: xs) [','] = Char.ofNat (x % 256) :: xs.flatMap (fun v => ',' :: showNat v) := by
  have : ∀ (xs : List Nat) (a : Str), xs.foldl (fun acc v => acc ++ [','] ++ showNat v) a =
      a ++ xs.flatMap (fun v => ',' :: showNat v) := by
    intro xs
    induction xs with
    | nil => simp
    | cons y ys ih => intro a; rw [List.foldl_cons, ih]; simp
  simp only [joinNat, this, List.singleton_append]

theorem pieces_flat (xs : List Nat) (c : Char) (hc : c ≠ ',') :
    ∃ tl, pieces ',' (c :: xs.flatMap (fun v => ',' :: showNat v)) = [c] :: tl := by
  cases xs with
  | nil => exact ⟨[], by simpa using pieces_of_free (d := ',') (p := [c]) (by simpa using fun h => hc h.symm)⟩
  | cons y ys =>
    refine ⟨pieces ',' (showNat y ++ ys.flatMap (fun v => ',' :: showNat v)), ?_⟩
    rw [List.flatMap_cons, List.cons_append]
    exact pieces_sep (p := [c]) (by simpa using fun h => hc h.symm) _

theorem parseIdLoop_head {ps : List Str} {acc ids : List Nat} {x : Nat} (h : acc.head? = some x)
    (hp : parseIdLoop ps acc = .ok ids) : ids.head? = some x := by
  induction ps generalizing acc with
  | nil => cases hp; exact h
  | cons p ps ih =>
    unfold parseIdLoop at hp
    simp only [Outcome.bind_eq_ok] at hp
    obtain ⟨k, _, hp⟩ := hp
    refine ih ?_ hp
    unfold oset; split
    · exact h
    · cases acc with
      | nil => simp at h
      | cons a as => simpa using h

theorem ofNat_toNat_small {n : Nat} (h : n < 256) : (Char.ofNat n).toNat = n := by
  have : n.isValidChar := Or.inl (by omega)
  simp [Char.ofNat, this, Char.toNat, Char.ofNatAux]

theorem rt_declare (ids : List Nat) : RoundTrips (.declare ids) ↔ ids = [] := by
  constructor
  · rintro ⟨line, i, h1, h2, h3⟩
    cases ids with
    | nil => rfl
    | cons x xs =>
      exfalso
      have hp : printOp (.declare (x :: xs)) = .ok ("DeclareLogicalQubitPatches".toList ++ ' ' :: joinNat (x :: xs) [',']) := rfl
      rw [hp] at h1; cases h1
      rw [parseInstr_word (by decide), show kindOf "DeclareLogicalQubitPatches".toList = some .declare by decide, joinNat_cons] at h2
      simp only [parseArgs, Outcome.bind_eq_ok] at h2
      obtain ⟨⟨a, rest⟩, ha, ids, hi, h2⟩ := h2
      cases h2; simp at h3; subst h3
      generalize hc : Char.ofNat (x % 256) = c at ha
      have hct : c.toNat = x % 256 := by rw [← hc]; exact ofNat_toNat_small (Nat.mod_lt _ (by omega))
      by_cases hsp : c = ' '
      · subst hsp
        have : pieces ' ' (' ' :: xs.flatMap (fun v => ',' :: showNat v)) = [] :: pieces ' ' (xs.flatMap (fun v => ',' :: showNat v)) :=
          pieces_sep (p := []) (by simp) _
        rw [this] at ha; cases ha
        cases hi
      · have hfree : ' ' ∉ c :: xs.flatMap (fun v => ',' :: showNat v) := by
          simp only [List.mem_cons, not_or, List.mem_flatMap, not_exists, not_and]
          exact ⟨fun h => hsp h.symm, fun v _ => ⟨by decide, space_showNat v⟩⟩
        rw [pieces_of_free hfree] at ha; cases ha
        unfold parseIdList at hi
        rw [splitOn_cons (by simp)] at hi
        by_cases hcm : c = ','
        · subst hcm
          have : pieces ',' (',' :: xs.flatMap (fun v => ',' :: showNat v)) = [] :: pieces ',' (xs.flatMap (fun v => ',' :: showNat v)) :=
            pieces_sep (p := []) (by simp) _
          rw [this] at hi; cases hi
        · obtain ⟨tl, htl⟩ := pieces_flat xs c hcm
          rw [htl] at hi
          unfold parseIdLoop at hi
          simp only [Outcome.bind_eq_ok] at hi
          obtain ⟨k, hk, hi⟩ := hi
          have := parseIdLoop_head (x := k) (by simp [oset]) hi
          simp at this; subst this
          by_cases hd : isDigit c = true
          · unfold parsePatchId at hk
            rw [fromCharsInt_digit c [] hd] at hk
            simp only [readDigits, hd, if_true] at hk
            simp [isDigit] at hd
            have hlt : (0 * 10 + (c.toNat - 48)) < 2 ^ 31 := by omega
            rw [if_pos hlt] at hk
            simp at hk
            omega
          · unfold parsePatchId at hk
            simp only [Outcome.bind_eq_ok] at hk
            obtain ⟨v, hv, _⟩ := hk
            by_cases hm : c = '-'
            · subst hm; simp [fromCharsInt] at hv
            · unfold fromCharsInt at hv
              split at hv; rename_i heq
              split at heq
              · rename_i h'; simp at h'; exact hm h'.1
              · cases heq; simp [hd] at hv
  · rintro rfl
    exact ⟨"DeclareLogicalQubitPatches ".toList, { op := .declare [] }, by decide, by decide, rfl⟩

theorem parse_of_none {w : Str} (h : ' ' ∉ w) (hk : kindOf w = none) (rest : Str) : parseInstr (w ++ ' ' :: rest) = .throws := by
  rw [parseInstr_word h, hk]

namespace Spec

/-- **C03, exactly which operations survive.** For every operation value, printing it and reading
the line back gives the same operation if and only if it is `Carried`. -/
theorem c03_exact (op : Operation) : RoundTrips op ↔ Carried op := by
  cases op with
  | declare ids => exact rt_declare ids
  | measure t o neg =>
    constructor
    · intro h; have hs : neg = false := roundTrips_shape h
      subst hs; exact ⟨(rt_measure t o).1 h, rfl⟩
    · rintro ⟨h, rfl⟩; exact (rt_measure t o).2 h
  | multi obs neg loc =>
    constructor
    · intro h; obtain ⟨hd, rfl, rfl⟩ : (keys obs).Nodup ∧ neg = false ∧ loc = none := roundTrips_shape h
      exact ⟨(rt_multi obs hd).1 h, hd, rfl, rfl⟩
    · rintro ⟨h, hd, rfl, rfl⟩; exact (rt_multi obs hd).2 h
  | init t s nx => exact rt_init t s nx
  | bell b =>
    constructor
    · intro h; obtain ⟨h1, h2⟩ : b.localInstrs = none ∧ b.counter = none := roundTrips_shape h
      obtain ⟨a1, a2, a3, a4⟩ := (rt_bell b h1 h2).1 h
      exact ⟨a1, a2, a3, a4, h1, h2⟩
    · rintro ⟨a1, a2, a3, a4, h1, h2⟩; exact (rt_bell b h1 h2).2 ⟨a1, a2, a3, a4⟩
  | magic t n => exact rt_magic t n
  | ystate t n loc =>
    constructor
    · intro h; have hs : loc = none := roundTrips_shape h
      subst hs
      have := (rt_ystate t n).1 h
      exact ⟨this.1, this.2, rfl⟩
    · rintro ⟨h1, h2, rfl⟩; exact (rt_ystate t n).2 ⟨h1, h2⟩
  | sq t o dg =>
    constructor
    · intro h; have hs : dg = false := roundTrips_shape h
      subst hs
      cases o with
      | H => exact ⟨(rt_h t).1 h, Or.inl rfl, rfl⟩
      | S => exact ⟨(rt_s t).1 h, Or.inr rfl, rfl⟩
      | I => obtain ⟨_, _, hp, _⟩ := h; cases hp
      | X => obtain ⟨_, hp, hr⟩ := pauli_line_refused t .X false (by simp); exact absurd h (not_rt_of hp hr)
      | Y => obtain ⟨_, hp, hr⟩ := pauli_line_refused t .Y false (by simp); exact absurd h (not_rt_of hp hr)
      | Z => obtain ⟨_, hp, hr⟩ := pauli_line_refused t .Z false (by simp); exact absurd h (not_rt_of hp hr)
    · rintro ⟨h, (rfl | rfl), rfl⟩
      · exact (rt_h t).2 h
      · exact (rt_s t).2 h
  | rotate t => exact rt_rotate t
  | busy r st af => exact ⟨fun h => (roundTrips_shape h : False), fun h => h.elim⟩
  | bellCnot c =>
    constructor
    · intro h; have hs : c.route = none ∧ c.counterPairs = none ∧ c.localSets = none ∧ c.phase = none := roundTrips_shape h
      obtain ⟨a1, a2, a3, a4⟩ := (rt_bellCnot c hs).1 h
      exact ⟨a1, a2, a3, a4, hs⟩
    · rintro ⟨a1, a2, a3, a4, hs⟩; exact (rt_bellCnot c hs).2 ⟨a1, a2, a3, a4⟩
  | reset t => exact ⟨fun h => (roundTrips_shape h : False), fun h => h.elim⟩

/-- **C02.** Instructions of the kinds in the LLI grammar survive printing and reading. Missing from the
full statement: declarations and `LogicalPauli`, which the reader understands but the printer writes in
another form (`c03_fails`). -/
theorem c02_roundtrip_partial (op : Operation) (h : Carried op) :
    ∃ line i, printOp op = .ok line ∧ parseInstr line = .ok i ∧ i.op = op := (c03_exact op).2 h

example : Carried (.multi [(3, .X), (0, .Z), (12345, .Y)] false none) := by
  refine ⟨by decide, by decide, rfl, rfl⟩

example : printOp (.multi [(3, .X), (0, .Z)] false none) = .ok "MultiBodyMeasure 3:X,0:Z".toList := by decide

/-- **C03 (negation)**, for every id. The instructions the compiler emits for logical Pauli gates and
resets print as lines the reader refuses; a negated single-patch measurement is refused; an `S`
dagger prints exactly as `S`; and a declaration of at least one qubit never reads back. -/
theorem c03_fails (t : Nat) :
    (∀ o dg, o = .X ∨ o = .Y ∨ o = .Z → ∃ line, printOp (.sq t o dg) = .ok line ∧ parseInstr line = .throws) ∧
    (∃ line, printOp (.reset t) = .ok line ∧ parseInstr line = .throws) ∧
    (∀ o, ∃ line, printOp (.measure t o true) = .ok line ∧ parseInstr line = .throws) ∧
    (printOp (.sq t .S true) = printOp (.sq t .S false)) ∧
    (∀ ids, ¬ RoundTrips (.declare (t :: ids))) := by
  refine ⟨fun o dg h => pauli_line_refused t o dg h, ?_, ?_, rfl, ?_⟩
  · exact ⟨"Reset".toList ++ ' ' :: showNat t, rfl, parse_of_none (by decide) (by decide) _⟩
  · intro o
    refine ⟨"MeasureSinglePatch".toList ++ ' ' :: (showNat t ++ ' ' :: ('-' :: pauliStr o)), by simp [printOp], ?_⟩
    have hfree : ' ' ∉ '-' :: pauliStr o := by cases o <;> decide
    rw [parseInstr_word (by decide), show kindOf "MeasureSinglePatch".toList = some .measure by decide, pieces_nat, pieces_of_free hfree]
    simp only [parseArgs, argId_showNat]
    have : pauliOf ('-' :: pauliStr o) = .throws := by cases o <;> decide
    split
    · simp [nextArg, this]
    · rfl
  · intro ids h; rw [c03_exact] at h; simp [Carried] at h

/-- A negated multi-patch measurement is not refused: its first id is read as a large other id. -/
theorem c03_negated_multi_changes_id :
    printOp (.multi [(1, .X), (2, .Z)] true none) = .ok "MultiBodyMeasure -1:X,2:Z".toList ∧
    parseInstr "MultiBodyMeasure -1:X,2:Z".toList = .ok { op := .multi [(4294967295, .X), (2, .Z)] false none } := by
  decide

/-- Reading never distinguishes `S` from its inverse. -/
example : parseInstr "SGate 4".toList = .ok { op := .sq 4 .S false } := by decide

end Spec
end Verif.Lli
