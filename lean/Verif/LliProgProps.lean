import Verif.LliProps

/-!
# C04: reading whole LLI programs
-/

namespace Verif.Lli

namespace Spec

/-- Is this instruction a declaration of logical qubits? -/
def isDecl (i : Instr) : Bool := match i.op with | .declare _ => true | _ => false

/-- The ids an instruction declares. -/
def declIds (i : Instr) : List Nat := match i.op with | .declare ids => ids | _ => []

/-- The lines of a program that carry text. -/
def texts (lines : List Str) : List Str := lines.filter (fun l => !l.isEmpty)

/-- `is` are the readings of the lines `ls`, one by one. -/
def ReadAs (ls : List Str) (is : List Instr) : Prop := ls.map parseInstr = is.map .ok

end Spec
open Spec

theorem readAs_cons {l : Str} {ls : List Str} {is : List Instr} :
    ReadAs (l :: ls) is ↔ ∃ i is', is = i :: is' ∧ parseInstr l = .ok i ∧ ReadAs ls is' := by
  unfold ReadAs
  cases is with
  | nil => simp
  | cons i is' =>
    simp only [List.map_cons, List.cons.injEq]
    constructor
    · rintro ⟨h1, h2⟩; exact ⟨i, is', ⟨rfl, rfl⟩, h1, h2⟩
    · rintro ⟨_, _, ⟨rfl, rfl⟩, h1, h2⟩; exact ⟨h1, h2⟩

theorem texts_cons_nil (ls : List Str) : texts ([] :: ls) = texts ls := rfl

theorem texts_cons_ne {l : Str} (h : l ≠ []) (ls : List Str) : texts (l :: ls) = l :: texts ls := by
  unfold texts; cases l with
  | nil => exact absurd rfl h
  | cons c l => rfl

theorem isDecl_eq {i : Instr} {ids : List Nat} (h : i.op = .declare ids) : isDecl i = true ∧ declIds i = ids := by
  simp [isDecl, declIds, h]

theorem isDecl_false {i : Instr} (h : ∀ ids, i.op = .declare ids → False) : isDecl i = false := by
  unfold isDecl; split
  · rename_i ids hi; exact (h ids hi).elim
  · rfl

/-- The loop of `parse_ls_instructions` from any state. -/
theorem parseLines_spec (ls : List Str) (got : Bool) (c r : Computation) :
    parseLines ls got c = .ok r ↔ ∃ is, ReadAs (texts ls) is ∧
      (is.filter isDecl).length + got.toNat ≤ 1 ∧
      r.instrs = c.instrs ++ is.filter (fun i => !isDecl i) ∧
      r.core = (match is.filter isDecl with | [] => c.core | d :: _ => declIds d) := by
  induction ls generalizing got c with
  | nil =>
    unfold parseLines texts ReadAs
    constructor
    · intro h; cases h; exact ⟨[], rfl, by cases got <;> simp, by simp, rfl⟩
    · rintro ⟨is, h1, _, h3, h4⟩
      simp at h1; subst h1
      simp at h3 h4
      cases r; cases c; simp_all
  | cons l ls ih =>
    by_cases hl : l = []
    · subst hl
      unfold parseLines; rw [if_pos rfl, ih, texts_cons_nil]
    · unfold parseLines; rw [if_neg hl, texts_cons_ne hl]
      simp only [Outcome.bind_eq_ok, readAs_cons]
      constructor
      · rintro ⟨i, hi, h⟩
        split at h
        · rename_i ids hd
          obtain ⟨d1, d2⟩ := isDecl_eq hd
          cases got
          · simp only [Bool.false_eq_true, if_false, ih] at h
            obtain ⟨is, h1, h2, h3, h4⟩ := h
            simp only [Bool.toNat_true] at h2
            have hn : is.filter isDecl = [] := List.eq_nil_of_length_eq_zero (by omega)
            refine ⟨i :: is, ⟨i, is, rfl, hi, h1⟩, ?_, ?_, ?_⟩
            · simp [d1, hn]
            · simp [d1, h3]
            · simp only [List.filter_cons, d1, if_true]; rw [hn] at h4; rw [h4, d2]
          · simp at h
        · rename_i hd
          have d1 := isDecl_false (i := i) (fun ids hh => hd ids hh)
          rw [ih] at h
          obtain ⟨is, h1, h2, h3, h4⟩ := h
          refine ⟨i :: is, ⟨i, is, rfl, hi, h1⟩, ?_, ?_, ?_⟩
          · simpa [d1] using h2
          · simp [d1, h3]
          · simpa [d1] using h4
      · rintro ⟨_, ⟨i, is, rfl, hi, h1⟩, h2, h3, h4⟩
        refine ⟨i, hi, ?_⟩
        split
        · rename_i ids hd
          obtain ⟨d1, d2⟩ := isDecl_eq hd
          simp only [List.filter_cons, d1, if_true, List.length_cons] at h2 h4
          cases got
          · simp only [Bool.false_eq_true, if_false, ih]
            simp only [Bool.toNat_false] at h2
            have hn : is.filter isDecl = [] := List.eq_nil_of_length_eq_zero (by omega)
            exact ⟨is, h1, by simp [hn], by simpa [d1] using h3, by rw [hn]; rw [h4, d2]⟩
          · simp only [Bool.toNat_true] at h2; omega
        · rename_i hd
          have d1 := isDecl_false (i := i) (fun ids hh => hd ids hh)
          rw [ih]
          exact ⟨is, h1, by simpa [d1] using h2, by simpa [d1] using h3, by simpa [d1] using h4⟩

/-! ## The file reader -/

theorem getlines_eq (s : Str) : getlines s = pieces '\n' s := by
  induction s with
  | nil => rfl
  | cons c cs ih =>
    unfold getlines pieces
    rw [ih]
    by_cases h : c = '\n'
    · simp [h]
    · simp only [h, if_false]; cases pieces '\n' cs <;> rfl

theorem advance_spec (ls : List Str) (r : List Str) (n : Option Instr) (h : advance ls = .ok (r, n)) :
    (n = none ∧ texts ls = [] ∧ texts r = []) ∨
    (∃ i l, n = some i ∧ parseInstr l = .ok i ∧ texts ls = l :: texts r ∧ r.length < ls.length) := by
  induction ls generalizing r n with
  | nil => unfold advance at h; cases h; exact Or.inl ⟨rfl, rfl, rfl⟩
  | cons l ls ih =>
    unfold advance at h
    by_cases hl : l = []
    · subst hl; rw [if_pos rfl] at h
      rcases ih r n h with h | ⟨i, l, h1, h2, h3, h4⟩
      · exact Or.inl h
      · exact Or.inr ⟨i, l, h1, h2, h3, by simp; omega⟩
    · rw [if_neg hl] at h
      simp only [Outcome.bind_eq_ok] at h
      obtain ⟨i, hi, h⟩ := h
      cases h
      exact Or.inr ⟨i, l, rfl, hi, texts_cons_ne hl ls, by simp⟩

theorem advance_none {ls : List Str} (h : texts ls = []) : advance ls = .ok ([], none) := by
  induction ls with
  | nil => rfl
  | cons l ls ih =>
    by_cases hl : l = []
    · subst hl; unfold advance; rw [if_pos rfl]; exact ih h
    · rw [texts_cons_ne hl] at h; simp at h

theorem advance_some {ls : List Str} {l : Str} {ts : List Str} {i : Instr} (h : texts ls = l :: ts) (hi : parseInstr l = .ok i) :
    ∃ r, advance ls = .ok (r, some i) ∧ texts r = ts ∧ r.length < ls.length := by
  induction ls with
  | nil => simp [texts] at h
  | cons m ls ih =>
    by_cases hl : m = []
    · subst hl; unfold advance; rw [if_pos rfl]
      obtain ⟨r, h1, h2, h3⟩ := ih h
      exact ⟨r, h1, h2, by simp; omega⟩
    · rw [texts_cons_ne hl] at h
      simp at h; obtain ⟨rfl, h⟩ := h
      unfold advance; rw [if_neg hl, hi]
      exact ⟨ls, rfl, h, by simp⟩

/-- Draining a stream delivers the prefetched instruction and the reading of every remaining line. -/
theorem drain_spec (n : Nat) (s : FileStream) (hn : s.lines.length < n) (hnone : s.next = none → texts s.lines = []) (is : List Instr) :
    s.drain n = .ok is ↔ ∃ js, ReadAs (texts s.lines) js ∧ is = s.next.toList ++ js := by
  induction n generalizing s is with
  | zero => omega
  | succ n ih =>
    unfold FileStream.drain
    cases hx : s.next with
    | none =>
      simp only [hnone hx, ReadAs]
      constructor
      · intro h; cases h; exact ⟨[], rfl, rfl⟩
      · rintro ⟨js, h1, h2⟩
        simp at h1; subst h1; subst h2; rfl
    | some i =>
      simp only [FileStream.getNext, hx, Outcome.bind_eq_ok]
      constructor
      · rintro ⟨⟨j, s'⟩, ⟨⟨ls, nx⟩, ha, hs⟩, is', hd, he⟩
        cases he; cases hs
        rcases advance_spec _ _ _ ha with ⟨rfl, h2, h3⟩ | ⟨i', l, rfl, h2, h3, h4⟩
        · have : FileStream.drain n { lines := ls, next := none, core := s.core } = .ok [] := by
            cases n with
            | zero => rfl
            | succ n => rfl
          rw [this] at hd; cases hd
          exact ⟨[], by rw [h2]; rfl, rfl⟩
        · rw [ih _ (by simp; omega) (by simp)] at hd
          obtain ⟨js, h5, h6⟩ := hd
          refine ⟨i' :: js, ?_, ?_⟩
          · rw [h3, readAs_cons]; exact ⟨i', js, rfl, h2, h5⟩
          · rw [h6]; rfl
      · rintro ⟨js, h1, h2⟩
        cases ht : texts s.lines with
        | nil =>
          rw [ht] at h1; simp [ReadAs] at h1; subst h1
          refine ⟨(i, { s with lines := [], next := none }), ⟨_, advance_none ht, rfl⟩, [], ?_, by simp [h2]⟩
          cases n <;> rfl
        | cons l ts =>
          rw [ht, readAs_cons] at h1
          obtain ⟨i', js', rfl, h3, h4⟩ := h1
          obtain ⟨r, h5, h6, h7⟩ := advance_some ht h3
          refine ⟨(i, { s with lines := r, next := some i' }), ⟨_, h5, rfl⟩, i' :: js', ?_, by simp [h2]⟩
          rw [ih _ (by simp; omega) (by simp)]
          exact ⟨js', by rw [← h6] at h4; exact h4, rfl⟩

namespace Spec

/-- **C04 (in-memory reader).** A program given by its lines is read successfully exactly when every
line carrying text reads as an instruction and at most one of them is a declaration; the result then
holds all other instructions in source order and the declared ids. -/
theorem c04_program_partial (lines : List Str) (hne : lines ≠ []) (hfree : ∀ l ∈ lines, '\n' ∉ l) (r : Computation) :
    parseProgram (List.intercalate ['\n'] lines) = .ok r ↔
      ∃ is, ReadAs (texts lines) is ∧ (is.filter isDecl).length ≤ 1 ∧ r.instrs = is.filter (fun i => !isDecl i) ∧
        r.core = (match is.filter isDecl with | [] => [] | d :: _ => declIds d) := by
  have hsplit : texts (splitOn (List.intercalate ['\n'] lines) '\n') = texts lines := by
    rw [splitOn_eq_pieces]
    have hp := pieces_intercalate hne hfree
    split
    · rename_i h0
      rw [h0] at hp; rw [← hp]; rfl
    · rw [hp]
  unfold parseProgram
  rw [parseLines_spec, hsplit]
  simp

example : parseProgram (List.intercalate ['\n'] ["HGate 3".toList, [], "DeclareLogicalQubitPatches 1,3".toList, "SGate 1".toList]) =
    .ok ⟨[1, 3], [{ op := .sq 3 .H false }, { op := .sq 1 .S false }]⟩ := by decide

/-- A second declaration makes the in-memory reader fail, wherever it stands. -/
theorem c04_second_declaration (lines : List Str) (hfree : ∀ l ∈ lines, '\n' ∉ l) (a b : Nat) (hab : a < b)
    (la lb : Str) (ha : lines[a]? = some la) (hb : lines[b]? = some lb)
    (ia ib : Instr) (hia : parseInstr la = .ok ia) (hib : parseInstr lb = .ok ib)
    (hda : isDecl ia = true) (hdb : isDecl ib = true) (r : Computation) :
    parseProgram (List.intercalate ['\n'] lines) ≠ .ok r := by
  have hne : lines ≠ [] := by rintro rfl; simp at ha
  rw [Ne, c04_program_partial lines hne hfree]
  rintro ⟨is, h1, h2, -, -⟩
  -- split the lines around the two declarations
  have hlen : b < lines.length := by
    rcases Nat.lt_or_ge b lines.length with h | h
    · exact h
    · rw [List.getElem?_eq_none h] at hb; simp at hb
  have hsplit1 : lines = lines.take b ++ lb :: lines.drop (b + 1) := by
    have hgb : lines[b] = lb := by rw [List.getElem?_eq_getElem hlen] at hb; simpa using hb
    rw [← hgb, ← List.drop_eq_getElem_cons hlen, List.take_append_drop]
  have hmem : la ∈ lines.take b := by
    rw [List.mem_iff_getElem?]; exact ⟨a, by rw [List.getElem?_take_of_lt hab]; exact ha⟩
  have text_ne : ∀ {l : Str} {i : Instr}, parseInstr l = .ok i → l ≠ [] := by
    rintro l i h rfl; cases h
  have key : ∀ (ls : List Str) (is : List Instr), ReadAs (texts ls) is → ∀ l ∈ ls, ∀ i, parseInstr l = .ok i →
      i ∈ is := by
    intro ls
    induction ls with
    | nil => intro _ _ l hl; simp at hl
    | cons m ls ih =>
      intro is hr l hl i hi
      by_cases hm : m = []
      · subst hm
        rcases List.mem_cons.1 hl with rfl | hl
        · exact absurd rfl (text_ne hi)
        · exact ih is hr l hl i hi
      · rw [texts_cons_ne hm, readAs_cons] at hr
        obtain ⟨j, js, rfl, hj, hr⟩ := hr
        rcases List.mem_cons.1 hl with rfl | hl
        · rw [hj] at hi; cases hi; simp
        · exact List.mem_cons_of_mem _ (ih js hr l hl i hi)
  have app : ∀ (ls ms : List Str) (is : List Instr), ReadAs (texts (ls ++ ms)) is →
      ∃ is1 is2, is = is1 ++ is2 ∧ ReadAs (texts ls) is1 ∧ ReadAs (texts ms) is2 := by
    intro ls ms
    induction ls with
    | nil => intro is h; exact ⟨[], is, rfl, rfl, h⟩
    | cons m ls ih =>
      intro is h
      by_cases hm : m = []
      · subst hm
        obtain ⟨is1, is2, h3, h4, h5⟩ := ih is h
        exact ⟨is1, is2, h3, h4, h5⟩
      · rw [List.cons_append, texts_cons_ne hm, readAs_cons] at h
        obtain ⟨j, js, rfl, hj, h⟩ := h
        obtain ⟨is1, is2, h3, h4, h5⟩ := ih js h
        exact ⟨j :: is1, is2, by simp [h3], by rw [texts_cons_ne hm, readAs_cons]; exact ⟨j, is1, rfl, hj, h4⟩, h5⟩
  rw [hsplit1] at h1
  obtain ⟨is1, is2, rfl, h3, h4⟩ := app _ _ _ h1
  have m1 := key _ _ h3 la hmem ia hia
  have m2 := key _ _ h4 lb (by simp) ib hib
  have f1 : ia ∈ is1.filter isDecl := List.mem_filter.2 ⟨m1, hda⟩
  have f2 : ib ∈ is2.filter isDecl := List.mem_filter.2 ⟨m2, hdb⟩
  rw [List.filter_append, List.length_append] at h2
  have := List.length_pos_of_mem f1
  have := List.length_pos_of_mem f2
  omega

example : parseInstr "DeclareLogicalQubitPatches 1".toList = .ok { op := .declare [1] } ∧
    isDecl { op := .declare [1] } = true := by decide

/-- **C04 (file reader).** A file is read successfully exactly when every line carrying text reads as an
instruction and the first of them is a declaration; the stream then delivers all the others in order. -/
theorem c04_file_partial (lines : List Str) (hne : lines ≠ []) (hfree : ∀ l ∈ lines, '\n' ∉ l) (r : Computation) :
    readFile (List.intercalate ['\n'] lines) = .ok r ↔
      ∃ d, ReadAs (texts lines) (d :: r.instrs) ∧ d.op = .declare r.core := by
  unfold readFile openFile
  rw [getlines_eq, pieces_intercalate hne hfree]
  simp only [Outcome.bind_eq_ok]
  constructor
  · rintro ⟨s, ⟨⟨ls, n1⟩, h1, h2⟩, is, h3, h4⟩
    rcases advance_spec _ _ _ h1 with ⟨rfl, -, -⟩ | ⟨d, l, rfl, h5, h6, h7⟩
    · cases h2
    · simp only [Outcome.bind_eq_ok] at h2
      obtain ⟨⟨ls2, n2⟩, h8, h2⟩ := h2
      split at h2
      · rename_i ids hd
        cases h2; cases h4
        refine ⟨d, ?_, hd⟩
        have hn2 : n2 = none → texts ls2 = [] := by
          rcases advance_spec _ _ _ h8 with ⟨rfl, -, h9⟩ | ⟨i, l, rfl, -⟩
          · exact fun _ => h9
          · simp
        rw [drain_spec _ _ (by simp) hn2] at h3
        obtain ⟨js, h9, h10⟩ := h3
        rw [h6, readAs_cons]
        refine ⟨d, is, rfl, h5, ?_⟩
        rcases advance_spec _ _ _ h8 with ⟨rfl, ha, hb⟩ | ⟨i, l, rfl, hc, ha, -⟩
        · simp only at h9 h10
          rw [hb] at h9; simp [ReadAs] at h9; subst h9; rw [h10, ha]; rfl
        · simp only at h9 h10
          rw [h10, ha, readAs_cons]; exact ⟨i, js, rfl, hc, h9⟩
      · cases h2
  · rintro ⟨d, h1, h2⟩
    cases ht : texts lines with
    | nil => rw [ht] at h1; simp [ReadAs] at h1
    | cons l ts =>
      rw [ht, readAs_cons] at h1
      obtain ⟨d', is, he, h3, h4⟩ := h1
      cases he
      obtain ⟨ls, h5, h6, h7⟩ := advance_some ht h3
      cases ht2 : texts ls with
      | nil =>
        rw [← h6, ht2] at h4; simp [ReadAs] at h4
        refine ⟨{ lines := [], next := none, core := r.core }, ⟨_, h5, ?_⟩, [], rfl, by cases r; simp_all⟩
        simp only [advance_none ht2, Outcome.bind_ok, h2]
      | cons l2 ts2 =>
        rw [← h6, ht2, readAs_cons] at h4
        obtain ⟨i2, is2, he2, h8, h9⟩ := h4
        obtain ⟨ls2, h10, h11, h12⟩ := advance_some ht2 h8
        refine ⟨{ lines := ls2, next := some i2, core := r.core }, ⟨_, h5, ?_⟩, i2 :: is2, ?_, by cases r; simp_all⟩
        · simp only [h10, Outcome.bind_ok, h2]
        · rw [drain_spec _ _ (by simp) (by simp)]
          exact ⟨is2, by simp only; rw [h11]; exact h9, rfl⟩

example : readFile (List.intercalate ['\n'] [[], "DeclareLogicalQubitPatches 1,3".toList, "SGate 1".toList, [], "HGate 3".toList]) =
    .ok ⟨[1, 3], [{ op := .sq 1 .S false }, { op := .sq 3 .H false }]⟩ := by decide

/-- **C04 (negation).** "Exactly one declaration" is enforced by neither reader: the in-memory reader
accepts a program without any declaration, and the file reader accepts two of them, passing the second
one on as an instruction. -/
theorem c04_declaration_not_enforced :
    parseProgram "HGate 3".toList = .ok ⟨[], [{ op := .sq 3 .H false }]⟩ ∧
    readFile "DeclareLogicalQubitPatches 1\nDeclareLogicalQubitPatches 2".toList = .ok ⟨[1], [{ op := .declare [2] }]⟩ := by
  decide

end Spec

/-! ## `--printlli` of a whole run -/

theorem printOp_no_newline_first {op : Operation} {l : Str} (h : printOp op = .ok l) : l ≠ [] := by
  rintro rfl
  cases op <;> simp [printOp, Outcome.bind_eq_ok] at h

namespace Spec

/-- **C03 (whole output, negation).** `--printlli` prints the processed instructions and never the
declaration line (pipelines/slicer.cpp:541-544), so whenever the first printed line is the line of a readable
instruction, the file reader refuses the complete output. -/
theorem c03_output_refused (i : Instr) (is : List Instr) (out : Str) (hi : Carried i.op) (hd : isDecl i = false)
    (hnl : ∀ j ∈ i :: is, ∀ l, printOp j.op = .ok l → '\n' ∉ l)
    (hout : printAll (i :: is) = .ok out) (r : Computation) : readFile out ≠ .ok r := by
  unfold printAll at hout
  simp only [Outcome.bind_eq_ok] at hout
  obtain ⟨l, hl, rest, hrest, he⟩ := hout
  cases he
  obtain ⟨l', j, h1, h2, h3⟩ := (c03_exact i.op).2 hi
  rw [hl] at h1; cases h1
  have hl0 : l ≠ [] := printOp_no_newline_first hl
  have hfree := hnl i (by simp) l hl
  intro hr
  have hlines : l ++ '\n' :: rest = List.intercalate ['\n'] (l :: pieces '\n' rest) := by
    have := intercalate_pieces '\n' (l ++ '\n' :: rest)
    rw [pieces_sep hfree] at this; exact this.symm
  rw [hlines, c04_file_partial _ (by simp)] at hr
  · obtain ⟨d, h4, h5⟩ := hr
    rw [texts_cons_ne hl0, readAs_cons] at h4
    obtain ⟨d', is', he, h6, -⟩ := h4
    cases he
    rw [h2] at h6; cases h6
    rw [h3] at h5
    simp [isDecl, h5] at hd
  · intro x hx
    rcases List.mem_cons.1 hx with rfl | hx
    · exact hfree
    · exact pieces_free '\n' rest x hx

example : printAll [{ op := .rotate 2 }, { op := .magic 5 2 }] = .ok "RotateSingleCellPatch 2\nRequestMagicState 5 2\n".toList := by
  decide

end Spec
end Verif.Lli
