import Verif.QasmProps

/-!
# Whole QASM files: C48, C49, C50
-/

namespace Verif.Qasm
open Verif.Gates Verif.Lli

namespace Spec

/-- Lines carrying text. -/
def textLines (ls : List Str) : List Str := ls.filter (fun l => !l.isEmpty)

/-- `rs` are the readings of the lines `ls`, one by one, under the placement default `d`. -/
def LinesReadAs (d : Placement) (ls : List Str) (rs : List ParseResult) : Prop := ls.map (parseGate d) = rs.map .ok

def isGate : ParseResult → Bool | .gate _ => true | _ => false
def isQreg : ParseResult → Bool | .qreg _ _ => true | _ => false

/-- The gates among the results, in order. -/
def gatesOf (rs : List ParseResult) : List Gate := rs.filterMap (fun r => match r with | .gate g => some g | _ => none)

/-- The registers among the results, in order. -/
def qregsOf (rs : List ParseResult) : List (Str × Nat) := rs.filterMap (fun r => match r with | .qreg n k => some (n, k) | _ => none)

end Spec
open Spec

theorem linesReadAs_cons {d : Placement} {l : Str} {ls : List Str} {rs : List ParseResult} :
    LinesReadAs d (l :: ls) rs ↔ ∃ r rs', rs = r :: rs' ∧ parseGate d l = .ok r ∧ LinesReadAs d ls rs' := by
  unfold LinesReadAs
  cases rs with
  | nil => simp
  | cons r rs' =>
    simp only [List.map_cons, List.cons.injEq]
    constructor
    · rintro ⟨h1, h2⟩; exact ⟨r, rs', ⟨rfl, rfl⟩, h1, h2⟩
    · rintro ⟨_, _, ⟨rfl, rfl⟩, h1, h2⟩; exact ⟨h1, h2⟩

theorem textLines_nil (ls : List Str) : textLines ([] :: ls) = textLines ls := rfl

theorem textLines_ne {l : Str} (h : l ≠ []) (ls : List Str) : textLines (l :: ls) = l :: textLines ls := by
  unfold textLines; cases l with
  | nil => exact absurd rfl h
  | cons c l => rfl

/-- What one call of `advance_gate` does to the lines. -/
theorem advanceGate_spec (d : Placement) (ls : List Str) (q : Option (Str × Nat)) (f : GateFile) :
    advanceGate d ls q = .ok f ↔
      (∃ rs, LinesReadAs d (textLines ls) rs ∧ gatesOf rs = [] ∧ f.next = none ∧ f.lines = [] ∧
        f.qreg.toList = q.toList ++ qregsOf rs) ∨
      (∃ pre l rpre g, ls = pre ++ l :: f.lines ∧ l ≠ [] ∧ LinesReadAs d (textLines pre) rpre ∧ gatesOf rpre = [] ∧ parseGate d l = .ok (.gate g) ∧
        f.next = some g ∧ f.qreg.toList = q.toList ++ qregsOf rpre) := by
  induction ls generalizing q with
  | nil =>
    unfold advanceGate
    constructor
    · intro h; cases h; exact Or.inl ⟨[], rfl, rfl, rfl, rfl, by simp [qregsOf]⟩
    · rintro (⟨rs, h1, _, h3, h4, h5⟩ | ⟨pre, l, _, _, h1, _⟩)
      · simp [LinesReadAs, textLines] at h1; subst h1
        obtain ⟨fl, fn, fq⟩ := f
        simp [qregsOf] at h3 h4 h5
        subst h3; subst h4
        have : fq = q := by cases fq <;> cases q <;> simp_all
        rw [this]
      · simp at h1
  | cons l ls ih =>
    unfold advanceGate
    by_cases hl : l = []
    · subst hl
      rw [if_pos rfl, ih, textLines_nil]
      constructor
      · rintro (h | ⟨pre, l, rpre, g, h1, h2, h3, h4⟩)
        · exact Or.inl h
        · exact Or.inr ⟨[] :: pre, l, rpre, g, by simp [h1], h2, by rw [textLines_nil]; exact h3, h4⟩
      · rintro (h | ⟨pre, l, rpre, g, h1, h2, h3, h4⟩)
        · exact Or.inl h
        · cases pre with
          | nil => simp at h1; exact absurd h1.1 (fun h => h2 h)
          | cons p pre =>
            simp at h1; obtain ⟨rfl, h1⟩ := h1
            exact Or.inr ⟨pre, l, rpre, g, h1, h2, by rw [textLines_nil] at h3; exact h3, h4⟩
    · rw [if_neg hl, textLines_ne hl]
      simp only [Outcome.bind_eq_ok]
      constructor
      · rintro ⟨r, hr, h⟩
        cases r with
        | gate g => cases h; exact Or.inr ⟨[], l, [], g, rfl, hl, rfl, rfl, hr, rfl, by simp [qregsOf]⟩
        | ignored =>
          simp only [ih] at h
          rcases h with ⟨rs, h1, h2, h3, h4, h5⟩ | ⟨pre, m, rpre, g, h1, h2, h3, h4, h5, h6, h7⟩
          · exact Or.inl ⟨.ignored :: rs, linesReadAs_cons.2 ⟨_, _, rfl, hr, h1⟩, by simpa [gatesOf] using h2, h3, h4, by simpa [qregsOf] using h5⟩
          · exact Or.inr ⟨l :: pre, m, .ignored :: rpre, g, by simp [h1], h2, by rw [textLines_ne hl]; exact linesReadAs_cons.2 ⟨_, _, rfl, hr, h3⟩,
              by simpa [gatesOf] using h4, h5, h6, by simpa [qregsOf] using h7⟩
        | qreg n k =>
          cases q with
          | some q => simp at h
          | none =>
            simp only [ih] at h
            rcases h with ⟨rs, h1, h2, h3, h4, h5⟩ | ⟨pre, m, rpre, g, h1, h2, h3, h4, h5, h6, h7⟩
            · exact Or.inl ⟨.qreg n k :: rs, linesReadAs_cons.2 ⟨_, _, rfl, hr, h1⟩, by simpa [gatesOf] using h2, h3, h4, by simpa [qregsOf] using h5⟩
            · exact Or.inr ⟨l :: pre, m, .qreg n k :: rpre, g, by simp [h1], h2, by rw [textLines_ne hl]; exact linesReadAs_cons.2 ⟨_, _, rfl, hr, h3⟩,
                by simpa [gatesOf] using h4, h5, h6, by simpa [qregsOf] using h7⟩
      · rintro (⟨rs, h1, h2, h3, h4, h5⟩ | ⟨pre, m, rpre, g, h1, h2, h3, h4, h5, h6, h7⟩)
        · obtain ⟨r, rs, rfl, hr, h1'⟩ := linesReadAs_cons.1 h1
          refine ⟨r, hr, ?_⟩
          cases r with
          | gate g => simp [gatesOf] at h2
          | ignored =>
            simp only [ih]
            exact Or.inl ⟨rs, h1', by simpa [gatesOf] using h2, h3, h4, by simpa [qregsOf] using h5⟩
          | qreg n k =>
            cases q with
            | some q =>
              simp [qregsOf] at h5
              cases hq : f.qreg with
              | none => rw [hq] at h5; simp at h5
              | some x => rw [hq] at h5; simp at h5
            | none =>
              simp only [ih]
              exact Or.inl ⟨rs, h1', by simpa [gatesOf] using h2, h3, h4, by simpa [qregsOf] using h5⟩
        · cases pre with
          | nil =>
            simp at h1; obtain ⟨rfl, h1⟩ := h1
            refine ⟨_, h5, ?_⟩
            simp [LinesReadAs, textLines] at h3; subst h3
            obtain ⟨fl, fn, fq⟩ := f
            simp [qregsOf] at h1 h6 h7
            subst h1; subst h6
            have : fq = q := by cases fq <;> cases q <;> simp_all
            rw [this]
          | cons p pre =>
            simp at h1; obtain ⟨rfl, h1⟩ := h1
            rw [textLines_ne hl] at h3
            obtain ⟨r, rs, rfl, hr, h3'⟩ := linesReadAs_cons.1 h3
            refine ⟨r, hr, ?_⟩
            cases r with
            | gate g => simp [gatesOf] at h4
            | ignored =>
              simp only [ih]
              exact Or.inr ⟨pre, m, rs, g, h1, h2, h3', by simpa [gatesOf] using h4, h5, h6, by simpa [qregsOf] using h7⟩
            | qreg n k =>
              cases q with
              | some q =>
                simp [qregsOf] at h7
                cases hq : f.qreg with
                | none => rw [hq] at h7; simp at h7
                | some x => rw [hq] at h7; simp at h7
              | none =>
                simp only [ih]
                exact Or.inr ⟨pre, m, rs, g, h1, h2, h3', by simpa [gatesOf] using h4, h5, h6, by simpa [qregsOf] using h7⟩

theorem linesReadAs_append {d : Placement} {a b : List Str} {rs : List ParseResult} :
    LinesReadAs d (a ++ b) rs ↔ ∃ r1 r2, rs = r1 ++ r2 ∧ LinesReadAs d a r1 ∧ LinesReadAs d b r2 := by
  induction a generalizing rs with
  | nil =>
    constructor
    · intro h; exact ⟨[], rs, rfl, rfl, h⟩
    · rintro ⟨r1, r2, rfl, h1, h2⟩
      simp [LinesReadAs] at h1; subst h1; exact h2
  | cons l a ih =>
    rw [List.cons_append, linesReadAs_cons]
    constructor
    · rintro ⟨r, rs', rfl, h1, h2⟩
      obtain ⟨r1, r2, rfl, h3, h4⟩ := ih.1 h2
      exact ⟨r :: r1, r2, rfl, linesReadAs_cons.2 ⟨_, _, rfl, h1, h3⟩, h4⟩
    · rintro ⟨r1, r2, rfl, h1, h2⟩
      obtain ⟨r, rs', rfl, h3, h4⟩ := linesReadAs_cons.1 h1
      exact ⟨r, rs' ++ r2, rfl, h3, ih.2 ⟨rs', r2, rfl, h4, h2⟩⟩

theorem textLines_append (a b : List Str) : textLines (a ++ b) = textLines a ++ textLines b := by
  unfold textLines; rw [List.filter_append]

theorem gatesOf_append (a b : List ParseResult) : gatesOf (a ++ b) = gatesOf a ++ gatesOf b := by
  unfold gatesOf; rw [List.filterMap_append]

theorem qregsOf_append (a b : List ParseResult) : qregsOf (a ++ b) = qregsOf a ++ qregsOf b := by
  unfold qregsOf; rw [List.filterMap_append]

/-- The lines up to and after the first gate. -/
theorem firstGate_split {d : Placement} (ls : List Str) (rs : List ParseResult) (h : LinesReadAs d (textLines ls) rs) (hne : gatesOf rs ≠ []) :
    ∃ pre l post rpre g2 rpost, ls = pre ++ l :: post ∧ l ≠ [] ∧ LinesReadAs d (textLines pre) rpre ∧ gatesOf rpre = [] ∧
      parseGate d l = .ok (.gate g2) ∧ LinesReadAs d (textLines post) rpost ∧ rs = rpre ++ .gate g2 :: rpost := by
  induction ls generalizing rs with
  | nil =>
    simp [LinesReadAs, textLines] at h; subst h; exact absurd rfl hne
  | cons l ls ih2 =>
    by_cases hl : l = []
    · subst hl
      obtain ⟨pre, m, post, rpre, g2, rpost, a1, a2, a3, a4, a5, a6, a7⟩ := ih2 rs h hne
      exact ⟨[] :: pre, m, post, rpre, g2, rpost, by simp [a1], a2, a3, a4, a5, a6, a7⟩
    · rw [textLines_ne hl] at h
      obtain ⟨r, rs', rfl, hr, h'⟩ := linesReadAs_cons.1 h
      by_cases hrg : isGate r = true
      · cases r with
        | gate g2 => exact ⟨[], l, ls, [], g2, rs', rfl, hl, rfl, rfl, hr, h', rfl⟩
        | ignored => simp [isGate] at hrg
        | qreg _ _ => simp [isGate] at hrg
      · have hg0 : gatesOf [r] = [] := by cases r <;> simp_all [gatesOf, isGate]
        have hne' : gatesOf rs' ≠ [] := by
          rw [show r :: rs' = [r] ++ rs' from rfl, gatesOf_append, hg0] at hne; simpa using hne
        obtain ⟨pre, m, post, rpre, g2, rpost, a1, a2, a3, a4, a5, a6, a7⟩ := ih2 rs' h' hne'
        refine ⟨l :: pre, m, post, r :: rpre, g2, rpost, by simp [a1], a2, ?_, ?_, a5, a6, by simp [a7]⟩
        · rw [textLines_ne hl]; exact linesReadAs_cons.2 ⟨_, _, rfl, hr, a3⟩
        · rw [show r :: rpre = [r] ++ rpre from rfl, gatesOf_append, hg0, a4]; rfl

/-- Draining delivers the prefetched gate and then the gates of the remaining lines, with no second register. -/
theorem drain_spec (d : Placement) (n : Nat) (f : GateFile) (hn : f.lines.length < n) (hnone : f.next = none → f.lines = [])
    (hq : f.qreg ≠ none) (gs : List Gate) :
    f.drain d n = .ok gs ↔ ∃ rs, LinesReadAs d (textLines f.lines) rs ∧ qregsOf rs = [] ∧ gs = f.next.toList ++ gatesOf rs := by
  induction n generalizing f gs with
  | zero => omega
  | succ n ih =>
    unfold GateFile.drain
    cases hx : f.next with
    | none =>
      simp only [hnone hx]
      constructor
      · intro h; cases h; exact ⟨[], rfl, rfl, rfl⟩
      · rintro ⟨rs, h1, _, h3⟩
        simp [LinesReadAs, textLines] at h1; subst h1; subst h3; rfl
    | some g =>
      simp only [GateFile.getNext, hx, Outcome.bind_eq_ok]
      have hqlen : ∀ f' : GateFile, ∀ x : List (Str × Nat), f'.qreg.toList = f.qreg.toList ++ x → x = [] ∧ f'.qreg ≠ none := by
        intro f' x h
        cases h1 : f.qreg with
        | none => exact absurd h1 hq
        | some v =>
          rw [h1] at h
          cases h2 : f'.qreg with
          | none => rw [h2] at h; simp at h
          | some w => rw [h2] at h; simp at h; exact ⟨h.2, by simp⟩
      constructor
      · rintro ⟨⟨g', f'⟩, ⟨f'', ha, he⟩, gs', hd, hgs⟩
        cases he; cases hgs
        rcases (advanceGate_spec d _ _ _).1 ha with ⟨rs, h1, h2, h3, h4, h5⟩ | ⟨pre, l, rpre, g2, h1, h2, h3, h4, h5, h6, h7⟩
        · have hr := hqlen f' _ h5
          have : f'.drain d n = .ok [] := by
            cases n with
            | zero => rfl
            | succ n => unfold GateFile.drain; rw [h3]
          rw [this] at hd; cases hd
          exact ⟨rs, h1, hr.1, by simp [h2]⟩
        · have hr := hqlen f' _ h7
          have hlen : f'.lines.length < n := by
            have := congrArg List.length h1; simp at this; omega
          rw [ih f' hlen (by simp [h6]) hr.2] at hd
          obtain ⟨rs, h8, h9, h10⟩ := hd
          refine ⟨rpre ++ .gate g2 :: rs, ?_, ?_, ?_⟩
          · rw [h1, textLines_append, textLines_ne h2, linesReadAs_append]
            exact ⟨rpre, .gate g2 :: rs, rfl, h3, linesReadAs_cons.2 ⟨_, _, rfl, h5, h8⟩⟩
          · rw [qregsOf_append, hr.1]; simpa [qregsOf] using h9
          · rw [gatesOf_append, h4, h10, h6]; simp [gatesOf]
      · rintro ⟨rs, h1, h2, h3⟩
        by_cases hg : gatesOf rs = []
        · refine ⟨(g, ⟨[], none, f.qreg⟩), ⟨⟨[], none, f.qreg⟩, ?_, rfl⟩, [], ?_, by simp [h3, hg]⟩
          · rw [advanceGate_spec]
            exact Or.inl ⟨rs, h1, hg, rfl, rfl, by simp [h2]⟩
          · cases n <;> rfl
        · obtain ⟨pre, m, post, rpre, g2, rpost, a1, a2, a3, a4, a5, a6, rfl⟩ := firstGate_split _ _ h1 hg
          rw [qregsOf_append] at h2
          have hq2 : qregsOf rpre = [] ∧ qregsOf rpost = [] := by
            have := List.append_eq_nil_iff.1 h2
            exact ⟨this.1, by simpa [qregsOf] using this.2⟩
          have hlen : post.length < n := by
            have := congrArg List.length a1; simp at this; omega
          refine ⟨(g, ⟨post, some g2, f.qreg⟩), ⟨⟨post, some g2, f.qreg⟩, ?_, rfl⟩, g2 :: gatesOf rpost, ?_, ?_⟩
          · rw [advanceGate_spec]
            exact Or.inr ⟨pre, m, rpre, g2, a1, a2, a3, a4, a5, rfl, by simp [hq2.1]⟩
          · refine (ih ⟨post, some g2, f.qreg⟩ hlen (by simp) hq _).2 ?_
            exact ⟨rpost, a6, hq2.2, rfl⟩
          · rw [h3, gatesOf_append, a4]; simp [gatesOf]

namespace Spec

/-- **C50.** Reading a QASM file, under the placement default `d`, delivers exactly the gates of its
lines in source order. It succeeds exactly when every line with text reads as a gate, a register or an
ignored instruction, there is exactly one register, and it stands before the first gate. -/
theorem c50_file (d : Placement) (ls : List Str) (gs : List Gate) (reg : Str × Nat) :
    (∃ f, openGates d ls = .ok f ∧ f.qreg = some reg ∧ f.drain d (ls.length + 1) = .ok gs) ↔
      ∃ rs, LinesReadAs d (textLines ls) rs ∧ gatesOf rs = gs ∧ qregsOf rs = [reg] ∧ (∃ n, qregsOf (rs.take n) = [reg] ∧ gatesOf (rs.take n) = []) := by
  constructor
  · rintro ⟨f, ho, hq, hd⟩
    unfold openGates at ho
    simp only [Outcome.bind_eq_ok] at ho
    obtain ⟨f', ha, ho⟩ := ho
    split at ho
    · cases ho
    · cases ho
      rcases (advanceGate_spec d _ _ _).1 ha with ⟨rs, h1, h2, h3, h4, h5⟩ | ⟨pre, l, rpre, g2, h1, h2, h3, h4, h5, h6, h7⟩
      · simp [hq] at h5
        have : f.drain d (ls.length + 1) = .ok [] := by unfold GateFile.drain; rw [h3]
        rw [this] at hd; cases hd
        refine ⟨rs, h1, h2, h5.symm, rs.length, ?_⟩
        rw [List.take_length]; exact ⟨h5.symm, h2⟩
      · simp [hq] at h7
        have hlen : f.lines.length < ls.length + 1 := by
          have := congrArg List.length h1; simp at this; omega
        rw [drain_spec d _ f hlen (by simp [h6]) (by simp [hq])] at hd
        obtain ⟨rs, h8, h9, h10⟩ := hd
        refine ⟨rpre ++ .gate g2 :: rs, ?_, ?_, ?_, rpre.length, ?_⟩
        · rw [h1, textLines_append, textLines_ne h2, linesReadAs_append]
          exact ⟨rpre, .gate g2 :: rs, rfl, h3, linesReadAs_cons.2 ⟨_, _, rfl, h5, h8⟩⟩
        · rw [gatesOf_append, h4, h10, h6]; simp [gatesOf]
        · rw [qregsOf_append, ← h7]; simpa [qregsOf] using h9
        · rw [List.take_left]; exact ⟨h7.symm, h4⟩
  · rintro ⟨rs, h1, h2, h3, n, h4, h5⟩
    by_cases hg : gatesOf rs = []
    · refine ⟨⟨[], none, some reg⟩, ?_, rfl, ?_⟩
      · unfold openGates
        rw [(advanceGate_spec d ls none ⟨[], none, some reg⟩).2 (Or.inl ⟨rs, h1, hg, rfl, rfl, by simp [h3]⟩)]
        rfl
      · rw [← h2, hg]; rfl
    · obtain ⟨pre, m, post, rpre, g2, rpost, a1, a2, a3, a4, a5, a6, rfl⟩ := firstGate_split _ _ h1 hg
      -- the register is among the results before the first gate
      have hn : n ≤ rpre.length := by
        rcases Nat.lt_or_ge rpre.length n with hc | hc
        rotate_left
        · exact hc
        exfalso
        have : gatesOf ((rpre ++ .gate g2 :: rpost).take n) ≠ [] := by
          rw [List.take_append, gatesOf_append]
          rw [show n - rpre.length = (n - rpre.length - 1) + 1 by omega, List.take_succ_cons]
          simp [gatesOf]
        exact this h5
      rw [List.take_append_of_le_length hn] at h4
      have hr1 : qregsOf rpre = [reg] ∧ qregsOf rpost = [] := by
        rw [qregsOf_append] at h3
        have hsub : qregsOf rpre = qregsOf (rpre.take n) ++ qregsOf (rpre.drop n) := by
          rw [← qregsOf_append, List.take_append_drop]
        rw [hsub, h4] at h3
        simp [qregsOf] at h3
        rw [hsub, h4]
        constructor
        · have : qregsOf (rpre.drop n) = [] := by
            simp only [qregsOf, List.filterMap_eq_nil_iff]; exact h3.1
          rw [this]; rfl
        · simp only [qregsOf, List.filterMap_eq_nil_iff]; exact h3.2
      refine ⟨⟨post, some g2, some reg⟩, ?_, rfl, ?_⟩
      · unfold openGates
        rw [(advanceGate_spec d ls none ⟨post, some g2, some reg⟩).2 (Or.inr ⟨pre, m, rpre, g2, a1, a2, a3, a4, a5, rfl, by simp [hr1.1]⟩)]
        rfl
      · have hlen : post.length < ls.length + 1 := by
          have := congrArg List.length a1; simp at this; omega
        rw [drain_spec d _ _ hlen (by simp) (by simp)]
        refine ⟨rpost, a6, hr1.2, ?_⟩
        rw [← h2, gatesOf_append, a4]; simp [gatesOf]

example : ∃ f, openGates .dedicated ["OPENQASM 2.0;".toList, [], "qreg q[3];".toList, "h q[0];".toList, "cx q[0],q[2];".toList] = .ok f ∧
    f.drain .dedicated 6 = .ok [.basic 0 .H, .ctrl 0 (.basic 2 .X) .controlFirst .dedicated] := ⟨_, rfl, by decide⟩

/-- **C48 (what holds).** Whatever the default is when the file is opened (`d0`) and afterwards (`d1`),
the first gate delivered is read under `d0` and all later ones under `d1`. -/
theorem c48_defaults_partial (d0 d1 : Placement) (ls : List Str) (gs : List Gate) (f : GateFile)
    (ho : openGates d0 ls = .ok f) (hd : f.drain d1 (ls.length + 1) = .ok gs) :
    gs = [] ∨ ∃ pre l post g rpost, ls = pre ++ l :: post ∧ parseGate d0 l = .ok (.gate g) ∧
      LinesReadAs d1 (textLines post) rpost ∧ gs = g :: gatesOf rpost := by
  unfold openGates at ho
  simp only [Outcome.bind_eq_ok] at ho
  obtain ⟨f', ha, ho⟩ := ho
  split at ho
  · cases ho
  · rename_i reg hq
    cases ho
    rcases (advanceGate_spec d0 _ _ _).1 ha with ⟨rs, h1, h2, h3, h4, h5⟩ | ⟨pre, l, rpre, g2, h1, h2, h3, h4, h5, h6, h7⟩
    · left
      have : f.drain d1 (ls.length + 1) = .ok [] := by unfold GateFile.drain; rw [h3]
      rw [this] at hd; cases hd; rfl
    · right
      have hlen : f.lines.length < ls.length + 1 := by
        have := congrArg List.length h1; simp at this; omega
      rw [drain_spec d1 _ f hlen (by simp [h6]) (by simp [hq])] at hd
      obtain ⟨rs, h8, h9, h10⟩ := hd
      exact ⟨pre, l, f.lines, g2, rs, h1, h5, h8, by simp [h10, h6]⟩

/-- **C49 (negation), for every register size and index.** A file declaring `size` qubits and applying a
gate to any index, inside the register or not, is accepted, and the gate acts on the index written. -/
theorem c49_any_index_accepted (d : Placement) (g : BasicType) (name : Str) (size i : Nat) (hn : plainName name)
    (hs : size < 2 ^ 32) (hi : i < 2 ^ 32) :
    ∃ f, openGates d ["qreg ".toList ++ qref name size, keyword g ++ ' ' :: qref name i] = .ok f ∧ f.qreg = some (name, size) ∧
      f.drain d 3 = .ok [.basic i g] := by
  have hg : parseGate d (keyword g ++ ' ' :: qref name i) = .ok (.gate (.basic i g)) := by
    simpa [tailAnn] using c06_single_qubit d g name [] none i hn (by simp) hi
  have hq : parseGate d ("qreg ".toList ++ qref name size) = .ok (.qreg name size) := by
    have h1 := one_arg hn size (bl := []) (by simp)
    have h2 := one_arg_semi hn size (bl := []) (by simp)
    have ia : indexArg (qref name size) = .ok size := by
      rw [indexArg_qref _ _ hn.2.2.2 (by omega), Nat.mod_eq_of_lt hs]
    have hl : "qreg ".toList ++ qref name size = 'q' :: ("reg ".toList ++ qref name size) := rfl
    rw [hl, parseGate_start d 'q' _ (by decide) (by decide)]
    have := splitLine_spec "qreg".toList (qref name size) none (by decide) (by decide) (by simpa using h2)
    simp only [tailAnn, List.append_nil] at this
    rw [show 'q' :: ("reg ".toList ++ qref name size) = "qreg".toList ++ ' ' :: qref name size from rfl, this]
    simp only [List.nil_append] at h1
    rw [h1]
    have hnm : idx (splitOn (qref name size) '[') 0 = .ok name := by
      unfold qref
      rw [splitOn_cons (by simp), pieces_sep hn.2.2.2]; rfl
    simp only [Outcome.bind_ok]
    rw [if_neg (by decide), if_pos (by trivial)]
    simp only [parseQreg, ia, Outcome.bind_ok, hnm]
  have hne1 : "qreg ".toList ++ qref name size ≠ [] := by simp [qref]
  have hne2 : keyword g ++ ' ' :: qref name i ≠ [] := by simp
  have h := (c50_file d ["qreg ".toList ++ qref name size, keyword g ++ ' ' :: qref name i] [.basic i g] (name, size)).2
    ⟨[.qreg name size, .gate (.basic i g)], by
      rw [textLines_ne hne1, textLines_ne hne2]
      unfold LinesReadAs textLines
      rw [List.map_cons, List.map_cons, hq, hg]; rfl, rfl, rfl, 1, rfl, rfl⟩
  exact h

end Spec
end Verif.Qasm
