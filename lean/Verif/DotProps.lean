import Verif.Dot
import Verif.DagProps
import Verif.LliLemmas
import Verif.LstkProps
import Verif.GateDagProps

/-!
# C71: graphs as text
-/

namespace Verif.Dag.Spec

/-! ## A reader for the text (specification) -/

/-- What a line of the text says: a node with its label, an arrow, a node marked as proximate, an arrow marked as proximate. -/
inductive Stmt where
  | node (k : Nat) (text : Option Str)
  | arrow (a b : Nat)
  | head (k : Nat)
  | near (a b : Nat)
  deriving DecidableEq, Repr

/-- The rest of the text after the given beginning. -/
def strip (p s : Str) : Option Str := if p.isPrefixOf s then some (s.drop p.length) else none

/-- A number and the rest of the text. -/
def number (s : Str) : Option (Nat × Str) :=
  match s with
  | [] => none
  | c :: _ => if isDigit c then some (readDigits 0 s, s.dropWhile isDigit) else none

/-- `&gt;` stands for `>`. -/
def unescape : Str → Str
  | '&' :: 'g' :: 't' :: ';' :: s => '>' :: unescape s
  | c :: s => c :: unescape s
  | [] => []

def tableOpen : Str := " [shape=\"plaintext\",label=<<table cellborder=\"0\"><tr><td><b>".toList

def tableMid : Str := "</b></td></tr><tr><td><font color=\"darkgray\">node: ".toList

def tableClose : Str := "</font></td></tr></table>>];".toList

/-- A line. The label of a node is an HTML table with the text in its first row and the number of the node in the second. -/
def stmt (line : Str) : Option Stmt := do
  let s ← strip "  ".toList line
  let (a, s) ← number s
  match strip tableOpen s with
  | some s =>
    let s' ← strip tableMid (s.dropWhile (· ≠ '<'))
    let (b, s'') ← number s'
    if b = a ∧ s'' = tableClose then some (.node a (some (unescape (s.takeWhile (· ≠ '<'))))) else none
  | none =>
    match strip " -> ".toList s with
    | some s => do
      let (b, s) ← number s
      if s = [';'] then some (.arrow a b)
      else if s = " [penwidth=5];".toList then some (.near a b)
      else none
    | none =>
      if s = [';'] then some (.node a none)
      else if s = " [fontcolor=red];".toList then some (.head a)
      else none

/-- Lines up to the closing brace. -/
def stmts : Nat → Str → Option (List Stmt)
  | 0, _ => none
  | n + 1, s =>
    if s = "}\n".toList then some []
    else if '\n' ∈ s then do
      let x ← stmt (s.takeWhile (· ≠ '\n'))
      let xs ← stmts n ((s.dropWhile (· ≠ '\n')).drop 1)
      some (x :: xs)
    else none

def readGraph (s : Str) : Option (List Stmt) := do
  let s ← strip "digraph DirectedGraph {\n".toList s
  stmts (s.length + 1) s

/-- The text up to its last `>`, or all of it if there is none. -/
def shownPart (t : Str) : Str := if '>' ∈ t then (t.reverse.dropWhile (· ≠ '>')).reverse else t

/-- Text without characters that mean something in the label. -/
def Plain (t : Str) : Prop := ∀ c ∈ t, c ≠ '<' ∧ c ≠ '\n' ∧ c ≠ '&'

end Verif.Dag.Spec

namespace Verif.Dag
open Spec

theorem strip_append (p s : Str) : strip p (p ++ s) = some s := by
  unfold strip
  rw [if_pos (by rw [List.isPrefixOf_iff_prefix]; exact List.prefix_append p s)]
  simp

theorem readDigits_append {s r : Str} (h : ∀ c ∈ s, isDigit c = true) (hr : ∀ c r', r = c :: r' → isDigit c = false) : ∀ n, readDigits n (s ++ r) = readDigits n s := by
  induction s with
  | nil =>
    intro n
    cases r with
    | nil => rfl
    | cons c r' => simp [readDigits, hr c r' rfl]
  | cons a s ih =>
    intro n
    simp only [List.cons_append, readDigits, h a (by simp), if_true]
    exact ih (fun c hc => h c (by simp [hc])) _

theorem dropWhile_append_digits {s r : Str} (h : ∀ c ∈ s, isDigit c = true) (hr : ∀ c r', r = c :: r' → isDigit c = false) : (s ++ r).dropWhile isDigit = r := by
  induction s with
  | nil =>
    cases r with
    | nil => rfl
    | cons c r' => rw [List.nil_append, List.dropWhile_cons, hr c r' rfl]; simp
  | cons a s ih =>
    rw [List.cons_append, List.dropWhile_cons, h a (by simp), if_pos rfl]
    exact ih fun c hc => h c (by simp [hc])

theorem number_show (n : Nat) (r : Str) (hr : ∀ c r', r = c :: r' → isDigit c = false) : number (showNat n ++ r) = some (n, r) := by
  have hd := Lli.showNat_digits n
  have e1 := readDigits_append hd hr 0
  have e2 := dropWhile_append_digits hd hr
  rw [Lli.readDigits_showNat] at e1
  unfold number
  cases hs : showNat n with
  | nil => exact absurd hs (Lli.showNat_ne_nil n)
  | cons c cs =>
    rw [hs] at e1 e2 hd
    rw [List.cons_append] at e1 e2 ⊢
    dsimp only
    rw [if_pos (hd c (by simp)), e1, e2]

theorem span_ne {c : Char} {t r : Str} (h : c ∉ t) : (t ++ c :: r).takeWhile (· ≠ c) = t ∧ (t ++ c :: r).dropWhile (· ≠ c) = c :: r := by
  induction t with
  | nil => simp
  | cons a t ih =>
    simp only [List.mem_cons, not_or] at h
    have := ih h.2
    constructor
    · rw [List.cons_append, List.takeWhile_cons, if_pos (by simpa using Ne.symm h.1), this.1]
    · rw [List.cons_append, List.dropWhile_cons, if_pos (by simpa using Ne.symm h.1), this.2]

theorem unescape_cons {c : Char} (h : c ≠ '&') (s : Str) : unescape (c :: s) = c :: unescape s := by
  rw [unescape]
  intro s' e _
  exact absurd e h

theorem unescape_replaced (t : Str) (h : '&' ∉ t) : unescape (Verif.Spec.replaced t '>' "&gt;".toList) = t := by
  induction t with
  | nil => rfl
  | cons c t ih =>
    simp only [List.mem_cons, not_or] at h
    have e : Verif.Spec.replaced (c :: t) '>' "&gt;".toList = (if c = '>' then "&gt;".toList else [c]) ++ Verif.Spec.replaced t '>' "&gt;".toList := rfl
    rw [e]
    split
    · rename_i hc
      show '>' :: unescape (Verif.Spec.replaced t '>' "&gt;".toList) = _
      rw [ih h.2, hc]
    · rw [List.singleton_append, unescape_cons (Ne.symm h.1), ih h.2]

/-- The last `>` of a text. -/
theorem last_gt {t : Str} (h : '>' ∈ t) : ∃ pre post, t = pre ++ '>' :: post ∧ '>' ∉ post ∧ shownPart t = pre ++ ['>'] := by
  have hr : '>' ∈ t.reverse := by simpa using h
  have hs : ∀ l : Str, '>' ∈ l → ∃ a b, l = a ++ '>' :: b ∧ '>' ∉ a := by
    intro l
    induction l with
    | nil => simp
    | cons x l ih =>
      intro hx
      by_cases e : x = '>'
      · exact ⟨[], l, by simp [e], by simp⟩
      · obtain ⟨a, b, h1, h2⟩ := ih (by simpa [Ne.symm e] using hx)
        exact ⟨x :: a, b, by rw [h1]; rfl, by simp [Ne.symm e, h2]⟩
  obtain ⟨a, b, h1, h2⟩ := hs _ hr
  refine ⟨b.reverse, a.reverse, ?_, by simpa using h2, ?_⟩
  · have := congrArg List.reverse h1
    simpa using this
  · unfold shownPart
    rw [if_pos h, h1, (span_ne h2).2]
    simp

theorem unescape_shown {t : Str} (h : '&' ∉ t) : unescape (strReplace t '>' "&gt;".toList) = shownPart t := by
  by_cases hg : '>' ∈ t
  · obtain ⟨pre, post, rfl, h2, h3⟩ := last_gt hg
    rw [(Verif.Spec.c05_replace_partial '>' "&gt;".toList).2.1 pre post h2, h3]
    refine unescape_replaced _ ?_
    intro hm
    apply h
    simp only [List.mem_append, List.mem_cons, List.not_mem_nil, or_false] at hm ⊢
    rcases hm with hm | hm
    · exact Or.inl hm
    · exact Or.inr (Or.inl hm)
  · rw [(Verif.Spec.c05_replace_partial '>' "&gt;".toList).1 t hg, unescape_replaced _ h, shownPart, if_neg hg]

theorem shown_chars {t : Str} {c : Char} (h : c ∈ strReplace t '>' "&gt;".toList) : c ∈ t ∨ c ∈ "&gt;".toList := by
  have key : ∀ s : Str, c ∈ Verif.Spec.replaced s '>' "&gt;".toList → c ∈ s ∨ c ∈ "&gt;".toList := by
    intro s hs
    unfold Verif.Spec.replaced at hs
    obtain ⟨x, hx, hx'⟩ := List.mem_flatMap.1 hs
    split at hx'
    · exact Or.inr hx'
    · rw [List.mem_singleton] at hx'; exact Or.inl (hx' ▸ hx)
  by_cases hg : '>' ∈ t
  · obtain ⟨pre, post, rfl, h2, h3⟩ := last_gt hg
    rw [(Verif.Spec.c05_replace_partial '>' "&gt;".toList).2.1 pre post h2] at h
    rcases key _ h with h | h
    · left
      simp only [List.mem_append, List.mem_cons, List.not_mem_nil, or_false] at h ⊢
      rcases h with h | h
      · exact Or.inl h
      · exact Or.inr (Or.inl h)
    · exact Or.inr h
  · rw [(Verif.Spec.c05_replace_partial '>' "&gt;".toList).1 t hg] at h
    exact key _ h

/-! ## The lines -/

theorem stmt_start (a : Nat) (r : Str) (hr : ∀ c r', r = c :: r' → isDigit c = false) :
    stmt ("  ".toList ++ showNat a ++ r) = (match strip tableOpen r with
      | some s => do
        let s' ← strip tableMid (s.dropWhile (· ≠ '<'))
        let (b, s'') ← number s'
        if b = a ∧ s'' = tableClose then some (.node a (some (unescape (s.takeWhile (· ≠ '<'))))) else none
      | none =>
        match strip " -> ".toList r with
        | some s => do
          let (b, s) ← number s
          if s = [';'] then some (.arrow a b)
          else if s = " [penwidth=5];".toList then some (.near a b)
          else none
        | none =>
          if r = [';'] then some (.node a none)
          else if r = " [fontcolor=red];".toList then some (.head a)
          else none) := by
  unfold stmt
  rw [List.append_assoc, strip_append, Option.bind_eq_bind, Option.bind_some, number_show a r hr, Option.bind_eq_bind, Option.bind_some]

theorem stmt_node (a : Nat) (t : Str) (h : '<' ∉ t) :
    stmt ("  ".toList ++ showNat a ++ (nodeOpen ++ (t ++ (nodeMid ++ (showNat a ++ nodeClose))))) = some (.node a (some (unescape t))) := by
  rw [stmt_start a _ (by intro c r' e; injection e with e _; rw [← e]; rfl)]
  rw [show nodeOpen = tableOpen from rfl, strip_append]
  dsimp only
  have hm : nodeMid = '<' :: nodeMid.drop 1 := rfl
  rw [hm, List.cons_append, (span_ne h).1, (span_ne h).2, ← List.cons_append, ← hm, show nodeMid = tableMid from rfl, strip_append, Option.bind_eq_bind, Option.bind_some,
    number_show a nodeClose (by intro c r' e; injection e with e _; rw [← e]; rfl), Option.bind_eq_bind, Option.bind_some]
  exact if_pos ⟨rfl, rfl⟩

theorem stmt_blank (a : Nat) : stmt ("  ".toList ++ showNat a ++ [';']) = some (.node a none) := by
  rw [stmt_start a _ (by intro c r' e; injection e with e _; rw [← e]; rfl)]
  rfl

theorem stmt_head (a : Nat) : stmt ("  ".toList ++ showNat a ++ " [fontcolor=red];".toList) = some (.head a) := by
  rw [stmt_start a _ (by intro c r' e; injection e with e _; rw [← e]; rfl)]
  rfl

theorem stmt_arrow (a b : Nat) : stmt ("  ".toList ++ showNat a ++ (" -> ".toList ++ (showNat b ++ [';']))) = some (.arrow a b) := by
  rw [stmt_start a _ (by intro c r' e; injection e with e _; rw [← e]; rfl)]
  have e : ∀ s : Str, strip tableOpen (" -> ".toList ++ s) = none := fun s => rfl
  rw [e, strip_append]
  dsimp only
  rw [number_show b _ (by intro c r' e; injection e with e _; rw [← e]; rfl)]
  rfl

theorem stmt_near (a b : Nat) : stmt ("  ".toList ++ showNat a ++ (" -> ".toList ++ (showNat b ++ " [penwidth=5];".toList))) = some (.near a b) := by
  rw [stmt_start a _ (by intro c r' e; injection e with e _; rw [← e]; rfl)]
  have e : ∀ s : Str, strip tableOpen (" -> ".toList ++ s) = none := fun s => rfl
  rw [e, strip_append]
  dsimp only
  rw [number_show b _ (by intro c r' e; injection e with e _; rw [← e]; rfl)]
  rfl

/-- Lines with what they say. -/
def Says (L : Str) (x : Stmt) : Prop := '\n' ∉ L ∧ L ≠ [] ∧ L.head? ≠ some '}' ∧ stmt L = some x

theorem stmts_lines : ∀ (Ls : List (Str × Stmt)) (n : Nat), Ls.length < n → (∀ p ∈ Ls, Says p.1 p.2) →
    stmts n (Ls.flatMap (fun p => p.1 ++ ['\n']) ++ "}\n".toList) = some (Ls.map (·.2))
  | [], n + 1, _, _ => rfl
  | p :: Ls, n + 1, hn, h => by
    obtain ⟨h1, h2, h3, h4⟩ := h p (by simp)
    have ih := stmts_lines Ls n (by simpa using hn) (fun q hq => h q (by simp [hq]))
    have e : (p :: Ls).flatMap (fun p => p.1 ++ ['\n']) ++ "}\n".toList = p.1 ++ '\n' :: (Ls.flatMap (fun p => p.1 ++ ['\n']) ++ "}\n".toList) := by
      simp [List.flatMap_cons]
    rw [e]
    generalize Ls.flatMap (fun p => p.1 ++ ['\n']) ++ "}\n".toList = rest at ih
    unfold stmts
    rw [if_neg, if_pos (by simp), (span_ne h1).1, (span_ne h1).2, h4, Option.bind_eq_bind, Option.bind_some, List.drop_succ_cons, List.drop_zero, ih]
    · rfl
    · intro hc
      cases hl : p.1 with
      | nil => exact h2 hl
      | cons c l =>
        rw [hl] at hc h3
        rw [show "}\n".toList = ['}', '\n'] from rfl] at hc
        simp only [List.cons_append, List.cons.injEq] at hc
        exact h3 (by rw [List.head?_cons, hc.1])
  | _, 0, hn, _ => by omega

theorem nl_show (n : Nat) : '\n' ∉ showNat n := Lli.notDigit_mem (by decide)

theorem says_node {m : Label → Option Str} {a : Nat} (h : ∀ t, m a = some t → Plain t) :
    ∃ L, nodeLine m a = L ++ ['\n'] ∧ Says L (.node a ((m a).map shownPart)) := by
  unfold nodeLine
  cases hm : m a with
  | none =>
    refine ⟨"  ".toList ++ showNat a ++ [';'], ?_, ?_, ?_, ?_, stmt_blank a⟩
    · rw [show ";\n".toList = [';'] ++ ['\n'] from rfl]; simp
    · rw [List.mem_append, List.mem_append, not_or, not_or]; exact ⟨⟨by decide, nl_show a⟩, by decide⟩
    · simp
    · rw [List.append_assoc]; intro e; injection e with e; revert e; decide
  | some t =>
    have hp := h t hm
    have hlt : '<' ∉ strReplace t '>' "&gt;".toList := by
      intro hc
      rcases shown_chars hc with hc | hc
      · exact (hp _ hc).1 rfl
      · revert hc; decide
    have hnl : '\n' ∉ strReplace t '>' "&gt;".toList := by
      intro hc
      rcases shown_chars hc with hc | hc
      · exact (hp _ hc).2.1 rfl
      · revert hc; decide
    refine ⟨"  ".toList ++ showNat a ++ (nodeOpen ++ (strReplace t '>' "&gt;".toList ++ (nodeMid ++ (showNat a ++ nodeClose)))), ?_, ?_, ?_, ?_, ?_⟩
    · dsimp only; simp only [List.append_assoc]
    · simp only [List.mem_append, not_or]
      exact ⟨⟨by decide, nl_show a⟩, by decide, hnl, by decide, nl_show a, by decide⟩
    · simp
    · rw [List.append_assoc]; intro e; injection e with e; revert e; decide
    · rw [stmt_node a _ hlt, unescape_shown (fun hc => (hp _ hc).2.2 rfl)]; rfl

theorem says_arrow (a b : Nat) : ∃ L, edgeLine a b = L ++ ['\n'] ∧ Says L (.arrow a b) := by
  refine ⟨"  ".toList ++ showNat a ++ (" -> ".toList ++ (showNat b ++ [';'])), ?_, ?_, ?_, ?_, stmt_arrow a b⟩
  · unfold edgeLine; rw [show ";\n".toList = [';'] ++ ['\n'] from rfl]; simp only [List.append_assoc]
  · simp only [List.mem_append, not_or]
    exact ⟨⟨by decide, nl_show a⟩, by decide, nl_show b, by decide⟩
  · simp
  · rw [List.append_assoc]; intro e; injection e with e; revert e; decide

theorem says_head (a : Nat) : ∃ L, headLine a = L ++ ['\n'] ∧ Says L (.head a) := by
  refine ⟨"  ".toList ++ showNat a ++ " [fontcolor=red];".toList, ?_, ?_, ?_, ?_, stmt_head a⟩
  · unfold headLine; rw [show " [fontcolor=red];\n".toList = " [fontcolor=red];".toList ++ ['\n'] from rfl]; simp only [List.append_assoc]
  · simp only [List.mem_append, not_or]
    exact ⟨⟨by decide, nl_show a⟩, by decide⟩
  · simp
  · rw [List.append_assoc]; intro e; injection e with e; revert e; decide

theorem says_near (p : Nat × Nat) : ∃ L, nearLine p = L ++ ['\n'] ∧ Says L (.near p.1 p.2) := by
  refine ⟨"  ".toList ++ showNat p.1 ++ (" -> ".toList ++ (showNat p.2 ++ " [penwidth=5];".toList)), ?_, ?_, ?_, ?_, stmt_near p.1 p.2⟩
  · unfold nearLine; rw [show " [penwidth=5];\n".toList = " [penwidth=5];".toList ++ ['\n'] from rfl]; simp only [List.append_assoc]
  · simp only [List.mem_append, not_or]
    exact ⟨⟨by decide, nl_show _⟩, by decide, nl_show _, by decide⟩
  · simp
  · rw [List.append_assoc]; intro e; injection e with e; revert e; decide

/-- Text made of lines that say what `xs` lists. -/
def Tells (s : Str) (xs : List Stmt) : Prop := ∃ Ls : List (Str × Stmt), s = Ls.flatMap (fun p => p.1 ++ ['\n']) ∧ xs = Ls.map (·.2) ∧ ∀ p ∈ Ls, Says p.1 p.2

theorem Tells.append {s t : Str} {xs ys : List Stmt} : Tells s xs → Tells t ys → Tells (s ++ t) (xs ++ ys) := by
  rintro ⟨l1, rfl, rfl, h1⟩ ⟨l2, rfl, rfl, h2⟩
  refine ⟨l1 ++ l2, by simp, by simp, ?_⟩
  intro p hp
  rcases List.mem_append.1 hp with hp | hp
  · exact h1 p hp
  · exact h2 p hp

theorem Tells.flatMap {α : Type} {f : α → Str} {g : α → List Stmt} : ∀ (l : List α), (∀ x ∈ l, Tells (f x) (g x)) → Tells (l.flatMap f) (l.flatMap g)
  | [], _ => ⟨[], rfl, rfl, by simp⟩
  | x :: l, h => by
    rw [List.flatMap_cons, List.flatMap_cons]
    exact (h x (by simp)).append (Tells.flatMap l fun y hy => h y (by simp [hy]))

theorem Tells.map {α : Type} {f : α → Str} {g : α → Stmt} (l : List α) (h : ∀ x ∈ l, ∃ L, f x = L ++ ['\n'] ∧ Says L (g x)) : Tells (l.flatMap f) (l.map g) := by
  have : l.map g = l.flatMap (fun x => [g x]) := List.map_eq_flatMap
  rw [this]
  refine Tells.flatMap l fun x hx => ?_
  obtain ⟨L, h1, h2⟩ := h x hx
  exact ⟨[(L, g x)], by simp [h1], by simp, by simpa using h2⟩

theorem read_tells {s : Str} {xs : List Stmt} (h : Tells s xs) : readGraph ("digraph DirectedGraph {\n".toList ++ s ++ "}\n".toList) = some xs := by
  obtain ⟨Ls, rfl, rfl, h1⟩ := h
  unfold readGraph
  rw [List.append_assoc, strip_append, Option.bind_eq_bind, Option.bind_some]
  refine stmts_lines Ls _ ?_ h1
  have : ∀ Ls : List (Str × Stmt), Ls.length ≤ (Ls.flatMap (fun p => p.1 ++ ['\n'])).length := by
    intro Ls
    induction Ls with
    | nil => simp
    | cons p Ls ih => simp only [List.flatMap_cons, List.length_append, List.length_cons, List.length_nil] at ih ⊢; omega
  have := this Ls
  simp only [List.length_append]
  omega

end Verif.Dag
