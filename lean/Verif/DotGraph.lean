import Mathlib.Data.List.Nodup
import Verif.DotProps

/-!
# C71: what the text of a graph says
-/

namespace Verif.Dag
open Spec Verif.Gates

variable {I : Type}

theorem contents_ok {pr : I → Outcome Str} {d : DDag I} : ∀ (ls : List Nat) (m : Nat → Option Str),
    (∀ l ∈ ls, ∀ i, d.instr l = some i → ∃ t, pr i = .ok t) →
    ∃ m', d.contents pr ls m = .ok m' ∧ (∀ l ∈ ls, ∀ i t, d.instr l = some i → pr i = .ok t → m' l = some t) ∧
      (∀ l, (l ∉ ls ∨ d.instr l = none) → m' l = m l)
  | [], m, _ => ⟨m, rfl, by simp, fun _ _ => rfl⟩
  | l :: ls, m, h => by
    unfold DDag.contents
    cases hi : d.instr l with
    | none =>
      obtain ⟨m', h1, h2, h3⟩ := contents_ok ls m fun x hx => h x (by simp [hx])
      refine ⟨m', h1, ?_, ?_⟩
      · intro x hx i t hxi
        rcases List.mem_cons.1 hx with rfl | hx
        · rw [hi] at hxi; cases hxi
        · exact h2 x hx i t hxi
      · intro x hx
        refine h3 x ?_
        rcases hx with hx | hx
        · exact Or.inl fun hc => hx (by simp [hc])
        · exact Or.inr hx
    | some i =>
      obtain ⟨t, ht⟩ := h l (by simp) i hi
      obtain ⟨m', h1, h2, h3⟩ := contents_ok ls (upd m l (some t)) fun x hx => h x (by simp [hx])
      dsimp only
      rw [ht, Outcome.bind_ok]
      refine ⟨m', h1, ?_, ?_⟩
      · intro x hx j s hxj hs
        by_cases hm : x ∈ ls
        · exact h2 x hm j s hxj hs
        · rcases List.mem_cons.1 hx with rfl | hx
          · rw [h3 x (Or.inl hm), upd_same]
            rw [hi] at hxj; cases hxj
            rw [ht] at hs; cases hs; rfl
          · exact absurd hx hm
      · intro x hx
        have hne : x ≠ l := by
          rintro rfl
          rcases hx with hx | hx
          · exact hx (by simp)
          · rw [hi] at hx; cases hx
        rw [h3 x (by rcases hx with hx | hx; exact Or.inl (fun hc => hx (by simp [hc])); exact Or.inr hx), upd_other _ _ hne]

/-- What the text should say about a graph: the nodes with what is seen of their instructions, the arrows, and the marks. -/
def said (pr : I → Outcome Str) (d : DDag I) : List Stmt :=
  d.graph.nodes.map (fun l => .node l (match d.instr l with
    | some i => match pr i with
      | .ok t => some (shownPart t)
      | _ => none
    | none => none)) ++
  d.graph.nodes.flatMap (fun a => (d.graph.succ a).map (.arrow a)) ++ d.proxHeads.map .head ++ d.proxDeps.map (fun p => .near p.1 p.2)

theorem dot_said {pr : I → Outcome Str} {d : DDag I} (hn : ∀ l ∈ d.graph.nodes, l < d.next)
    (h : ∀ l < d.next, ∀ i, d.instr l = some i → ∃ t, pr i = .ok t ∧ Plain t) :
    ∃ s, d.dot pr = .ok s ∧ readGraph s = some (said pr d) := by
  obtain ⟨m, h1, h2, h3⟩ := contents_ok (pr := pr) (d := d) (List.range d.next) (fun _ => none) (fun l hl i hi => by
    obtain ⟨t, ht, _⟩ := h l (List.mem_range.1 hl) i hi
    exact ⟨t, ht⟩)
  refine ⟨d.graph.dot m (d.proxHeads.flatMap headLine ++ d.proxDeps.flatMap nearLine), ?_, ?_⟩
  · unfold DDag.dot; rw [h1, Outcome.bind_ok]
  · unfold Graph.dot said
    have hm : ∀ l ∈ d.graph.nodes, (match d.instr l with
        | some i => match pr i with
          | .ok t => some (shownPart t)
          | _ => none
        | none => none) = (m l).map shownPart := by
      intro l hl
      cases hi : d.instr l with
      | none => rw [h3 l (Or.inr hi)]; rfl
      | some i =>
        obtain ⟨t, ht, _⟩ := h l (hn l hl) i hi
        rw [h2 l (List.mem_range.2 (hn l hl)) i t hi ht]
        dsimp only
        rw [ht]; rfl
    have e : d.graph.nodes.map (fun l => Stmt.node l (match d.instr l with
        | some i => match pr i with
          | .ok t => some (shownPart t)
          | _ => none
        | none => none)) = d.graph.nodes.map (fun l => Stmt.node l ((m l).map shownPart)) := by
      refine List.map_congr_left fun l hl => ?_
      rw [hm l hl]
    rw [e]
    have := read_tells (((Tells.map (f := nodeLine m) (g := fun l => Stmt.node l ((m l).map shownPart)) d.graph.nodes (fun l hl => says_node (fun t ht => by
        cases hi : d.instr l with
        | none => rw [h3 l (Or.inr hi)] at ht; cases ht
        | some i =>
          obtain ⟨t', ht', hp⟩ := h l (hn l hl) i hi
          rw [h2 l (List.mem_range.2 (hn l hl)) i t' hi ht'] at ht
          cases ht; exact hp))).append
      (Tells.flatMap (f := fun a => (d.graph.succ a).flatMap (edgeLine a)) (g := fun a => (d.graph.succ a).map (Stmt.arrow a)) d.graph.nodes
        (fun a _ => Tells.map _ fun b _ => says_arrow a b))).append
      ((Tells.map (f := headLine) (g := Stmt.head) d.proxHeads (fun a _ => says_head a)).append
        (Tells.map (f := nearLine) (g := fun p => Stmt.near p.1 p.2) d.proxDeps (fun a _ => says_near a))))
    simp only [List.append_assoc] at this ⊢
    exact this

/-! ## Texts of instructions -/

/-- Characters without a meaning in a label. -/
def Clean (s : Str) : Prop := ∀ c ∈ s, c ≠ '<' ∧ c ≠ '\n' ∧ c ≠ '&' ∧ c ≠ '>'

theorem Clean.plain {s : Str} (h : Clean s) : Plain s ∧ shownPart s = s :=
  ⟨fun c hc => ⟨(h c hc).1, (h c hc).2.1, (h c hc).2.2.1⟩, by
    unfold shownPart
    rw [if_neg fun hc => (h _ hc).2.2.2 rfl]⟩

theorem clean_nil : Clean [] := by intro c hc; simp at hc

theorem clean_append {a b : Str} (ha : Clean a) (hb : Clean b) : Clean (a ++ b) := by
  intro c hc
  rcases List.mem_append.1 hc with h | h
  · exact ha c h
  · exact hb c h

theorem clean_cons {c : Char} {s : Str} (h : c ≠ '<' ∧ c ≠ '\n' ∧ c ≠ '&' ∧ c ≠ '>') (hs : Clean s) : Clean (c :: s) := by
  intro x hx
  rcases List.mem_cons.1 hx with rfl | hx
  · exact h
  · exact hs x hx

theorem clean_of (s : Str) (h : s.all (fun c => c != '<' && c != '\n' && c != '&' && c != '>') = true) : Clean s := by
  intro c hc
  have := List.all_eq_true.1 h c hc
  simpa [and_assoc] using this

theorem clean_showNat (n : Nat) : Clean (showNat n) := by
  intro c hc
  have := Lli.showNat_digits n c hc
  refine ⟨?_, ?_, ?_, ?_⟩ <;> · rintro rfl; revert this; decide

theorem clean_showInt (z : Int) : Clean (showInt z) := by
  unfold showInt
  split
  · exact clean_cons (by decide) (clean_showNat _)
  · exact clean_showNat _

theorem clean_flatMap {α : Type} {f : α → Str} {l : List α} (h : ∀ x ∈ l, Clean (f x)) : Clean (l.flatMap f) := by
  intro c hc
  obtain ⟨x, hx, hc⟩ := List.mem_flatMap.1 hc
  exact h x hx c hc

theorem clean_joinStr {sep : Str} (hs : Clean sep) : ∀ (xs : List Str), (∀ x ∈ xs, Clean x) → Clean (joinStr xs sep)
  | [], _ => clean_nil
  | x :: xs, h => by
    unfold joinStr
    have : ∀ (ys : List Str) (acc : Str), Clean acc → (∀ y ∈ ys, Clean y) → Clean (ys.foldl (fun acc v => acc ++ sep ++ v) acc) := by
      intro ys
      induction ys with
      | nil => intro acc h _; exact h
      | cons y ys ih =>
        intro acc h hy
        exact ih _ (clean_append (clean_append h hs) (hy y (by simp))) (fun z hz => hy z (by simp [hz]))
    exact this xs x (h x (by simp)) (fun y hy => h y (by simp [hy]))

theorem clean_pauli (p : Pauli) : Clean (Lli.pauliStr p) := by cases p <;> exact clean_of _ (by decide)

/-- Splits a text into its pieces. -/
macro "clean" : tactic => `(tactic| repeat' first
  | exact clean_nil
  | assumption
  | exact clean_showNat _
  | exact clean_showInt _
  | exact clean_pauli _
  | refine clean_append ?_ ?_
  | exact clean_of _ (by decide)
  | refine clean_cons (by decide) ?_)

theorem clean_cell (c : Cell) : Clean (Lli.cellStr c) := by
  unfold Lli.cellStr
  clean

theorem clean_local (l : LocalInstr) : Clean (Lli.localStr l) := by
  cases l <;> unfold Lli.localStr <;> first
    | exact clean_append (clean_of _ (by decide)) (clean_cell _)
    | exact clean_append (clean_append (clean_of _ (by decide)) (clean_cell _)) (clean_cons (by decide) (clean_cell _))

theorem clean_next (n : NextTo) : Clean (Lli.nextStr n) := clean_append (clean_showNat _) (clean_cons (by decide) (clean_pauli _))

theorem clean_range {v : List LocalInstr} {second : Nat} : ∀ (n i : Nat) {s : Str}, Lli.localRange v second n i = .ok s → Clean s
  | 0, _, s, h => by cases h; exact clean_nil
  | n + 1, i, s, h => by
    unfold Lli.localRange at h
    split at h
    · split at h
      · cases h
      · obtain ⟨r, h1, h2⟩ := Outcome.bind_eq_ok.1 h
        cases h2
        refine clean_append (clean_append (clean_local _) ?_) (clean_range n (i + 1) h1)
        split
        · exact clean_of _ (by decide)
        · exact clean_nil
    · cases h; exact clean_nil

theorem clean_phases {pairs : List (Nat × Nat)} : ∀ (vs : List (List LocalInstr)) (k : Nat) {s : Str}, Lli.phasesStr pairs vs k = .ok s → Clean s
  | [], _, s, h => by cases h; exact clean_nil
  | v :: vs, k, s, h => by
    unfold Lli.phasesStr at h
    split at h
    · cases h
    · obtain ⟨a, h1, h2⟩ := Outcome.bind_eq_ok.1 h
      obtain ⟨b, h3, h4⟩ := Outcome.bind_eq_ok.1 h2
      cases h4
      exact clean_append (clean_range _ _ h1) (clean_phases vs _ h3)

theorem clean_bracket {s : Str} (h : Clean s) : Clean (" [".toList ++ s ++ [']']) := clean_append (clean_append (clean_of _ (by decide)) h) (clean_of _ (by decide))

theorem clean_optLocal (l : Option LocalInstr) : Clean (match l with | none => [] | some l => " [".toList ++ Lli.localStr l ++ [']']) := by
  cases l with
  | none => exact clean_nil
  | some l => exact clean_bracket (clean_local l)

theorem clean_neg (b : Bool) : Clean (if b then ['-'] else []) := by cases b <;> exact clean_of _ (by decide)

theorem clean_join (xs : List (Nat × Pauli)) : Clean (joinStr (xs.map Lli.obsEntry) [',']) := by
  refine clean_joinStr (clean_of _ (by decide)) _ ?_
  intro x hx
  obtain ⟨e, _, rfl⟩ := List.mem_map.1 hx
  unfold Lli.obsEntry
  clean

/-- The texts of all instructions but declarations and initialisations. -/
theorem clean_printOp {o : Operation} {t : Str} (h : Lli.printOp o = .ok t) (hd : ∀ ids, o ≠ .declare ids) (hi : ∀ q s n, o ≠ .init q s n) : Clean t := by
  cases o with
  | declare ids => exact absurd rfl (hd ids)
  | init q s n => exact absurd rfl (hi q s n)
  | measure q p neg =>
    cases h
    have := clean_neg neg
    clean
  | multi obs neg loc =>
    cases h
    have := clean_neg neg
    have := clean_join obs
    have := clean_optLocal loc
    clean
  | bell b =>
    unfold Lli.printOp at h
    obtain ⟨tail, h1, h2⟩ := Outcome.bind_eq_ok.1 h
    have ht : Clean tail := by
      split at h1
      · obtain ⟨s, h3, h4⟩ := Outcome.bind_eq_ok.1 h1
        cases h4
        exact clean_bracket (clean_range _ _ h3)
      · cases h1; exact clean_nil
    cases h2
    have := clean_next b.loc1
    have := clean_next b.loc2
    clean
  | magic q n =>
    cases h
    clean
  | ystate q n loc =>
    cases h
    have := clean_optLocal loc
    clean
  | sq q g d =>
    unfold Lli.printOp at h
    obtain ⟨nm, h1, h2⟩ := Outcome.bind_eq_ok.1 h
    cases h2
    have : Clean nm := by cases g <;> cases h1 <;> exact clean_of _ (by decide)
    clean
  | rotate q =>
    cases h
    clean
  | busy r k after =>
    cases h
    have : Clean (r.cells.flatMap (fun c => '(' :: showInt c.cell.row ++ ',' :: showInt c.cell.col ++ "),".toList)) := by
      refine clean_flatMap fun c _ => ?_
      clean
    clean
  | bellCnot c =>
    unfold Lli.printOp at h
    obtain ⟨tail, h1, h2⟩ := Outcome.bind_eq_ok.1 h
    have ht : Clean tail := by
      split at h1
      · obtain ⟨s, h3, h4⟩ := Outcome.bind_eq_ok.1 h1
        cases h4
        exact clean_bracket (clean_phases _ _ h3)
      · cases h1; exact clean_nil
    cases h2
    clean
  | reset q =>
    cases h
    clean

/-- The texts of gates. -/
theorem clean_gate (g : Gate) : Clean g.print := by
  have hb : ∀ t : BasicType, Clean t.print := fun t => by cases t <;> exact clean_of _ (by decide)
  have hq : ∀ n, Clean (qubitText n) := fun n => by unfold qubitText; clean
  cases g with
  | basic q t =>
    have := hb t
    have := hq q
    unfold Gate.print
    clean
  | rz q f =>
    have := hq q
    unfold Gate.print
    clean
  | reset r q =>
    have := hq q
    unfold Gate.print
    clean
  | ctrl c t ty pl =>
    have := hq c
    cases t with
    | basic q t =>
      have := hb t
      have := hq q
      unfold Gate.print
      clean
    | rz q f =>
      have := hq q
      have : Clean (if f.num ≠ 1 then showInt f.num ++ "*pi".toList else []) := by split <;> clean
      unfold Gate.print
      clean

end Verif.Dag

namespace Verif.Dag
open Spec Verif.Gates

variable {I : Type}

theorem mem_said_node {pr : I → Outcome Str} {d : DDag I} {k : Nat} {t : Option Str} : Stmt.node k t ∈ said pr d ↔ k ∈ d.graph.nodes ∧ t = (match d.instr k with
    | some i => match pr i with
      | .ok t => some (shownPart t)
      | _ => none
    | none => none) := by
  unfold said
  simp only [List.mem_append, List.mem_map, List.mem_flatMap, Stmt.node.injEq, reduceCtorEq, and_false, exists_false, or_false]
  constructor
  · rintro ⟨a, h, rfl, h2⟩; exact ⟨h, h2.symm⟩
  · rintro ⟨h, h2⟩; exact ⟨k, h, rfl, h2.symm⟩

theorem mem_said_arrow {pr : I → Outcome Str} {d : DDag I} {a b : Nat} : Stmt.arrow a b ∈ said pr d ↔ d.graph.Edge a b := by
  unfold said Graph.Edge
  simp only [List.mem_append, List.mem_map, List.mem_flatMap, Stmt.arrow.injEq, reduceCtorEq, and_false, exists_false, or_false, false_or]
  constructor
  · rintro ⟨x, h1, y, h2, rfl, rfl⟩; exact ⟨h1, h2⟩
  · rintro ⟨h1, h2⟩; exact ⟨a, h1, b, h2, rfl, rfl⟩

theorem mem_said_head {pr : I → Outcome Str} {d : DDag I} {k : Nat} : Stmt.head k ∈ said pr d ↔ k ∈ d.proxHeads := by
  unfold said
  simp

theorem mem_said_near {pr : I → Outcome Str} {d : DDag I} {a b : Nat} : Stmt.near a b ∈ said pr d ↔ (a, b) ∈ d.proxDeps := by
  unfold said
  simp

theorem said_nodup {pr : I → Outcome Str} {d : DDag I} (hw : d.graph.WF) (h1 : d.proxHeads = []) (h2 : d.proxDeps = []) : (said pr d).Nodup := by
  unfold said
  rw [h1, h2]
  simp only [List.map_nil, List.append_nil]
  obtain ⟨n1, n2, _⟩ := WF_iff.1 hw
  rw [List.nodup_append]
  refine ⟨List.Nodup.map (fun a b e => by injection e) n1, ?_, ?_⟩
  · rw [List.nodup_flatMap]
    refine ⟨fun x hx => List.Nodup.map (fun a b e => by injection e) (n2 x hx), n1.imp ?_⟩
    intro a b hab
    rw [Function.onFun, List.disjoint_left]
    intro x hx hy
    obtain ⟨u, _, rfl⟩ := List.mem_map.1 hx
    obtain ⟨v, _, e⟩ := List.mem_map.1 hy
    injection e with e _
    exact hab e.symm
  · intro a ha b hb e
    subst e
    obtain ⟨x, _, rfl⟩ := List.mem_map.1 ha
    obtain ⟨y, _, hy⟩ := List.mem_flatMap.1 hb
    obtain ⟨z, _, e⟩ := List.mem_map.1 hy
    cases e

end Verif.Dag

namespace Verif.Dag.Spec
open Verif.Gates Verif.Gates.Spec

variable {I : Type}

/-- The graph in the text is the one of a list: node `k` with the text of entry `k`, and arrows as the relation says; each line once, and no marks. -/
def Depicts (s : Str) (n : Nat) (text : Nat → Str) (R : Nat → Nat → Prop) : Prop :=
  ∃ L, readGraph s = some L ∧ L.Nodup ∧ (∀ k t, Stmt.node k t ∈ L ↔ k < n ∧ t = some (text k)) ∧ (∀ a b, Stmt.arrow a b ∈ L ↔ R a b) ∧
    (∀ k, Stmt.head k ∉ L) ∧ ∀ a b, Stmt.near a b ∉ L

theorem depicts_shown {pr : I → Outcome Str} {comm : I → I → Bool} {P : List I} {d : DDag I} (hb : Built comm P d) {text : Nat → Str}
    (h : ∀ k i, P[k]? = some i → pr i = .ok (text k) ∧ Plain (text k)) :
    ∃ s, d.dot pr = .ok s ∧ Depicts s P.length (fun k => shownPart (text k)) (fun i j => i < j ∧ ∃ a b, P[i]? = some a ∧ P[j]? = some b ∧ comm a b = false) := by
  obtain ⟨s, h1, h2⟩ := dot_said (pr := pr) (d := d) (fun l hl => by rw [hb.next]; exact (hb.nodes l).1 hl) (fun l _ i hi => by
    rw [hb.instr] at hi
    exact ⟨text l, (h l i hi).1, (h l i hi).2⟩)
  refine ⟨s, h1, _, h2, said_nodup hb.wf hb.prox.2 hb.prox.1, ?_, ?_, ?_, ?_⟩
  · intro k t
    rw [mem_said_node, hb.nodes]
    refine and_congr_right fun hk => ?_
    rw [hb.instr, List.getElem?_eq_getElem hk]
    have := h k _ (List.getElem?_eq_getElem hk)
    dsimp only
    rw [this.1]
  · intro a b
    rw [mem_said_arrow, hb.edge]
  · intro k; rw [mem_said_head, hb.prox.2]; simp
  · intro a b; rw [mem_said_near, hb.prox.1]; simp

theorem depicts_of {pr : I → Outcome Str} {comm : I → I → Bool} {P : List I} {d : DDag I} (hb : Built comm P d) {text : Nat → Str}
    (h : ∀ k i, P[k]? = some i → pr i = .ok (text k) ∧ Plain (text k) ∧ shownPart (text k) = text k) :
    ∃ s, d.dot pr = .ok s ∧ Depicts s P.length text (fun i j => i < j ∧ ∃ a b, P[i]? = some a ∧ P[j]? = some b ∧ comm a b = false) := by
  obtain ⟨s, h1, L, h2, h3, h4, h5⟩ := depicts_shown hb (fun k i hk => ⟨(h k i hk).1, (h k i hk).2.1⟩)
  refine ⟨s, h1, L, h2, h3, fun k t => ?_, h5⟩
  rw [h4]
  refine and_congr_right fun hk => ?_
  dsimp only
  rw [(h k _ (List.getElem?_eq_getElem hk)).2.2]

/-- **C71 (any graph)**. Whatever is done to a graph built from a program (taking out, replacing, marking), its text can be read back: it lists exactly the nodes, each with what is
seen of its instruction, the arrows, the marked nodes and the marked arrows. -/
theorem c71_runs_partial (pr : I → Outcome Str) (comm : I → I → Bool) (P : List I) (d : DDag I) (hd : DDag.pushAll comm DDag.empty P = .ok d)
    (as : List (DAct I)) (s : DRun I) (hs : (DRun.start d).acts as = .ok s) (hp : ∀ i, ∃ t, pr i = .ok t ∧ Plain t) :
    ∃ t L, s.dag.dot pr = .ok t ∧ readGraph t = some L ∧
      (∀ k u, Stmt.node k u ∈ L ↔ k ∈ s.dag.graph.nodes ∧ ∃ i v, s.dag.instr k = some i ∧ pr i = .ok v ∧ u = some (shownPart v)) ∧
      (∀ a b, Stmt.arrow a b ∈ L ↔ ListedSucc s.dag.graph a b) ∧ (∀ k, Stmt.head k ∈ L ↔ k ∈ s.dag.proxHeads) ∧
      ∀ a b, Stmt.near a b ∈ L ↔ (a, b) ∈ s.dag.proxDeps := by
  have hI := runInv_of hd hs
  obtain ⟨t, h1, h2⟩ := dot_said (pr := pr) (d := s.dag) hI.bound (fun l _ i _ => hp i)
  refine ⟨t, _, h1, h2, ?_, fun a b => by rw [mem_said_arrow, listedSucc_iff], fun k => mem_said_head, fun a b => mem_said_near⟩
  intro k u
  rw [mem_said_node]
  refine and_congr_right fun hk => ?_
  obtain ⟨i, hi⟩ := Option.isSome_iff_exists.1 (hI.instr k hk)
  obtain ⟨v, hv, _⟩ := hp i
  rw [hi]
  dsimp only
  rw [hv]
  constructor
  · intro e; exact ⟨i, v, rfl, hv, e⟩
  · rintro ⟨j, w, e1, e2, e3⟩
    injection e1 with e1
    subst e1
    rw [hv] at e2
    cases e2
    exact e3

/-- Instructions whose text survives in a label. -/
def Legible : Operation → Prop
  | .declare (x :: _) => x % 256 ≠ 10 ∧ x % 256 ≠ 38 ∧ x % 256 ≠ 60 ∧ x % 256 ≠ 62
  | .init _ _ next => next = none
  | _ => True

theorem ofNat_ne {x : Nat} (hx : x < 256) {c : Char} (h : x ≠ c.toNat) : Char.ofNat x ≠ c := by
  intro e
  apply h
  rw [← e]
  have hv : x.isValidChar := by left; omega
  rw [Char.ofNat, dif_pos hv]
  simp only [Char.toNat, Char.ofNatAux, UInt32.toNat]
  rfl

theorem init_text (q : Nat) (s : InitState) : ∃ pre, "Init ".toList ++ showNat q ++ ' ' :: Lli.stateStr s = pre ++ ['>'] ∧ Clean pre := by
  cases s with
  | zero =>
    refine ⟨"Init ".toList ++ showNat q ++ " |0".toList, ?_, by clean⟩
    rw [show ' ' :: Lli.stateStr .zero = " |0".toList ++ ['>'] from rfl]; simp only [List.append_assoc]
  | plus =>
    refine ⟨"Init ".toList ++ showNat q ++ " |+".toList, ?_, by clean⟩
    rw [show ' ' :: Lli.stateStr .plus = " |+".toList ++ ['>'] from rfl]; simp only [List.append_assoc]

theorem shownPart_last (pre post : Str) (h : '>' ∉ post) : shownPart (pre ++ '>' :: post) = pre ++ ['>'] := by
  unfold shownPart
  rw [if_pos (by simp), show (pre ++ '>' :: post).reverse = post.reverse ++ '>' :: pre.reverse by simp, (span_ne (by simpa using h)).2]
  simp

theorem legible_text {o : Operation} {t : Str} (h : Lli.printOp o = .ok t) (hl : Legible o) : Plain t ∧ shownPart t = t := by
  by_cases hd : ∃ ids, o = .declare ids
  · obtain ⟨ids, rfl⟩ := hd
    cases h
    apply Clean.plain
    have : Clean (joinNat ids [',']) := by
      cases ids with
      | nil => exact clean_nil
      | cons x xs =>
        unfold joinNat
        have key : ∀ (ys : List Nat) (acc : Str), Clean acc → Clean (ys.foldl (fun acc v => acc ++ [','] ++ showNat v) acc) := by
          intro ys
          induction ys with
          | nil => intro acc h; exact h
          | cons y ys ih => intro acc h; exact ih _ (by clean)
        refine key xs _ ?_
        obtain ⟨h1, h2, h3, h4⟩ := hl
        have hx : x % 256 < 256 := by omega
        exact clean_cons ⟨ofNat_ne hx h3, ofNat_ne hx h1, ofNat_ne hx h2, ofNat_ne hx h4⟩ clean_nil
    clean
  · by_cases hi : ∃ q s n, o = .init q s n
    · obtain ⟨q, s, n, rfl⟩ := hi
      simp only [Legible] at hl
      subst hl
      cases h
      obtain ⟨pre, e, hc⟩ := init_text q s
      rw [List.append_nil, e]
      refine ⟨?_, shownPart_last pre [] (by simp)⟩
      intro c hm
      rcases List.mem_append.1 hm with hm | hm
      · exact ⟨(hc c hm).1, (hc c hm).2.1, (hc c hm).2.2.1⟩
      · rw [List.mem_singleton] at hm; subst hm; decide
    · exact (clean_printOp h (fun ids e => hd ⟨ids, e⟩) (fun q s n e => hi ⟨q, s, n, e⟩)).plain

theorem plain_text {o : Operation} {t : Str} (h : Lli.printOp o = .ok t) (hd : ∀ ids, o ≠ .declare ids) : Plain t := by
  by_cases hi : ∃ q s n, o = .init q s n
  · obtain ⟨q, s, n, rfl⟩ := hi
    cases n with
    | none => exact (legible_text h rfl).1
    | some n =>
      cases h
      obtain ⟨pre, e, hc⟩ := init_text q s
      rw [e]
      have h2 : Clean (' ' :: Lli.nextStr n) := clean_cons (by decide) (clean_next n)
      intro c hm
      rcases List.mem_append.1 hm with hm | hm
      · rcases List.mem_append.1 hm with hm | hm
        · exact ⟨(hc c hm).1, (hc c hm).2.1, (hc c hm).2.2.1⟩
        · rw [List.mem_singleton] at hm; subst hm; decide
      · exact ⟨(h2 c hm).1, (h2 c hm).2.1, (h2 c hm).2.2.1⟩
  · exact (clean_printOp h hd (fun q s n e => hi ⟨q, s, n, e⟩)).plain.1

/-- **C71 (instructions)**. The text of the graph of a program of instructions that can be printed, with legible texts, depicts it: one node for each instruction with its text, and an arrow from
one to a later one exactly when they have a patch in common. -/
theorem c71_instructions_partial (P : List Instr) (text : Nat → Str) (ht : ∀ k i, P[k]? = some i → Lli.printOp i.op = .ok (text k)) (hl : ∀ i ∈ P, Legible i.op) :
    ∃ s, lliGraph P = .ok s ∧ Depicts s P.length text
      (fun a b => a < b ∧ ∃ i j, P[a]? = some i ∧ P[b]? = some j ∧ ∃ q, (q ∈ i.clients ∨ q ∈ i.op.ids) ∧ (q ∈ j.clients ∨ q ∈ j.op.ids)) := by
  obtain ⟨d, h1, h2⟩ := built_pushAll Instr.canCommute P (built_empty Instr.canCommute)
  simp only [List.nil_append] at h2
  obtain ⟨s, h3, L, h4, h5, h6, h7, h8⟩ := depicts_of (pr := fun i : Instr => Lli.printOp i.op) h2 (text := text) (fun k i hk =>
    ⟨ht k i hk, legible_text (ht k i hk) (hl i (List.mem_of_getElem? hk))⟩)
  refine ⟨s, by unfold lliGraph; rw [h1, Outcome.bind_ok]; exact h3, L, h4, h5, h6, ?_, h8⟩
  intro a b
  rw [h7]
  refine and_congr_right fun _ => ?_
  have : ∀ i j : Instr, Instr.canCommute i j = false ↔ ∃ q, (q ∈ i.clients ∨ q ∈ i.op.ids) ∧ (q ∈ j.clients ∨ q ∈ j.op.ids) := by
    intro i j
    unfold Instr.canCommute
    rw [← Bool.not_eq_true, List.isEmpty_iff, List.filter_eq_nil_iff]
    simp only [decide_eq_true_eq, mem_operating]
    constructor
    · intro h
      by_contra hc
      exact h fun q h1 h2 => hc ⟨q, h1, h2⟩
    · rintro ⟨q, h1, h2⟩ h
      exact h q h1 h2
  constructor
  · rintro ⟨i, j, e1, e2, e3⟩; exact ⟨i, j, e1, e2, (this i j).1 e3⟩
  · rintro ⟨i, j, e1, e2, e3⟩; exact ⟨i, j, e1, e2, (this i j).2 e3⟩

/-- **C71 (instructions, what is shown)**. For programs without declarations, legible or not: each node shows the text of its instruction up to the last `>`. -/
theorem c71_shown_partial (P : List Instr) (text : Nat → Str) (ht : ∀ k i, P[k]? = some i → Lli.printOp i.op = .ok (text k)) (hd : ∀ i ∈ P, ∀ ids, i.op ≠ .declare ids) :
    ∃ s, lliGraph P = .ok s ∧ Depicts s P.length (fun k => shownPart (text k))
      (fun a b => a < b ∧ ∃ i j, P[a]? = some i ∧ P[b]? = some j ∧ ∃ q, (q ∈ i.clients ∨ q ∈ i.op.ids) ∧ (q ∈ j.clients ∨ q ∈ j.op.ids)) := by
  obtain ⟨d, h1, h2⟩ := built_pushAll Instr.canCommute P (built_empty Instr.canCommute)
  simp only [List.nil_append] at h2
  obtain ⟨s, h3, L, h4, h5, h6, h7, h8⟩ := depicts_shown (pr := fun i : Instr => Lli.printOp i.op) h2 (text := text) (fun k i hk =>
    ⟨ht k i hk, plain_text (ht k i hk) (hd i (List.mem_of_getElem? hk))⟩)
  refine ⟨s, by unfold lliGraph; rw [h1, Outcome.bind_ok]; exact h3, L, h4, h5, h6, ?_, h8⟩
  intro a b
  rw [h7]
  refine and_congr_right fun _ => ?_
  have : ∀ i j : Instr, Instr.canCommute i j = false ↔ ∃ q, (q ∈ i.clients ∨ q ∈ i.op.ids) ∧ (q ∈ j.clients ∨ q ∈ j.op.ids) := by
    intro i j
    unfold Instr.canCommute
    rw [← Bool.not_eq_true, List.isEmpty_iff, List.filter_eq_nil_iff]
    simp only [decide_eq_true_eq, mem_operating]
    constructor
    · intro h
      by_contra hc
      exact h fun q h1 h2 => hc ⟨q, h1, h2⟩
    · rintro ⟨q, h1, h2⟩ h
      exact h q h1 h2
  constructor
  · rintro ⟨i, j, e1, e2, e3⟩; exact ⟨i, j, e1, e2, (this i j).1 e3⟩
  · rintro ⟨i, j, e1, e2, e3⟩; exact ⟨i, j, e1, e2, (this i j).2 e3⟩

/-- **C71 (gates)**. The text of the graph of a program without resets depicts it: one node for each gate with its text, and an arrow from one to a later one exactly when they have to stay in order. -/
theorem c71_gates_partial (gs : List Gate) (h : ∀ g ∈ gs, ¬ IsReset g) (text : Nat → Str) (ht : ∀ k g, gs[k]? = some g → text k = g.print) :
    ∃ s, gateGraph gs = .ok s ∧ Depicts s gs.length text (fun i j => i < j ∧ ∃ a b, gs[i]? = some a ∧ gs[j]? = some b ∧ Clash a b) := by
  obtain ⟨d, h1, h2⟩ := built_gates h
  obtain ⟨s, h3, L, h4, h5, h6, h7, h8⟩ := depicts_of (pr := fun g : Gate => .ok g.print) h2 (text := text) (fun k i hk => by
    rw [ht k i hk]
    exact ⟨rfl, (clean_gate i).plain⟩)
  refine ⟨s, by unfold gateGraph; rw [h1, Outcome.bind_ok]; exact h3, L, h4, h5, h6, ?_, h8⟩
  intro i j
  rw [h7]
  refine and_congr_right fun _ => ?_
  have : ∀ a b, gs[i]? = some a → gs[j]? = some b → (comm a b = false ↔ Clash a b) := by
    intro a b ha hb
    have := comm_iff (h a (List.mem_of_getElem? ha)) (h b (List.mem_of_getElem? hb))
    rw [← Bool.not_eq_true, this, not_not]
  constructor
  · rintro ⟨a, b, ha, hb, hc⟩; exact ⟨a, b, ha, hb, (this a b ha hb).1 hc⟩
  · rintro ⟨a, b, ha, hb, hc⟩; exact ⟨a, b, ha, hb, (this a b ha hb).2 hc⟩

/-- **C71 (gates, whatever is printed)**. Whenever the text of the graph of gates is printed, it depicts the program. -/
theorem c71_printed (gs : List Gate) {s : Str} (h : gateGraph gs = .ok s) (text : Nat → Str) (ht : ∀ k g, gs[k]? = some g → text k = g.print) :
    Depicts s gs.length text (fun i j => i < j ∧ ∃ a b, gs[i]? = some a ∧ gs[j]? = some b ∧ Clash a b) := by
  by_cases hr : ∀ g ∈ gs, ¬ IsReset g
  · obtain ⟨s', h1, h2⟩ := c71_gates_partial gs hr text ht
    rw [h] at h1; cases h1
    exact h2
  · have hr' : ∃ g ∈ gs, IsReset g := by
      apply Classical.byContradiction
      intro hn
      exact hr fun g hg hx => hn ⟨g, hg, hx⟩
    by_cases hl : 2 ≤ gs.length
    · unfold gateGraph at h
      rw [c70_reset_throws gs hl hr'] at h
      cases h
    · obtain ⟨g, hg, hx⟩ := hr'
      have hone : ∃ g0, gs = [g0] := by
        cases gs with
        | nil => simp at hg
        | cons x l =>
          cases l with
          | nil => exact ⟨x, rfl⟩
          | cons y l => exact absurd (by simp) hl
      obtain ⟨g0, rfl⟩ := hone
      obtain ⟨d, h1, h2⟩ := built_pushAll comm [g0] (built_empty comm)
      have e : gateDag [g0] = DDag.pushAll comm DDag.empty [g0] := rfl
      obtain ⟨s', h3, L, h4, h5, h6, h7, h8⟩ := depicts_of (pr := fun g : Gate => .ok g.print) (by simpa using h2) (text := text) (fun k i hk => by
        rw [ht k i hk]
        exact ⟨rfl, (clean_gate i).plain⟩)
      unfold gateGraph at h
      rw [e, h1, Outcome.bind_ok, h3] at h
      cases h
      refine ⟨L, h4, h5, h6, ?_, h8⟩
      intro i j
      rw [h7]
      have no : ∀ b, i < j → [g0][j]? = some b → False := by
        intro b hij hb
        have := (List.getElem?_eq_some_iff.1 hb).1
        simp at this
        omega
      constructor
      · rintro ⟨hij, a, b, -, hb, -⟩; exact (no b hij hb).elim
      · rintro ⟨hij, a, b, -, hb, -⟩; exact (no b hij hb).elim

/-- The instruction without the place next to which a patch is to be made. -/
def placeless (i : Instr) : Instr :=
  match i.op with
  | .init q s _ => { i with op := .init q s none }
  | _ => i

theorem placeless_text (i : Instr) : (∃ t u, Lli.printOp i.op = .ok t ∧ Lli.printOp (placeless i).op = .ok u ∧ strReplace t '>' "&gt;".toList = strReplace u '>' "&gt;".toList) ∨
    (Lli.printOp i.op = Lli.printOp (placeless i).op) := by
  unfold placeless
  cases hi : i.op with
  | init q s n =>
    left
    refine ⟨_, _, rfl, rfl, ?_⟩
    obtain ⟨pre, e, hc⟩ := init_text q s
    cases n with
    | none => rfl
    | some n =>
      dsimp only
      have hn : '>' ∉ ' ' :: Lli.nextStr n := fun h => (clean_cons (by decide) (clean_next n) _ h).2.2.2 rfl
      rw [e, List.append_nil, show pre ++ ['>'] ++ ' ' :: Lli.nextStr n = pre ++ '>' :: (' ' :: Lli.nextStr n) by simp,
        (Verif.Spec.c05_replace_partial '>' "&gt;".toList).2.1 pre _ hn, (Verif.Spec.c05_replace_partial '>' "&gt;".toList).2.1 pre [] (by simp)]
  | _ => right; simp [hi]

theorem placeless_comm (i j : Instr) : Instr.canCommute (placeless i) (placeless j) = Instr.canCommute i j := by
  have : ∀ i : Instr, (placeless i).operating = i.operating := by
    intro i
    unfold placeless
    split
    · rename_i q s n h
      unfold Instr.operating
      rw [h]; rfl
    · rfl
  unfold Instr.canCommute
  rw [this, this]

theorem linkNew_map {comm : I → I → Bool} (f : I → I) (hf : ∀ a b, comm (f a) (f b) = comm a b) {i1 i2 : Nat → Option I} (hi : ∀ k, i2 k = (i1 k).map f) (new : Nat) :
    ∀ (es : List Nat) (g : Graph), DDag.linkNew comm i2 new g es = DDag.linkNew comm i1 new g es
  | [], _ => rfl
  | e :: es, g => by
    have ih := fun g => linkNew_map f hf hi new es g
    unfold DDag.linkNew
    rw [ih, hi, hi]
    cases i1 e with
    | none => rfl
    | some a =>
      cases i1 new with
      | none => rfl
      | some b =>
        simp only [Option.map_some, hf, ih]

/-- The same graph with other instructions. -/
def Same (f : I → I) (d e : DDag I) : Prop := e.graph = d.graph ∧ (∀ k, e.instr k = (d.instr k).map f) ∧ e.proxDeps = d.proxDeps ∧ e.proxHeads = d.proxHeads ∧ e.next = d.next

theorem pushAll_map {comm : I → I → Bool} (f : I → I) (hf : ∀ a b, comm (f a) (f b) = comm a b) : ∀ (P : List I) {d e d' : DDag I}, Same f d e →
    DDag.pushAll comm d P = .ok d' → ∃ e', DDag.pushAll comm e (P.map f) = .ok e' ∧ Same f d' e'
  | [], d, e, d', hs, h => by cases h; exact ⟨e, rfl, hs⟩
  | i :: P, d, e, d', hs, h => by
    rw [DDag.pushAll] at h
    obtain ⟨d1, h1, h2⟩ := Outcome.bind_eq_ok.1 h
    obtain ⟨s1, s2, s3, s4, s5⟩ := hs
    unfold DDag.push DDag.addIsolated at h1
    dsimp only at h1
    have hmap : ∀ k, upd e.instr e.next (some (f i)) k = (upd d.instr d.next (some i) k).map f := by
      intro k
      rw [s5]
      by_cases hk : k = d.next
      · subst hk; rw [upd_same, upd_same]; rfl
      · rw [upd_other _ _ hk, upd_other _ _ hk, s2]
    cases ho : (d.graph.addNode d.next).topoOrder with
    | none => rw [ho] at h1; cases h1
    | some o =>
      rw [ho] at h1
      dsimp only at h1
      obtain ⟨g, h3, h4⟩ := Outcome.bind_eq_ok.1 h1
      injection h4 with h4
      subst h4
      have hpush : DDag.push comm e (f i) = .ok { e with graph := g, instr := upd e.instr e.next (some (f i)), next := e.next + 1 } := by
        unfold DDag.push DDag.addIsolated
        dsimp only
        rw [s1, s5, ho]
        dsimp only
        rw [← s5, linkNew_map f hf hmap, s5, h3, Outcome.bind_ok]
      rw [List.map_cons, DDag.pushAll, hpush, Outcome.bind_ok]
      refine pushAll_map f hf P ?_ h2
      exact ⟨rfl, hmap, s3, s4, congrArg (· + 1) s5⟩

theorem contents_map {pr : I → Outcome Str} (f : I → I) (hp : ∀ i, (∃ t u, pr i = .ok t ∧ pr (f i) = .ok u ∧ strReplace t '>' "&gt;".toList = strReplace u '>' "&gt;".toList) ∨ pr i = pr (f i))
    {d e : DDag I} (hi : ∀ k, e.instr k = (d.instr k).map f) : ∀ (ls : List Nat) (m m' : Nat → Option Str),
    (∀ k, (m' k).map (fun t => strReplace t '>' "&gt;".toList) = (m k).map (fun t => strReplace t '>' "&gt;".toList)) → 
    (∀ x, d.contents pr ls m = .ok x → ∃ y, e.contents pr ls m' = .ok y ∧ ∀ k, (y k).map (fun t => strReplace t '>' "&gt;".toList) = (x k).map (fun t => strReplace t '>' "&gt;".toList)) ∧
    (d.contents pr ls m = .throws → e.contents pr ls m' = .throws) ∧ (d.contents pr ls m = .ub → e.contents pr ls m' = .ub)
  | [], m, m', h => ⟨fun x e => (by cases e; exact ⟨m', rfl, h⟩), (fun e => by cases e), (fun e => by cases e)⟩
  | l :: ls, m, m', h => by
    have step : ∀ t u, strReplace t '>' "&gt;".toList = strReplace u '>' "&gt;".toList → ∀ k, (upd m' l (some u) k).map (fun t => strReplace t '>' "&gt;".toList) =
        (upd m l (some t) k).map (fun t => strReplace t '>' "&gt;".toList) := by
      intro t u e k
      by_cases hk : k = l
      · subst hk; rw [upd_same, upd_same, Option.map_some, Option.map_some, e]
      · rw [upd_other _ _ hk, upd_other _ _ hk, h]
    unfold DDag.contents
    rw [hi]
    cases d.instr l with
    | none => exact contents_map f hp hi ls m m' h
    | some i =>
      simp only [Option.map_some]
      rcases hp i with ⟨t, u, e1, e2, e3⟩ | e
      · rw [e1, e2, Outcome.bind_ok, Outcome.bind_ok]
        exact contents_map f hp hi ls _ _ (step t u e3)
      · rw [← e]
        cases pr i with
        | throws => exact ⟨(fun x e => by cases e), (fun _ => rfl), (fun e => by cases e)⟩
        | ub => exact ⟨(fun x e => by cases e), (fun e => by cases e), (fun _ => rfl)⟩
        | ok t =>
          rw [Outcome.bind_ok, Outcome.bind_ok]
          exact contents_map f hp hi ls _ _ (step t t rfl)

/-- **C71 (negation)**. The text does not tell next to which patch a patch is initialised: for every program the graph without these places has the same text. -/
theorem c71_place_lost (P : List Instr) : lliGraph (P.map placeless) = lliGraph P := by
  obtain ⟨d, h1, _⟩ := built_pushAll Instr.canCommute P (built_empty Instr.canCommute)
  obtain ⟨e, h2, s1, s2, s3, s4, s5⟩ := pushAll_map placeless placeless_comm P (d := DDag.empty) (e := DDag.empty) ⟨rfl, fun _ => rfl, rfl, rfl, rfl⟩ h1
  unfold lliGraph
  rw [h1, h2, Outcome.bind_ok, Outcome.bind_ok]
  unfold DDag.dot
  rw [s5, s4, s3, s1]
  obtain ⟨c1, c2, c3⟩ := contents_map (pr := fun i : Instr => Lli.printOp i.op) placeless placeless_text s2 (List.range d.next) (fun _ => none) (fun _ => none) (fun _ => rfl)
  cases hc : d.contents (fun i : Instr => Lli.printOp i.op) (List.range d.next) (fun _ => none) with
  | throws => rw [c2 hc]
  | ub => rw [c3 hc]
  | ok x =>
    obtain ⟨y, e1, e2⟩ := c1 x hc
    rw [e1, Outcome.bind_ok, Outcome.bind_ok]
    congr 1
    unfold Graph.dot
    have : nodeLine y = nodeLine x := by
      funext k
      have := e2 k
      unfold nodeLine
      cases hx : x k with
      | none => rw [hx] at this; cases hy : y k with
        | none => rfl
        | some t => rw [hy] at this; cases this
      | some t => rw [hx] at this; cases hy : y k with
        | none => rw [hy] at this; cases this
        | some u => rw [hy] at this; injection this with this; dsimp only at this ⊢; rw [this]
    rw [this]

/-- A patch is made next to a qubit, and the text does not say so. -/
example : placeless { op := .init 5 .zero (some ⟨3, .Z⟩) } ≠ { op := .init 5 .zero (some ⟨3, .Z⟩) } ∧
    Lli.printOp (.init 5 .zero (some ⟨3, .Z⟩)) = .ok "Init 5 |0> 3:Z".toList ∧ shownPart "Init 5 |0> 3:Z".toList = "Init 5 |0>".toList := by decide

/-- Three instructions with one arrow. -/
example : Legible (.sq 0 .H false) ∧ Legible (.init 7 .plus none) ∧ lliGraph [{ op := .init 7 .plus none }, { op := .sq 0 .H false }, { op := .measure 7 .X false }] = .ok
    ("digraph DirectedGraph {\n" ++
     "  0 [shape=\"plaintext\",label=<<table cellborder=\"0\"><tr><td><b>Init 7 |+&gt;</b></td></tr><tr><td><font color=\"darkgray\">node: 0</font></td></tr></table>>];\n" ++
     "  1 [shape=\"plaintext\",label=<<table cellborder=\"0\"><tr><td><b>HGate 0</b></td></tr><tr><td><font color=\"darkgray\">node: 1</font></td></tr></table>>];\n" ++
     "  2 [shape=\"plaintext\",label=<<table cellborder=\"0\"><tr><td><b>MeasureSinglePatch 7 X</b></td></tr><tr><td><font color=\"darkgray\">node: 2</font></td></tr></table>>];\n" ++
     "  0 -> 2;\n}\n").toList := ⟨trivial, rfl, by decide +kernel⟩

/-- Gates with the same control are not ordered. -/
example : gateGraph [cnot 1 0 .controlFirst .dedicated, cnot 2 0 .controlFirst .dedicated, .basic 1 .H] = .ok
    ("digraph DirectedGraph {\n" ++
     "  0 [shape=\"plaintext\",label=<<table cellborder=\"0\"><tr><td><b>cx q[0],q[1];</b></td></tr><tr><td><font color=\"darkgray\">node: 0</font></td></tr></table>>];\n" ++
     "  1 [shape=\"plaintext\",label=<<table cellborder=\"0\"><tr><td><b>cx q[0],q[2];</b></td></tr><tr><td><font color=\"darkgray\">node: 1</font></td></tr></table>>];\n" ++
     "  2 [shape=\"plaintext\",label=<<table cellborder=\"0\"><tr><td><b>h q[1];</b></td></tr><tr><td><font color=\"darkgray\">node: 2</font></td></tr></table>>];\n" ++
     "  0 -> 2;\n}\n").toList := by decide +kernel

end Verif.Dag.Spec
