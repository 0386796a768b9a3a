import Verif.GraphProps

/-!
# C18, C19: executions of the dependency graph
-/

namespace Verif.Dag.Spec
open Graph

variable {I : Type}

theorem runInv_acts {comm : I → I → Bool} {P : List I} {as : List (DAct I)} {s s' : DRun I} (h : RunInv comm P s)
    (ha : s.acts as = .ok s') : RunInv comm P s' := by
  induction as generalizing s with
  | nil => cases ha; exact h
  | cons a as ih =>
    simp only [DRun.acts, Outcome.bind_eq_ok] at ha
    obtain ⟨s1, h1, h2⟩ := ha
    exact ih (runInv_act h h1) h2

theorem runInv_of {comm : I → I → Bool} {P : List I} {d : DDag I} (hd : DDag.pushAll comm DDag.empty P = .ok d)
    {as : List (DAct I)} {s : DRun I} (hs : (DRun.start d).acts as = .ok s) : RunInv comm P s := by
  obtain ⟨d', h1, h2⟩ := built_pushAll comm P (built_empty comm)
  rw [h1] at hd; cases hd
  exact runInv_acts (runInv_start (by simpa using h2)) hs

/-- **C18 (construction)**. Building the dependency graph of any program succeeds; its nodes are
the program positions, node `k` holds instruction `k`, and there is an arrow from `i` to `j` exactly
when `i` comes before `j` in the program and the two do not commute. -/
theorem c18_build (comm : I → I → Bool) (P : List I) :
    ∃ d, DDag.pushAll comm DDag.empty P = .ok d ∧ (∀ k, k ∈ d.graph.nodes ↔ k < P.length) ∧ (∀ k, d.instr k = P[k]?) ∧
      ∀ i j, ListedSucc d.graph i j ↔ i < j ∧ ∃ a b, P[i]? = some a ∧ P[j]? = some b ∧ comm a b = false := by
  obtain ⟨d, h1, h2⟩ := built_pushAll comm P (built_empty comm)
  simp at h2
  exact ⟨d, h1, h2.nodes, h2.instr, fun i j => by rw [listedSucc_iff]; exact h2.edge i j⟩

/-- **C18**. For every program and every execution that takes out ready nodes and expands nodes in
any order: if instructions `i < j` of the program do not commute then no node stemming from `j` has
been taken out before a node stemming from `i`, and once a node stemming from `j` is out, none
stemming from `i` is left. -/
theorem c18_order (comm : I → I → Bool) (P : List I) (d : DDag I) (hd : DDag.pushAll comm DDag.empty P = .ok d)
    (as : List (DAct I)) (s : DRun I) (hs : (DRun.start d).acts as = .ok s)
    (i j : Nat) (a b : I) (hi : P[i]? = some a) (hj : P[j]? = some b) (hij : i < j) (hc : comm a b = false) :
    (∀ l1 x l2, s.popped = l1 ++ x :: l2 → s.origin x = j → ∀ y ∈ l2, s.origin y ≠ i) ∧
    (∀ x ∈ s.popped, s.origin x = j → ∀ y ∈ s.dag.graph.nodes, s.origin y ≠ i) := by
  have h := runInv_of hd hs
  constructor
  · intro l1 x l2 e hx y hy hyi
    exact h.hist l1 x l2 e y hy ⟨by omega, a, b, by rw [hyi, hi], by rw [hx, hj], hc⟩
  · intro x hx hxo y hy hyi
    exact h.live x hx y hy ⟨by omega, a, b, by rw [hyi, hi], by rw [hxo, hj], hc⟩

/-- Number of replacement nodes added by the expansions of an execution. -/
def addedBy : List (DAct I) → Nat
  | [] => 0
  | .expand _ r _ :: as => r.length + addedBy as
  | _ :: as => addedBy as

/-- Number of expansions of an execution. -/
def expansions : List (DAct I) → Nat
  | [] => 0
  | .expand _ _ _ :: as => 1 + expansions as
  | _ :: as => expansions as

theorem length_erase_node {g : Graph} {t : Nat} (ht : t ∈ g.nodes) : (g.nodes.erase t).length + 1 = g.nodes.length := by
  rw [List.length_erase_of_mem ht]
  have := List.length_pos_of_mem ht
  omega

theorem act_count {comm : I → I → Bool} {P : List I} {s s' : DRun I} (h : RunInv comm P s) {a : DAct I}
    (ha : s.act a = .ok s') :
    s'.dag.graph.nodes.length + s'.popped.length + expansions [a] = s.dag.graph.nodes.length + s.popped.length + addedBy [a] := by
  cases a with
  | pop l =>
    simp only [DRun.act] at ha
    split at ha
    · rename_i hl
      obtain ⟨d', h1, h2, h3, _⟩ := popHead_spec h.wf h.instr hl
      rw [h1] at ha; simp at ha; subst ha
      have := length_erase_node ((mem_heads h.wf).1 hl).1
      simp [h3, expansions, addedBy]; omega
    · simp at ha
  | makeProximate l =>
    simp only [DRun.act, DDag.makeProximate, Outcome.ok.injEq] at ha
    subst ha; simp [expansions, addedBy]
  | expand t r prox =>
    simp only [DRun.act, Outcome.bind_eq_ok] at ha
    obtain ⟨⟨d', f⟩, h1, h2⟩ := ha
    simp at h2; subst h2
    obtain ⟨hr, hg, _⟩ := dexpand_ok h1
    obtain ⟨ht, r0, rs, hr', hnew⟩ := expand_ok hg
    have hg' := hg
    rw [hr'] at hg'
    obtain ⟨hw', hm, _⟩ := expand_eq_spec h.wf hg'
    have hp : d'.graph.nodes.Perm (s.dag.graph.nodes.erase t ++ s.dag.freshLabels r) := by
      refine (List.perm_ext_iff_of_nodup hw'.nodup ?_).2 ?_
      · rw [List.nodup_append]
        refine ⟨h.wf.nodup.erase t, nodup_freshLabels, ?_⟩
        intro x hx y hy e
        subst e
        exact hnew x hy (List.mem_of_mem_erase hx)
      · intro x
        rw [hm, List.mem_append, h.wf.nodup.mem_erase_iff, hr', And.comm]
    have hl := hp.length_eq
    have := length_erase_node ht
    simp [DDag.freshLabels] at hl
    simp [expansions, addedBy, hl]; omega

theorem acts_count {comm : I → I → Bool} {P : List I} (as : List (DAct I)) {s s' : DRun I} (h : RunInv comm P s)
    (ha : s.acts as = .ok s') :
    s'.dag.graph.nodes.length + s'.popped.length + expansions as = s.dag.graph.nodes.length + s.popped.length + addedBy as := by
  induction as generalizing s with
  | nil => cases ha; simp [expansions, addedBy]
  | cons a as ih =>
    simp only [DRun.acts, Outcome.bind_eq_ok] at ha
    obtain ⟨s1, h1, h2⟩ := ha
    have h3 := ih (runInv_act h h1) h2
    have h4 := act_count h h1
    cases a <;> simp [expansions, addedBy] at h4 ⊢ <;> omega

/-- **C19 (progress)**. In every state reached by taking out ready nodes and expanding nodes, if the
graph is not empty some node is ready, and taking out any ready node succeeds. -/
theorem c19_progress (comm : I → I → Bool) (P : List I) (d : DDag I) (hd : DDag.pushAll comm DDag.empty P = .ok d)
    (as : List (DAct I)) (s : DRun I) (hs : (DRun.start d).acts as = .ok s) :
    (s.dag.graph.nodes ≠ [] → s.dag.applicable ≠ []) ∧
    ∀ l ∈ s.dag.applicable, ∃ s', s.act (.pop l) = .ok s' ∧ s'.popped = s.popped ++ [l] ∧
      s'.dag.graph.nodes = s.dag.graph.nodes.erase l := by
  have h := runInv_of hd hs
  constructor
  · intro hne hap
    obtain ⟨x, hx⟩ := List.exists_mem_of_ne_nil _ hne
    obtain ⟨m, hm, hmin⟩ := exists_min h.acyclic _ hx
    have : m ∈ s.dag.applicable := (mem_heads h.wf).2 ⟨hm, fun a e => hmin a e.1 e⟩
    rw [hap] at this; simp at this
  · intro l hl
    obtain ⟨d', h1, _, h3, _⟩ := popHead_spec h.wf h.instr hl
    exact ⟨{ s with dag := d', popped := s.popped ++ [l] }, by simp only [DRun.act, hl, if_true, h1, Outcome.bind_ok], rfl, h3⟩

/-- **C19 (counting)**. Along any execution: nodes left + nodes taken out + expansions =
program length + nodes added by expansions; no node is taken out twice. -/
theorem c19_count (comm : I → I → Bool) (P : List I) (d : DDag I) (hd : DDag.pushAll comm DDag.empty P = .ok d)
    (as : List (DAct I)) (s : DRun I) (hs : (DRun.start d).acts as = .ok s) :
    s.dag.graph.nodes.length + s.popped.length + expansions as = P.length + addedBy as ∧ s.popped.Nodup ∧
    ∀ x ∈ s.popped, x ∉ s.dag.graph.nodes := by
  have h := runInv_of hd hs
  refine ⟨?_, h.pnodup, h.disjoint⟩
  obtain ⟨d', h1, h2⟩ := built_pushAll comm P (built_empty comm)
  rw [h1] at hd; cases hd
  simp at h2
  have hc := acts_count as (runInv_start h2) hs
  have hlen : d.graph.nodes.length = P.length := by
    have : d.graph.nodes.Perm (List.range P.length) :=
      (List.perm_ext_iff_of_nodup h2.wf.nodup List.nodup_range).2 (by intro x; rw [h2.nodes, List.mem_range])
    simpa using this.length_eq
  simp [DRun.start, hlen] at hc
  exact hc

/-- **C19 (exhaustion)**. Repeatedly taking out any ready node, chosen by any strategy `pick`, empties
the graph after exactly as many steps as the program has instructions, and takes each instruction out once. -/
theorem c19_exhaust (comm : I → I → Bool) (P : List I) (d : DDag I) (hd : DDag.pushAll comm DDag.empty P = .ok d)
    (pick : DRun I → Nat) (hpick : ∀ s : DRun I, s.dag.applicable ≠ [] → pick s ∈ s.dag.applicable) :
    ∃ (ls : List Nat) (s : DRun I), ls.length = P.length ∧ (DRun.start d).acts (ls.map DAct.pop) = .ok s ∧ s.dag.graph.nodes = [] ∧
      s.popped.Perm (List.range P.length) ∧
      ∀ n, ∃ s', (DRun.start d).acts ((ls.take n).map DAct.pop) = .ok s' ∧ ∀ l, ls[n]? = some l → l = pick s' := by
  have hpops : ∀ (ls : List Nat), addedBy (ls.map (DAct.pop (I := I))) = 0 ∧ expansions (ls.map (DAct.pop (I := I))) = 0 := by
    intro ls; induction ls with
    | nil => simp [addedBy, expansions]
    | cons a ls ih => simpa [addedBy, expansions] using ih
  have happ : ∀ (a b : List (DAct I)) (s s1 : DRun I), s.acts a = .ok s1 → s.acts (a ++ b) = s1.acts b := by
    intro a
    induction a with
    | nil => intro b s s1 h; cases h; rfl
    | cons x a ih =>
      intro b s s1 h
      simp only [DRun.acts, List.cons_append, Outcome.bind_eq_ok] at h ⊢
      obtain ⟨s2, h2, h3⟩ := h
      rw [h2]; simp only [Outcome.bind_ok]; exact ih b s2 s1 h3
  have key : ∀ n, n ≤ P.length → ∃ (ls : List Nat) (s : DRun I), ls.length = n ∧ (DRun.start d).acts (ls.map DAct.pop) = .ok s ∧
      ∀ m, ∃ s', (DRun.start d).acts ((ls.take m).map DAct.pop) = .ok s' ∧ ∀ l, ls[m]? = some l → l = pick s' := by
    intro n
    induction n with
    | zero => intro _; exact ⟨[], DRun.start d, rfl, rfl, fun m => ⟨DRun.start d, by simp [DRun.acts], by simp⟩⟩
    | succ n ih =>
      intro hn
      obtain ⟨ls, s, h1, h2, h3⟩ := ih (by omega)
      have hcnt := (c19_count comm P d hd _ s h2).1
      rw [(hpops ls).1, (hpops ls).2] at hcnt
      obtain ⟨hp1, hp2⟩ := c19_progress comm P d hd _ s h2
      have hpl : s.popped.length = n := by
        have : ∀ (ls : List Nat) (s0 s1 : DRun I), s0.acts (ls.map DAct.pop) = .ok s1 → s1.popped.length = s0.popped.length + ls.length := by
          intro ls; induction ls with
          | nil => intro s0 s1 h; cases h; rfl
          | cons a ls ih =>
            intro s0 s1 h
            simp only [List.map_cons, DRun.acts, Outcome.bind_eq_ok] at h
            obtain ⟨s2, h4, h5⟩ := h
            rw [ih s2 s1 h5]
            simp only [DRun.act] at h4
            split at h4
            · simp only [Outcome.bind_eq_ok] at h4
              obtain ⟨d3, _, h6⟩ := h4
              cases h6; simp; omega
            · simp at h4
        have h4 := this ls _ _ h2
        rw [h4, h1]; simp [DRun.start]
      have hne : s.dag.graph.nodes ≠ [] := by
        intro hc; rw [hc] at hcnt; simp at hcnt; omega
      have hpk := hpick s (hp1 hne)
      obtain ⟨s', h4, _⟩ := hp2 _ hpk
      refine ⟨ls ++ [pick s], s', by simp [h1], ?_, ?_⟩
      · rw [List.map_append, happ _ _ _ _ h2]; simp [DRun.acts, h4]
      · intro m
        rcases Nat.lt_trichotomy m n with hm | hm | hm
        · obtain ⟨s'', h5, h6⟩ := h3 m
          refine ⟨s'', ?_, ?_⟩
          · rw [List.take_append_of_le_length (by omega)]; exact h5
          · intro l hl; rw [List.getElem?_append_left (by omega)] at hl; exact h6 l hl
        · subst hm
          refine ⟨s, ?_, ?_⟩
          · rw [List.take_append_of_le_length (by omega), ← h1, List.take_length]; exact h2
          · intro l hl; rw [← h1] at hl; simp at hl; exact hl.symm
        · refine ⟨s', ?_, ?_⟩
          · rw [List.take_of_length_le (by simp; omega), List.map_append, happ _ _ _ _ h2]; simp [DRun.acts, h4]
          · intro l hl; rw [List.getElem?_eq_none (by simp; omega)] at hl; simp at hl
  obtain ⟨ls, s, h1, h2, h3⟩ := key P.length (Nat.le_refl _)
  have hcnt := c19_count comm P d hd _ s h2
  rw [(hpops ls).1, (hpops ls).2] at hcnt
  -- every pop is recorded and no label is new
  have hinv : ∀ (ls : List Nat) (s0 s1 : DRun I), RunInv comm P s0 → s0.acts (ls.map DAct.pop) = .ok s1 →
      (∀ x, (x ∈ s1.dag.graph.nodes ∨ x ∈ s1.popped) ↔ (x ∈ s0.dag.graph.nodes ∨ x ∈ s0.popped)) ∧
      s1.popped.length = s0.popped.length + ls.length := by
    intro ls; induction ls with
    | nil => intro s0 s1 _ h; cases h; exact ⟨fun _ => Iff.rfl, rfl⟩
    | cons a ls ih =>
      intro s0 s1 hI h
      simp only [List.map_cons, DRun.acts, Outcome.bind_eq_ok] at h
      obtain ⟨s2, h4, h5⟩ := h
      obtain ⟨h6, h7⟩ := ih s2 s1 (runInv_act hI h4) h5
      simp only [DRun.act] at h4
      split at h4
      · rename_i hl
        obtain ⟨d', e1, e2, e3, _⟩ := popHead_spec hI.wf hI.instr hl
        rw [e1] at h4; simp at h4; subst h4
        refine ⟨fun x => ?_, by simp at h7; simp [h7]; omega⟩
        rw [h6]
        simp only [e3, hI.wf.nodup.mem_erase_iff, List.mem_append, List.mem_singleton]
        by_cases hx : x = a
        · subst hx; simp [((mem_heads hI.wf).1 hl).1]
        · simp [hx]
      · simp at h4
  obtain ⟨d', hb1, hb2⟩ := built_pushAll comm P (built_empty comm)
  rw [hb1] at hd; cases hd
  simp at hb2
  obtain ⟨hm, hl⟩ := hinv ls _ _ (runInv_start hb2) h2
  simp [DRun.start] at hl
  have hnil : s.dag.graph.nodes = [] := by
    rw [← List.length_eq_zero_iff]; omega
  refine ⟨ls, s, h1, h2, hnil, (List.perm_ext_iff_of_nodup hcnt.2.1 List.nodup_range).2 ?_, h3⟩
  intro x
  have := hm x
  rw [hnil] at this
  simp [DRun.start, hb2.nodes] at this
  simpa using this

/-- Commutation of LS instructions given as lists of operated patches (ls_instructions.hpp:298-305). -/
def exComm (a b : List Nat) : Bool := a.all (fun x => ! b.contains x)

/-- A program with conflicts, popped out of program order where allowed, with one expansion. -/
example : ∃ d s, DDag.pushAll exComm DDag.empty [[0], [1], [0, 1], [2], [0]] = .ok d ∧
    (DRun.start d).acts [.pop 3, .pop 1, .expand 0 [[0], [0]] true, .pop 5, .pop 6, .pop 2] = .ok s ∧
    s.popped.map s.origin = [3, 1, 0, 0, 2] := ⟨_, _, rfl, rfl, by decide⟩

/-! ## Proximate instructions -/

/-- **C46 (negation)**. Taking the first instruction out of a chain that was expanded as proximate does
not make the next one proximate: `pop_head` looks at the predecessors of the removed node. -/
theorem c46_next_not_promoted :
    ∃ d d1 d2 f, DDag.pushAll exComm DDag.empty [[0]] = .ok d ∧ d.expand 0 [[0], [0]] true = .ok (d1, f) ∧
      d1.proxDeps = [(1, 2)] ∧ (d1.makeProximate f).popHead f = .ok d2 ∧ 2 ∈ d2.graph.nodes ∧ d2.proxHeads = [] :=
  ⟨_, _, _, _, rfl, rfl, rfl, rfl, by decide, rfl⟩

/-- **C46 (what holds)**. In every reachable state, taking out a ready instruction never adds a
proximate instruction; it only removes the one taken out. -/
theorem c46_pop_never_promotes_partial (comm : I → I → Bool) (P : List I) (d : DDag I)
    (hd : DDag.pushAll comm DDag.empty P = .ok d) (as : List (DAct I)) (s s' : DRun I)
    (hs : (DRun.start d).acts as = .ok s) (l : Nat) (ha : s.act (.pop l) = .ok s') :
    s'.dag.proxHeads = s.dag.proxHeads.erase l ∧ s'.dag.proxDeps = s.dag.proxDeps := by
  have h := runInv_of hd hs
  simp only [DRun.act] at ha
  split at ha
  · rename_i hl
    have hhead := (mem_heads h.wf).1 hl
    have hp : s.dag.graph.pred l = [] := by
      cases hp : s.dag.graph.pred l with
      | nil => rfl
      | cons p ps => exact absurd (((WF_iff.1 h.wf).2.2.2.2 p l).2 ⟨hhead.1, by simp [hp]⟩) (hhead.2 p)
    obtain ⟨g', h1, _⟩ := removeNode_spec h.wf hhead.1
    obtain ⟨i, hi⟩ := Option.isSome_iff_exists.1 (h.instr l hhead.1)
    simp only [DDag.popHead, hi, Graph.predecessors, hhead.1, if_true, hp, DDag.popProx, Outcome.bind_ok, h1,
      Outcome.ok.injEq] at ha
    subst ha; exact ⟨rfl, rfl⟩
  · simp at ha

end Verif.Dag.Spec
