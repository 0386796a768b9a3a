import Verif.SlicerLemmas

/-! # The options of the program (C65) and what comes out of it (C66) -/

namespace Verif.Slicer.Spec

open Verif Verif.Gates Verif.Stream Verif.Stream.Spec Verif.Layouts Verif.Layouts.Spec Verif.Pipe Verif.Pipe.Spec Verif.Apply Verif.Real.Spec

section
variable {a : Args} {w : World} {j : Job} {P : List Instr} {r : Ran} {t : List (Chan × Str)}

/-! ### C65: options -/

theorem same {a b : Args} {w : World} (h1 : settings a w = settings b w) (h2 : Alike a b := by exact ⟨fun _ _ _ => rfl, fun _ _ _ => rfl, rfl, fun _ _ => rfl, rfl, rfl, rfl, rfl⟩)
    (h3 : (a.output.isSome, a.noSlices, a.graceful, a.timeout.isSome) = (b.output.isSome, b.noSlices, b.graceful, b.timeout.isSome) := by rfl) : program a w = program b w := by
  simp only [Prod.mk.injEq] at h3
  exact program_congr (prepare_congr h1 h2) fun j => perform_congr h3.1 h3.2.1 h3.2.2.1 h3.2.2.2

/-- C65: an option given with the value the help text calls the default, or left out, makes no difference. -/
theorem c65_defaults (a : Args) (w : World) :
    program { a with format := some "lli".toList } w = program { a with format := none } w ∧
    program { a with router := some "graph_search".toList } w = program { a with router := none } w ∧
    program { a with pipeline := some "stream".toList } w = program { a with pipeline := none } w ∧
    program { a with search := some "djikstra".toList } w = program { a with search := none } w ∧
    program { a with printLli := some "before".toList } w = program { a with printLli := some [] } w ∧
    program { a with printDag := some "input".toList } w = program { a with printDag := some [] } w ∧
    program { a with corrections := some "never".toList } w = program { a with corrections := none } w ∧
    program { a with layout := none, generator := some "compact".toList } w = program { a with layout := none, generator := none } w ∧
    program { a with distTime := some 10 } w = program { a with distTime := none } w :=
  ⟨same rfl, same rfl, same rfl, same rfl, same rfl, same rfl, same rfl, same rfl, same rfl⟩

/-- C65: the short names of the input formats. -/
theorem c65_short (a : Args) (w : World) :
    program { a with format := some "l".toList } w = program { a with format := some "lli".toList } w ∧
    program { a with format := some "q".toList } w = program { a with format := some "qasm".toList } w ∧
    program { a with format := some "p".toList } w = program { a with format := some "pandora".toList } w :=
  ⟨same rfl, same rfl, same rfl⟩

/-- C65: `-l` is said to be incompatible with `-L`; given both, the file is not even looked at. -/
theorem c65_layout_ignored (a : Args) (w : World) (v : Str) (x y : Option Str) :
    program { a with generator := some v, layout := x } w = program { a with generator := some v, layout := y } w := same rfl

/-- The value is given and is none of these. -/
def Odd (v : Option Str) (known : List String) : Prop := ∃ s, v = some s ∧ ∀ k ∈ known, k.toList ≠ s

theorem oneOf_odd {α : Type} {table : List (String × α)} {dflt : α} {v : Option Str} {known : List String} (ht : table.map (·.1) = known) (h : Odd v known) :
    oneOf table dflt v = (Act.stop .refused : Act α) := by
  obtain ⟨s, rfl, h⟩ := h
  unfold oneOf
  dsimp only
  rw [List.find?_eq_none.2]
  intro e he
  have := h e.1 (by rw [← ht]; exact List.mem_map.2 ⟨e, he, rfl⟩)
  simpa using this

/-- C65: a layout generator that does not exist is refused. -/
theorem c65_generator (h : Odd a.generator ["compact", "compact_no_clogging", "edpc"]) : program a w = .ok (.stopped .refused) := by
  have hc : chooseLayout a w = (Act.stop .refused : Act _) := by
    have := oneOf_odd (table := generators) (dflt := .compact) rfl h
    unfold chooseLayout
    obtain ⟨s, e, -⟩ := h
    rw [e] at this ⊢
    dsimp only
    rw [this]
    rfl
  unfold program prepare settings
  rw [hc]
  rfl

/-- C65: so are a format of the input or of the report, a graph and a pipeline that do not exist, when no layout has to be read from a file. -/
theorem c65_refused (hl : a.layout = none ∧ a.generator = none)
    (h : Odd a.format ["lli", "l", "qasm", "q", "pandora", "p"] ∨ Odd a.report ["progress", "noprogres", "machine", "stats"] ∨
      Odd a.printDag ["input", "", "processedlli"] ∨ Odd a.pipeline ["stream", "", "dag", "wave", "edpc"]) : program a w = .ok (.stopped .refused) := by
  have hc : chooseLayout a w = (pure (.generated .compact) : Act _) := by unfold chooseLayout; rw [hl.2, hl.1]
  suffices hs : settings a w = (Act.stop .refused : Act _) by unfold program prepare; rw [hs]; rfl
  have stop : ∀ {α β : Type} (f : α → Act β), (Act.stop Stop.refused >>= f) = Act.stop Stop.refused := fun _ => rfl
  have back : ∀ {α β : Type} (table : List (String × α)) (dflt : α) (v : Option Str) (f : α → Act β), (∀ x, f x = Act.stop .refused) → (oneOf table dflt v >>= f) = Act.stop .refused := by
    intro α β table dflt v f hf
    unfold oneOf
    split
    · exact hf _
    · split
      · exact hf _
      · rfl
  have goes : ∀ {α β : Type} (x : α) (f : α → Act β), (pure x >>= f) = f x := fun _ _ => rfl
  unfold settings
  rw [hc, goes]
  by_cases h1 : Odd a.format ["lli", "l", "qasm", "q", "pandora", "p"]
  · rw [oneOf_odd rfl h1]; rfl
  refine back _ _ _ _ fun f => ?_
  by_cases h2 : Odd a.report ["progress", "noprogres", "machine", "stats"]
  · rw [oneOf_odd rfl h2]; rfl
  refine back _ _ _ _ fun r => ?_
  split
  · rfl
  by_cases h3 : Odd a.printDag ["input", "", "processedlli"]
  · rw [oneOf_odd rfl h3]; rfl
  refine back _ _ _ _ fun d => ?_
  have h4 : Odd a.pipeline ["stream", "", "dag", "wave", "edpc"] := by
    rcases h with h | h | h | h
    · exact absurd h h1
    · exact absurd h h2
    · exact absurd h h3
    · exact h
  rw [oneOf_odd rfl h4]
  rfl

theorem odd_goes {α : Type} {table : List (String × α)} {dflt x : α} {v : Option Str} {known : List String} (ht : table.map (·.1) = known)
    (h : oneOf table dflt v = (Outcome.ok (Step.goes x) : Act α)) : ¬ Odd v known := by
  intro ho
  rw [oneOf_odd ht ho] at h
  exact act_stop h

/-- C65: with a way of correcting, a way of printing instructions, a router or a search that does not exist, nothing is sliced. -/
theorem c65_unsliced (h : Odd a.corrections ["always", "never"] ∨ Odd a.printLli ["before", "", "sliced"] ∨ Odd a.router ["graph_search", "graph_search_cached"] ∨
    Odd a.search ["astar", "djikstra", "boost"]) : program a w ≠ .ok (.sliced j P r t) := by
  intro hp
  have h0 := (program_sliced hp).1
  obtain ⟨s, h1, h0⟩ := act_goes.1 h0
  obtain ⟨src, h2, h0⟩ := act_goes.1 h0
  obtain ⟨always, h3, h0⟩ := act_goes.1 h0
  obtain ⟨⟨L, inj, ok⟩, -, h0⟩ := act_goes.1 h0
  dsimp only at h0
  split at h0
  · rw [lift_goes] at h0; cases h0
  obtain ⟨lli, h4, h0⟩ := act_goes.1 h0
  obtain ⟨cached, h5, h0⟩ := act_goes.1 h0
  obtain ⟨provider, h6, h0⟩ := act_goes.1 h0
  rcases h with h | h | h | h
  · unfold correctionsOf at h3
    split at h3
    · obtain ⟨_, -, h3⟩ := act_goes.1 h3
      obtain ⟨_, -, h3⟩ := act_goes.1 h3
      exact act_stop h3
    · exact odd_goes rfl h3 h
  · obtain ⟨l, h7, -⟩ := act_goes.1 h4
    exact odd_goes rfl h7 h
  · exact odd_goes rfl h5 h
  · exact odd_goes rfl h6 h

/-- C65: a report can be asked for only together with `-o` or `--noslices`. -/
theorem c65_report_alone (hl : a.layout = none ∧ a.generator = none) (h : a.report ≠ none) (ho : a.output = none) (hn : a.noSlices = false) :
    program a w = .ok (.stopped .refused) := by
  have hc : chooseLayout a w = (pure (.generated .compact) : Act _) := by unfold chooseLayout; rw [hl.2, hl.1]
  have back : ∀ {α β : Type} (table : List (String × α)) (dflt : α) (v : Option Str) (f : α → Act β), (∀ x, f x = Act.stop .refused) → (oneOf table dflt v >>= f) = Act.stop .refused := by
    intro α β table dflt v f hf
    unfold oneOf
    split
    · exact hf _
    · split
      · exact hf _
      · rfl
  suffices hs : settings a w = (Act.stop .refused : Act _) by unfold program prepare; rw [hs]; rfl
  unfold settings
  rw [hc]
  refine back _ _ _ _ fun f => back _ _ _ _ fun r => ?_
  rw [if_pos]
  cases hr : a.report with
  | none => exact absurd hr h
  | some v => simp [Args.reports, ho, hn]

/-- C65 fails: the help text offers `-f noprogress`, which is refused. -/
theorem c65_noprogress (a : Args) (w : World) (hl : a.layout = none ∧ a.generator = none) (h : a.report = some "noprogress".toList) : program a w = .ok (.stopped .refused) :=
  c65_refused hl (.inr (.inl ⟨_, h, by decide⟩))

/-- C65 fails: instructions, which are the default format of the input, are never sliced, listed or drawn as a graph; reading them ends in an exception or is undefined. -/
theorem c65_lli (h : a.format = none ∨ a.format = some "lli".toList ∨ a.format = some "l".toList) {x : Result} : program a w = .ok x → x = .stopped .refused := by
  intro hp
  unfold program at hp
  have key : ∀ s, settings a w = (Outcome.ok (Step.goes s) : Act _) → s.format = .lli := by
    intro s hs
    obtain ⟨lay, -, hs⟩ := act_goes.1 hs
    obtain ⟨f, h1, hs⟩ := act_goes.1 hs
    obtain ⟨rep, -, hs⟩ := act_goes.1 hs
    have hf : f = .lli := by
      rcases h with h | h | h <;> rw [h] at h1
      · exact (act_pure.1 h1).symm
      · exact (act_pure.1 (show (pure Format.lli : Act _) = _ from h1)).symm
      · exact (act_pure.1 (show (pure Format.lli : Act _) = _ from h1)).symm
    split at hs
    · exact absurd hs act_stop
    · obtain ⟨d, -, hs⟩ := act_goes.1 hs
      obtain ⟨p, -, hs⟩ := act_goes.1 hs
      split at hs
      · rw [act_pure] at hs; rw [← hs]; exact hf
      · split at hs
        · exact absurd hs act_stop
        · rw [act_pure] at hs; rw [← hs]; exact hf
  have hnot : ∀ s, s.format = .lli → openSource w s = .throws ∨ openSource w s = .ub := by
    intro s hs
    unfold openSource
    rw [hs]
    dsimp only
    cases Lli.openFile s.text with
    | throws => exact .inl rfl
    | ub => exact .inr rfl
    | ok f =>
      rw [Outcome.bind_ok, c12_start_undefined]
      exact .inr rfl
  have hset : ∀ e, settings a w = (Outcome.ok (Step.ends e) : Act _) → e = .refused := by
    have pass : ∀ {α β : Type} (v : Act α) (f : α → Act β) (e : Stop), (∀ e, v = (Outcome.ok (Step.ends e) : Act _) → e = .refused) →
        (∀ x e, f x = (Outcome.ok (Step.ends e) : Act _) → e = .refused) → (v >>= f) = (Outcome.ok (Step.ends e) : Act _) → e = .refused := by
      intro α β v f e h1 h2 h
      change Act.bind v f = _ at h
      unfold Act.bind at h
      split at h
      · exact h2 _ _ h
      · cases h; exact h1 _ rfl
      · cases h
      · cases h
    have one : ∀ {α : Type} (table : List (String × α)) (dflt : α) (v : Option Str) (e : Stop), oneOf table dflt v = (Outcome.ok (Step.ends e) : Act _) → e = .refused := by
      intro α table dflt v e h
      unfold oneOf at h
      split at h
      · cases h
      · split at h <;> cases h
        rfl
    intro e h
    unfold settings at h
    refine pass _ _ e ?_ (fun _ e => pass _ _ e (one _ _ _) (fun _ e => pass _ _ e (one _ _ _) (fun _ e h => ?_))) h
    · intro e h
      unfold chooseLayout at h
      split at h
      · exact pass _ _ e (one _ _ _) (fun _ _ h => by cases h) h
      · split at h
        · cases h
        · split at h
          · cases h
          · refine pass _ _ e (fun e h => ?_) (fun _ _ h => by cases h) h
            unfold Act.lift at h
            split at h <;> cases h
    · split at h
      · cases h; rfl
      · refine pass _ _ e (one _ _ _) (fun _ e => pass _ _ e (one _ _ _) (fun _ e h => ?_)) h
        split at h
        · cases h
        · split at h <;> cases h
          rfl
  unfold prepare at hp
  cases hs : settings a w with
  | throws => rw [hs] at hp; cases hp
  | ub => rw [hs] at hp; cases hp
  | ok st =>
    rw [hs] at hp
    cases st with
    | ends e =>
      have := hset e hs
      subst this
      cases hp
      rfl
    | goes s =>
      rw [act_ok] at hp
      rcases hnot s (key s hs) with h | h <;> rw [h] at hp <;> cases hp

end

end Verif.Slicer.Spec
