import Verif.SlicerWhole
import Verif.CompiledProps
import Verif.DotGraph

/-! # What the slicer program prints instead of slicing (C72) -/

namespace Verif.Slicer

open Verif Verif.Gates Verif.Stream Verif.Layouts Verif.Pipe Verif.Wave Verif.Apply Verif.Real.Spec Verif.Stream.Spec Verif.Slicer.Spec

/-! ## Stopping -/

theorem act_ends {α β : Type} {x : Act α} {f : α → Act β} {e : Stop} :
    (x >>= f) = (Outcome.ok (Step.ends e) : Act β) ↔ x = (Outcome.ok (Step.ends e) : Act α) ∨ ∃ a, x = (Outcome.ok (Step.goes a) : Act α) ∧ f a = (Outcome.ok (Step.ends e) : Act β) := by
  show Act.bind x f = _ ↔ _
  unfold Act.bind
  constructor
  · intro h
    split at h
    · exact .inr ⟨_, rfl, h⟩
    · cases h; exact .inl rfl
    · cases h
    · cases h
  · rintro (rfl | ⟨a, rfl, h⟩)
    · rfl
    · exact h

theorem lift_ends {α : Type} {x : Outcome α} {e : Stop} : ¬ Act.lift x = (Outcome.ok (Step.ends e) : Act α) := by
  intro h
  cases x <;> cases h

theorem pure_ends {α : Type} {a : α} {e : Stop} : ¬ (pure a : Act α) = (Outcome.ok (Step.ends e) : Act α) := by
  intro h; cases h

theorem stop_ends {α : Type} {s e : Stop} : (Act.stop s : Act α) = (Outcome.ok (Step.ends e) : Act α) ↔ s = e := by
  show (Outcome.ok (Step.ends s) : Outcome (Step α)) = _ ↔ _
  simp

theorem oneOf_ends {α : Type} {table : List (String × α)} {dflt : α} {v : Option Str} {e : Stop} (h : oneOf table dflt v = (Outcome.ok (Step.ends e) : Act α)) : e = .refused := by
  unfold oneOf at h
  split at h
  · exact absurd h pure_ends
  · split at h
    · exact absurd h pure_ends
    · exact (stop_ends.1 h).symm

theorem settings_ends {a : Args} {w : World} {e : Stop} (h : settings a w = (Outcome.ok (Step.ends e) : Act _)) : e = .refused := by
  unfold settings at h
  rcases act_ends.1 h with h | ⟨lay, -, h⟩
  · unfold chooseLayout at h
    split at h
    · rcases act_ends.1 h with h | ⟨_, -, h⟩
      · exact oneOf_ends h
      · exact absurd h pure_ends
    · split at h
      · exact absurd h pure_ends
      · split at h
        · exact absurd h lift_ends
        · rcases act_ends.1 h with h | ⟨_, -, h⟩
          · exact absurd h lift_ends
          · exact absurd h pure_ends
  rcases act_ends.1 h with h | ⟨f, -, h⟩
  · exact oneOf_ends h
  rcases act_ends.1 h with h | ⟨rep, -, h⟩
  · exact oneOf_ends h
  split at h
  · exact (stop_ends.1 h).symm
  rcases act_ends.1 h with h | ⟨d, -, h⟩
  · exact oneOf_ends h
  rcases act_ends.1 h with h | ⟨p, -, h⟩
  · exact oneOf_ends h
  split at h
  · exact absurd h pure_ends
  · split at h
    · exact (stop_ends.1 h).symm
    · exact absurd h pure_ends

theorem stages_ends {a : Args} {p : Pipeline} {n : Nat} {l : LayoutChoice} {e : Stop} (h : chooseStages a p n l = (Outcome.ok (Step.ends e) : Act _)) : e = .refused := by
  unfold chooseStages at h
  split at h
  · rcases act_ends.1 h with h | ⟨_, -, h⟩
    · exact absurd h lift_ends
    · exact absurd h pure_ends
  · split at h
    · exact (stop_ends.1 h).symm
    · rcases act_ends.1 h with h | ⟨_, -, h⟩
      · exact absurd h lift_ends
      rcases act_ends.1 h with h | ⟨_, -, h⟩
      · exact absurd h lift_ends
      · exact absurd h pure_ends
  · split at h
    · exact (stop_ends.1 h).symm
    · exact absurd h pure_ends

/-- The settings depend on the wish for a graph in one place. -/
theorem settings_dag {a : Args} {w : World} {s : Settings} (h : settings a w = (Outcome.ok (Step.goes s) : Act _)) :
    oneOf dagPrints .none a.printDag = (Outcome.ok (Step.goes s.dag) : Act _) ∧
      ∀ (v : Option Str) (d : DagPrint), oneOf dagPrints .none v = (Outcome.ok (Step.goes d) : Act _) →
        settings { a with printDag := v } w = (Outcome.ok (Step.goes { s with dag := d }) : Act _) := by
  have h0 := h
  unfold settings at h
  obtain ⟨lay, h1, h⟩ := act_goes.1 h
  obtain ⟨f, h2, h⟩ := act_goes.1 h
  obtain ⟨rep, h3, h⟩ := act_goes.1 h
  split at h
  · exact absurd h act_stop
  rename_i hrep
  obtain ⟨d0, h4, h⟩ := act_goes.1 h
  obtain ⟨p, h5, h⟩ := act_goes.1 h
  have hs : s.dag = d0 := by
    split at h
    · rw [act_pure] at h; rw [← h]
    · split at h
      · exact absurd h act_stop
      · rw [act_pure] at h; rw [← h]
  refine ⟨by rw [hs]; exact h4, fun v d hd => ?_⟩
  refine act_goes.2 ⟨lay, h1, act_goes.2 ⟨f, h2, act_goes.2 ⟨rep, h3, ?_⟩⟩⟩
  refine (if_neg hrep).trans ?_
  refine act_goes.2 ⟨d, hd, act_goes.2 ⟨p, h5, ?_⟩⟩
  show (match a.input with | none => _ | some f_1 => _) = _
  split at h
  · rename_i e1
    rw [act_pure] at h
    rw [← h, e1]
    rfl
  · rename_i e1
    split at h
    · exact absurd h act_stop
    · rename_i e2
      rw [act_pure] at h
      rw [← h, e1]
      dsimp only
      rw [e2]
      rfl

theorem settings_input {a : Args} {w : World} {s : Settings} (h : settings a w = (Outcome.ok (Step.goes s) : Act _)) :
    oneOf formats .lli a.format = (Outcome.ok (Step.goes s.format) : Act _) ∧ inputText a w = some s.text := by
  unfold settings at h
  obtain ⟨lay, -, h⟩ := act_goes.1 h
  obtain ⟨f, h2, h⟩ := act_goes.1 h
  obtain ⟨rep, -, h⟩ := act_goes.1 h
  split at h
  · exact absurd h act_stop
  obtain ⟨d0, -, h⟩ := act_goes.1 h
  obtain ⟨p, -, h⟩ := act_goes.1 h
  unfold inputText
  split at h
  · rename_i e
    rw [act_pure] at h; rw [← h, e]; exact ⟨h2, rfl⟩
  · rename_i e
    split at h
    · exact absurd h act_stop
    · rename_i e2
      rw [act_pure] at h; rw [← h, e]; exact ⟨h2, e2⟩

/-- The same options, but nothing is to be printed. -/
def Args.quiet (a : Args) : Args := { a with printLli := none, printDag := none, router := none, search := none }

/-- What is printed instead of slicing is made from what is sliced when nothing is to be printed. -/
theorem printed {a : Args} {w : World} {e : Stop} (h : program a w = .ok (.stopped e)) (h1 : e ≠ .refused) :
    (∃ s src gs b t, settings a w = (Outcome.ok (Step.goes s) : Act _) ∧ s.dag = .input ∧ openSource w s = .ok src ∧ src.gates w w.dflt = .ok (gs, b) ∧ Dag.gateGraph gs = .ok t ∧
        e = (if b then .graph t else .unfollowed)) ∨
      ∃ j P b, prepare a.quiet w = (Outcome.ok (Step.goes j) : Act _) ∧ j.program = .ok (P, b) ∧
        ((∃ t, oneOf lliPrints .none a.printLli = (Outcome.ok (Step.goes .before) : Act _) ∧ Lli.printAll P = .ok t ∧ e = (if b then .listing t else .unfollowed)) ∨
          ∃ t, oneOf dagPrints .none a.printDag = (Outcome.ok (Step.goes .processed) : Act _) ∧ Dag.lliGraph P = .ok t ∧ e = (if b then .graph t else .unfollowed)) := by
  have hp : prepare a w = (Outcome.ok (Step.ends e) : Act _) := by
    unfold program at h
    split at h
    · rename_i s hs
      cases h
      exact hs
    · unfold perform at h
      split at h
      · split at h
        · cases h
        · split at h
          · rcases rescue_result h with e | ⟨_, _, e⟩ <;> cases e
          · split at h
            · split at h
              · rcases rescue_result h with e | ⟨_, _, e⟩ <;> cases e
              · cases h
            · split at h
              · cases h
              · split at h
                · cases h
                obtain ⟨t, -, h⟩ := Outcome.bind_eq_ok.1 h
                cases h
          · cases h
          · cases h
      · split at h <;> cases h
      · cases h
    · cases h
    · cases h
  unfold prepare at hp
  rcases act_ends.1 hp with hp | ⟨s, hs, hp⟩
  · exact absurd (settings_ends hp) h1
  rcases act_ends.1 hp with hp | ⟨src, hsrc, hp⟩
  · exact absurd hp lift_ends
  rw [lift_goes] at hsrc
  rcases act_ends.1 hp with hp | ⟨always, hal, hp⟩
  · left
    unfold correctionsOf at hp
    split at hp
    · rename_i hd
      rcases act_ends.1 hp with hp | ⟨⟨gs, b⟩, hg, hp⟩
      · exact absurd hp lift_ends
      rcases act_ends.1 hp with hp | ⟨t, ht, hp⟩
      · exact absurd hp lift_ends
      rw [lift_goes] at hg ht
      exact ⟨s, src, gs, b, t, hs, hd, hsrc, hg, ht, (stop_ends.1 hp).symm⟩
    · exact absurd (oneOf_ends hp) h1
  right
  obtain ⟨hd1, hd2⟩ := settings_dag hs
  rcases act_ends.1 hp with hp | ⟨⟨L, inj, ok⟩, hst, hp⟩
  · exact absurd (stages_ends hp) h1
  dsimp only at hp
  split at hp
  · exact absurd hp lift_ends
  rename_i hok
  have hl : lliMode a s (instructions w src (if L.ancilla.isEmpty then .nextToTarget else w.dflt) ⟨src.reg, always, a.loc⟩ inj) = (Outcome.ok (Step.ends e) : Act _) := by
    rcases act_ends.1 hp with hp | ⟨lli, -, hp⟩
    · exact hp
    rcases act_ends.1 hp with hp | ⟨_, -, hp⟩
    · exact absurd (oneOf_ends hp) h1
    rcases act_ends.1 hp with hp | ⟨_, -, hp⟩
    · exact absurd (oneOf_ends hp) h1
    · exact absurd hp pure_ends
  have hq : ∀ P b, instructions w src (if L.ancilla.isEmpty then .nextToTarget else w.dflt) ⟨src.reg, always, a.loc⟩ inj = .ok (P, b) →
      ∃ j, prepare a.quiet w = (Outcome.ok (Step.goes j) : Act _) ∧ j.program = .ok (P, b) := by
    intro P b hP
    refine ⟨⟨L, src.size, instructions w src (if L.ancilla.isEmpty then .nextToTarget else w.dflt) ⟨src.reg, always, a.loc⟩ inj, s.pipeline, a.loc, !a.noTwists, a.opIds || s.format == .pandora,
      false, .djikstra, s.report, .none⟩, act_goes.2 ⟨_, hd2 none .none rfl, act_goes.2 ⟨src, lift_goes.2 hsrc, act_goes.2 ⟨always, ?_, act_goes.2 ⟨(L, inj, ok), hst, ?_⟩⟩⟩⟩, ?_⟩
    rotate_left
    · dsimp only
      refine (if_neg hok).trans (act_goes.2 ⟨.none, rfl, act_goes.2 ⟨false, rfl, act_goes.2 ⟨.djikstra, rfl, rfl⟩⟩⟩)
    · exact hP
    · unfold correctionsOf at hal ⊢
      split at hal
      · obtain ⟨_, -, hal⟩ := act_goes.1 hal
        obtain ⟨_, -, hal⟩ := act_goes.1 hal
        exact absurd hal act_stop
      · rw [if_neg (by simp)]
        exact hal
  unfold lliMode at hl
  rcases act_ends.1 hl with hl | ⟨l, hl1, hl⟩
  · exact absurd (oneOf_ends hl) h1
  split at hl
  · rename_i hb
    subst hb
    rcases act_ends.1 hl with hl | ⟨⟨P, b⟩, hP, hl⟩
    · exact absurd hl lift_ends
    rcases act_ends.1 hl with hl | ⟨t, ht, hl⟩
    · exact absurd hl lift_ends
    rw [lift_goes] at hP ht
    obtain ⟨j, h2, h3⟩ := hq P b hP
    exact ⟨j, P, b, h2, h3, .inl ⟨t, hl1, ht, (stop_ends.1 hl).symm⟩⟩
  · split at hl
    · rename_i hb
      rcases act_ends.1 hl with hl | ⟨⟨P, b⟩, hP, hl⟩
      · exact absurd hl lift_ends
      rcases act_ends.1 hl with hl | ⟨t, ht, hl⟩
      · exact absurd hl lift_ends
      rw [lift_goes] at hP ht
      obtain ⟨j, h2, h3⟩ := hq P b hP
      exact ⟨j, P, b, h2, h3, .inr ⟨t, by rw [hd1, hb], ht, (stop_ends.1 hl).symm⟩⟩
    · exact absurd hl pure_ends

/-- The other way round. -/
theorem asked_prints {a : Args} {w : World} {j : Job} {P : List Instr} (h : prepare a w = (Outcome.ok (Step.goes j) : Act _)) (hP : j.program = .ok (P, true)) :
    (∀ t, Lli.printAll P = .ok t → program { a with printLli := some "before".toList } w = .ok (.stopped (.listing t))) ∧
      ∀ t, Dag.lliGraph P = .ok t → program { a with printDag := some "processedlli".toList } w = .ok (.stopped (.graph t)) := by
  unfold prepare at h
  obtain ⟨s, hs, h⟩ := act_goes.1 h
  obtain ⟨src, hsrc, h⟩ := act_goes.1 h
  obtain ⟨always, hal, h⟩ := act_goes.1 h
  obtain ⟨⟨L, inj, ok⟩, hst, h⟩ := act_goes.1 h
  dsimp only at h
  split at h
  · rw [lift_goes] at h; cases h
  rename_i hok
  obtain ⟨lli, hl, h⟩ := act_goes.1 h
  obtain ⟨cached, -, h⟩ := act_goes.1 h
  obtain ⟨provider, -, h⟩ := act_goes.1 h
  rw [act_pure] at h
  subst h
  dsimp only at hP
  obtain ⟨hd1, hd2⟩ := settings_dag hs
  have stopped : ∀ (b : Args) (e : Stop), prepare b w = (Outcome.ok (Step.ends e) : Act _) → program b w = .ok (.stopped e) := by
    intro b e hb
    unfold program
    rw [hb]
  constructor
  · intro t ht
    apply stopped
    refine act_ends.2 (.inr ⟨s, hs, act_ends.2 (.inr ⟨src, hsrc, act_ends.2 (.inr ⟨always, hal, act_ends.2 (.inr ⟨(L, inj, ok), hst, ?_⟩)⟩)⟩)⟩)
    dsimp only
    refine (if_neg hok).trans (act_ends.2 (.inl ?_))
    refine act_ends.2 (.inr ⟨.before, rfl, ?_⟩)
    refine (if_pos rfl).trans (act_ends.2 (.inr ⟨(P, true), lift_goes.2 hP, act_ends.2 (.inr ⟨t, lift_goes.2 ht, rfl⟩)⟩))
  · intro t ht
    apply stopped
    refine act_ends.2 (.inr ⟨_, hd2 (some "processedlli".toList) .processed rfl, act_ends.2 (.inr ⟨src, hsrc, act_ends.2 (.inr ⟨always, ?_, act_ends.2 (.inr ⟨(L, inj, ok), hst, ?_⟩)⟩)⟩)⟩)
    · unfold correctionsOf at hal ⊢
      split at hal
      · obtain ⟨_, -, hal⟩ := act_goes.1 hal
        obtain ⟨_, -, hal⟩ := act_goes.1 hal
        exact absurd hal act_stop
      · rw [if_neg (by simp)]
        exact hal
    · dsimp only
      refine (if_neg hok).trans (act_ends.2 (.inl ?_))
      obtain ⟨l, hl1, hl⟩ := act_goes.1 hl
      refine act_ends.2 (.inr ⟨l, hl1, ?_⟩)
      split at hl
      · obtain ⟨_, -, hl⟩ := act_goes.1 hl
        obtain ⟨_, -, hl⟩ := act_goes.1 hl
        exact absurd hl act_stop
      · rename_i hb
        refine (if_neg hb).trans ((if_pos rfl).trans (act_ends.2 (.inr ⟨(P, true), lift_goes.2 hP, act_ends.2 (.inr ⟨t, lift_goes.2 ht, rfl⟩)⟩)))

theorem made_sound {a : Args} {w : World} {j : Job} {P : List Instr} (h : prepare a w = (Outcome.ok (Step.goes j) : Act _)) (hP : j.program = .ok (P, true)) : ∀ i ∈ P, Sound i := by
  obtain ⟨s, src, ex, hw⟩ := wired h
  obtain ⟨gs, ds, -, -, hc⟩ := hw.program P hP
  exact (compiled_block (compiledBy_compiles hc)).sound

theorem sound_print {i : Instr} (h : Sound i) : ∃ t, Lli.printOp i.op = .ok t := Sliced.windowed_print (Sliced.plain_windowed h.plain h.notI)

theorem printAll_ok : ∀ {P : List Instr}, (∀ i ∈ P, Sound i) → ∃ t, Lli.printAll P = .ok t
  | [], _ => ⟨[], rfl⟩
  | i :: P, h => by
    obtain ⟨x, hx⟩ := sound_print (h i (by simp))
    obtain ⟨t, ht⟩ := printAll_ok (P := P) fun j hj => h j (by simp [hj])
    exact ⟨_, by rw [Lli.printAll, hx, Outcome.bind_ok, ht]; rfl⟩

/-- The texts in their order. -/
theorem texts_of : ∀ {P : List Instr}, (∀ i ∈ P, Sound i) → ∃ text : Nat → Str, ∀ (k : Nat) i, P[k]? = some i → Lli.printOp i.op = .ok (text k)
  | [], _ => ⟨fun _ => [], by simp⟩
  | i :: P, h => by
    obtain ⟨x, hx⟩ := sound_print (h i (by simp))
    obtain ⟨f, hf⟩ := texts_of (P := P) fun j hj => h j (by simp [hj])
    refine ⟨fun k => match k with | 0 => x | k + 1 => f k, ?_⟩
    intro k j hk
    cases k with
    | zero => cases hk; exact hx
    | succ k => exact hf k j hk

namespace Spec

/-- The text has one line for each instruction, in their order: the instruction as it is printed, which reads back to the instruction if it is of a kind the text can carry. Every line ends with a
line break. -/
def ListedIn (P : List Instr) (t : Str) : Prop :=
  ∃ lines : List Str, pieces '\n' t = lines ++ [[]] ∧ lines.length = P.length ∧
    ∀ (k : Nat) i, P[k]? = some i → ∃ line, lines[k]? = some line ∧ Lli.printOp i.op = .ok line ∧ (Lli.Spec.Carried i.op → ∃ x, Lli.parseInstr line = .ok x ∧ x.op = i.op)

end Spec

theorem listed_all : ∀ {P : List Instr} {t : Str}, (∀ i ∈ P, Sound i) → Lli.printAll P = .ok t → ListedIn P t
  | [], t, _, h => by cases h; exact ⟨[], rfl, rfl, by simp⟩
  | i :: P, t, hs, h => by
    rw [Lli.printAll] at h
    obtain ⟨x, hx, h⟩ := Outcome.bind_eq_ok.1 h
    obtain ⟨u, hu, h⟩ := Outcome.bind_eq_ok.1 h
    cases h
    obtain ⟨lines, h1, h2, h3⟩ := listed_all (P := P) (fun j hj => hs j (by simp [hj])) hu
    have hb := (Sliced.shaped_print (hs i (by simp)).notDeclare hx).no_break
    refine ⟨x :: lines, ?_, by simp [h2], ?_⟩
    · rw [pieces_append_sep hb, h1]
      rfl
    · intro k j hk
      cases k with
      | zero =>
        cases hk
        refine ⟨x, rfl, hx, fun hc => ?_⟩
        obtain ⟨y, r, e1, e2, e3⟩ := Lli.Spec.c02_roundtrip_partial i.op hc
        rw [hx] at e1
        cases e1
        exact ⟨r, e2, e3⟩
      | succ k => exact h3 k j hk

namespace Spec
section
variable {a : Args} {w : World} {j : Job} {P : List Instr} {r : Ran} {t : List (Chan × Str)}

/-- Two instructions have a patch in common. -/
def Share (i j : Instr) : Prop := ∃ q, (q ∈ i.clients ∨ q ∈ i.op.ids) ∧ (q ∈ j.clients ∨ q ∈ j.op.ids)

/-- The text draws the program: a node for each instruction, showing what is printed of it up to the last `>`, and an arrow to each later instruction with a patch in common. -/
def DrawnIn (P : List Instr) (s : Str) : Prop :=
  ∃ text : Nat → Str, (∀ (k : Nat) i, P[k]? = some i → Lli.printOp i.op = .ok (text k)) ∧
    Dag.Spec.Depicts s P.length (fun k => Dag.Spec.shownPart (text k)) (fun x y => x < y ∧ ∃ i j, P[x]? = some i ∧ P[y]? = some j ∧ Share i j)

end
end Spec

theorem drawn_all {P : List Instr} {s : Str} (hs : ∀ i ∈ P, Sound i) (h : Dag.lliGraph P = .ok s) : DrawnIn P s := by
  obtain ⟨text, ht⟩ := texts_of hs
  obtain ⟨s', h1, h2⟩ := Dag.Spec.c71_shown_partial P text ht fun i hi => (hs i hi).notDeclare
  rw [h] at h1
  cases h1
  exact ⟨text, ht, h2⟩

namespace Spec
section
variable {a : Args} {w : World} {j : Job} {P : List Instr} {r : Ran} {t : List (Chan × Str)}

/-- C72: with `--printlli before` the program lists what it slices without it, and with `--printdag processedlli` it draws the graph of that. -/
theorem c72_same (h : program a w = .ok (.sliced j P r t)) :
    (∃ s, program { a with printLli := some "before".toList } w = .ok (.stopped (.listing s)) ∧ ListedIn P s) ∧
      ∃ s, program { a with printDag := some "processedlli".toList } w = .ok (.stopped (.graph s)) ∧ DrawnIn P s := by
  obtain ⟨h1, h2, -⟩ := program_sliced h
  have hs := made_sound h1 h2
  obtain ⟨h3, h4⟩ := asked_prints h1 h2
  obtain ⟨x, hx⟩ := printAll_ok hs
  obtain ⟨text, ht⟩ := texts_of hs
  obtain ⟨y, hy, -⟩ := Dag.Spec.c71_shown_partial P text ht fun i hi => (hs i hi).notDeclare
  exact ⟨⟨x, h3 x hx, listed_all hs hx⟩, y, h4 y hy, drawn_all hs hy⟩

/-- The instructions are made from the gates of QASM input in the way the options ask for. -/
def MadeFrom (a : Args) (w : World) (P : List Instr) : Prop :=
  ∃ text rs reg n L ls ex, inputText a w = some text ∧ ReadAs w.dflt (placement w L) (Qasm.Spec.textLines (Lli.getlines text)) rs ∧ Qasm.Spec.qregsOf rs = [(reg, n)] ∧
    Gates.Spec.ProgramDecomposesTo w.approx (Qasm.Spec.gatesOf rs) ls ∧ Drawn a w n L ex ∧
    CompiledBy (way a) ⟨reg, decide (a.corrections = some "always".toList), a.loc⟩ n ex ls.flatten P

/-- C72: whatever is listed was asked for and is made from the input. -/
theorem c72_listing {s : Str} (h : program a w = .ok (.stopped (.listing s))) (hf : a.format = some "qasm".toList ∨ a.format = some "q".toList) :
    (a.printLli = some "before".toList ∨ a.printLli = some []) ∧ ∃ P, MadeFrom a w P ∧ ListedIn P s := by
  rcases printed h (by simp) with ⟨_, _, _, b, _, -, -, -, -, -, e⟩ | ⟨j, P, b, h1, h2, ⟨u, h3, h4, e⟩ | ⟨u, -, -, e⟩⟩
  · cases b <;> cases e
  · cases b with
    | false => cases e
    | true =>
      cases e
      refine ⟨?_, P, ?_, listed_all (made_sound h1 h2) h4⟩
      · rcases oneOf_goes h3 with ⟨-, e⟩ | ⟨v, x, e1, e2, e3, e4⟩
        · cases e
        · simp only [lliPrints, List.mem_cons, List.mem_nil_iff, or_false] at e2
          rcases e2 with rfl | rfl | rfl
          · left; rw [e1, ← e3]
          · right; rw [e1, ← e3]; rfl
          · cases e4
      · obtain ⟨text, rs, reg, ls, ex, g⟩ := qasm_made h1 h2 hf
        exact ⟨text, rs, reg, _, _, ls, ex, g⟩
  · cases b <;> cases e

/-- C72: whatever graph is drawn was asked for and is that of the gates of the input or of the instructions made from them. -/
theorem c72_graph {s : Str} (h : program a w = .ok (.stopped (.graph s))) (hf : a.format = some "qasm".toList ∨ a.format = some "q".toList) :
    (a.printDag = some "processedlli".toList ∧ ∃ P, MadeFrom a w P ∧ DrawnIn P s) ∨
      (a.printDag = some "input".toList ∨ a.printDag = some []) ∧ ∃ text rs, inputText a w = some text ∧ ReadAs w.dflt w.dflt (Qasm.Spec.textLines (Lli.getlines text)) rs ∧
        ∀ show' : Nat → Str, (∀ (k : Nat) g, (Qasm.Spec.gatesOf rs)[k]? = some g → show' k = g.print) → Dag.Spec.Depicts s (Qasm.Spec.gatesOf rs).length show'
          (fun x y => x < y ∧ ∃ g g', (Qasm.Spec.gatesOf rs)[x]? = some g ∧ (Qasm.Spec.gatesOf rs)[y]? = some g' ∧ Gates.Spec.Clash g g') := by
  rcases printed h (by simp) with ⟨st, src, gs, b, u, h1, h2, h3, h4, h5, e⟩ | ⟨j, P, b, h1, h2, ⟨u, -, -, e⟩ | ⟨u, h3, h4, e⟩⟩
  · right
    cases b with
    | false => cases e
    | true =>
      cases e
      obtain ⟨hd, -⟩ := settings_dag h1
      rw [h2] at hd
      refine ⟨?_, ?_⟩
      · rcases oneOf_goes hd with ⟨-, e⟩ | ⟨v, x, e1, e2, e3, e4⟩
        · cases e
        · simp only [dagPrints, List.mem_cons, List.mem_nil_iff, or_false] at e2
          rcases e2 with rfl | rfl | rfl
          · left; rw [e1, ← e3]
          · right; rw [e1, ← e3]; rfl
          · cases e4
      · obtain ⟨k1, k2⟩ := settings_input h1
        have hfm : st.format = .qasm := by
          rcases hf with e | e <;> (rw [e] at k1; exact (act_pure.1 k1).symm)
        unfold openSource at h3
        rw [hfm] at h3
        obtain ⟨f, h6, h3⟩ := Outcome.bind_eq_ok.1 h3
        split at h3
        · cases h3
        · rename_i reg n hq
          cases h3
          obtain ⟨gs', h7, h4⟩ := Outcome.bind_eq_ok.1 h4
          cases h4
          obtain ⟨rs, r1, r2, r3⟩ := file_read h6 hq h7
          subst r2
          exact ⟨st.text, rs, k2, r1, fun f hf' => Dag.Spec.c71_printed _ h5 f hf'⟩
  · cases b <;> cases e
  · left
    cases b with
    | false => cases e
    | true =>
      cases e
      refine ⟨?_, P, ?_, drawn_all (made_sound h1 h2) h4⟩
      · rcases oneOf_goes h3 with ⟨-, e⟩ | ⟨v, x, e1, e2, e3, e4⟩
        · cases e
        · simp only [dagPrints, List.mem_cons, List.mem_nil_iff, or_false] at e2
          rcases e2 with rfl | rfl | rfl
          · cases e4
          · cases e4
          · rw [e1, ← e3]
      · obtain ⟨text, rs, reg, ls, ex, g⟩ := qasm_made h1 h2 hf
        exact ⟨text, rs, reg, _, _, ls, ex, g⟩

end
end Spec

end Verif.Slicer
