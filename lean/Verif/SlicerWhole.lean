import Verif.SlicerRun
import Verif.QasmFileProps
import Verif.GatesProps
import Verif.PandoraProps
import Verif.StreamLife
import Verif.ExposedProps

/-! # From the text of the input to the instructions, the layout and the run (C66) -/

namespace Verif.Slicer

open Verif Verif.Gates Verif.Stream Verif.Layouts Verif.Pipe Verif.Wave Verif.Apply Verif.Real.Spec Verif.Stream.Spec

namespace Spec

/-- The text read: the file named by `-i`, or else the standard input. -/
def inputText (a : Args) (w : World) : Option Str :=
  match a.input with
  | none => some w.stdin
  | some f => w.files f

/-- How gates become instructions, by the kind of layout: for layouts from a file gate by gate; for EDPC layouts with Y states, or without them when
twists are switched off; for compact layouts with boundary rotations. -/
inductive Way where
  | plain | teleported | catalytic | compact
  deriving DecidableEq, Repr

def way (a : Args) : Way :=
  match a.generator, a.layout with
  | some g, _ => if g = "edpc".toList then (if a.noTwists then .catalytic else .teleported) else .compact
  | none, none => .compact
  | none, some _ => .plain

/-- The layout asked for, and what its patches show at the start if that is needed. -/
def Drawn (a : Args) (w : World) (n : Nat) (L : Layout) (ex : ExposedMap) : Prop :=
  match way a with
  | .compact => makeCompact n a.options (decide (a.generator = some "compact_no_clogging".toList)) = .ok L ∧ determineExposed L (coreQubits n) = .ok ex
  | .teleported => makeEdpc n (a.lanes.getD 1) (a.condensed.getD false) a.explicit false a.options = .ok L
  | .catalytic => makeEdpc n (a.lanes.getD 1) (a.condensed.getD false) a.explicit true a.options = .ok L
  | .plain => ∃ f t, a.layout = some f ∧ w.files f = some t ∧ fromText t a.options = .ok L

/-- `out` is compiled from the gates `prog` in that way. -/
def CompiledBy (k : Way) (m : Mode) (n : Nat) (ex : ExposedMap) (prog : List Gate) (out : List Instr) : Prop :=
  match k with
  | .plain => ∃ fuel c, (gateMachine m).run fuel (prog, []) n = .ok (out, true, c)
  | .teleported => ∃ fuel c, (stage (teleportedExpand (coreQubits n) true) (gateMachine m)).run fuel ((prog, []), (), []) n = .ok (out, true, c)
  | .catalytic => ∃ fuel c, (stage (catalyticExpand (coreQubits n) m.loc true) (gateMachine m)).run fuel ((prog, []), (), []) n = .ok (out, true, c)
  | .compact => ∃ fuel c, (stage (teleportedExpand (coreQubits n) false) (stage boundaryExpand (gateMachine m))).run fuel (((prog, []), ex, []), (), []) n = .ok (out, true, c)

/-- The placement of ancillas for controlled gates that name none: next to the target on layouts without places for ancillas. -/
def placement (w : World) (L : Layout) : Placement := if L.ancilla.isEmpty then .nextToTarget else w.dflt

/-- The lines are read as these; the default placement changes after the first gate. -/
inductive ReadAs (d0 d1 : Placement) : List Str → List Qasm.ParseResult → Prop
  | nil : ReadAs d0 d1 [] []
  | other {l ls r rs} : Qasm.parseGate d0 l = .ok r → Qasm.Spec.isGate r = false → ReadAs d0 d1 ls rs → ReadAs d0 d1 (l :: ls) (r :: rs)
  | gate {l ls g rs} : Qasm.parseGate d0 l = .ok (.gate g) → Qasm.Spec.LinesReadAs d1 ls rs → ReadAs d0 d1 (l :: ls) (.gate g :: rs)

end Spec
open Spec

theorem stages_drawn {a : Args} {w : World} {p : Pipeline} {n : Nat} {l : LayoutChoice} {L : Layout} {inj : Injection} {ok : Bool} (hl : chooseLayout a w = (Outcome.ok (Step.goes l) : Act _))
    (h : chooseStages a p n l = (Outcome.ok (Step.goes (L, inj, ok)) : Act _)) :
    ∃ ex, Drawn a w n L ex ∧ ∀ (m : Mode) (prog : List Gate) (out : List Instr) (c : Nat), stream w m n prog inj = .ok (out, true, c) → CompiledBy (way a) m n ex prog out := by
  have hway : (∃ L', l = .given L' ∧ way a = .plain ∧ ∃ f t, a.layout = some f ∧ w.files f = some t ∧ fromText t a.options = .ok L') ∨
      (l = .generated .edpc ∧ way a = if a.noTwists then .catalytic else .teleported) ∨
      ∃ g, g ≠ .edpc ∧ l = .generated g ∧ way a = .compact ∧ (g = .compactNoClogging ↔ a.generator = some "compact_no_clogging".toList) := by
    unfold chooseLayout at hl
    split at hl
    · rename_i s e
      obtain ⟨g, h1, hl⟩ := act_goes.1 hl
      rw [act_pure] at hl
      subst hl
      rcases oneOf_goes h1 with ⟨h2, -⟩ | ⟨v, x, h2, h3, h4, h5⟩
      · cases h2
      · cases h2
        simp only [generators, List.mem_cons, List.mem_nil_iff, or_false] at h3
        rcases h3 with rfl | rfl | rfl
        · cases h5
          refine .inr (.inr ⟨.compact, by decide, rfl, ?_, ?_⟩)
          · rw [way, e, ← h4]; rfl
          · rw [e, ← h4]; decide
        · cases h5
          refine .inr (.inr ⟨.compactNoClogging, by decide, rfl, ?_, ?_⟩)
          · rw [way, e, ← h4]; rfl
          · rw [e, ← h4]; decide
        · cases h5
          exact .inr (.inl ⟨rfl, by rw [way, e, ← h4]; rfl⟩)
    · rename_i e
      split at hl
      · rename_i e2
        rw [act_pure] at hl
        subst hl
        exact .inr (.inr ⟨.compact, by decide, rfl, by rw [way, e, e2], by rw [e]; decide⟩)
      · rename_i f e2
        split at hl
        · rw [lift_goes] at hl; cases hl
        · rename_i t e3
          obtain ⟨L', h1, hl⟩ := act_goes.1 hl
          rw [lift_goes] at h1
          rw [act_pure] at hl
          subst hl
          exact .inl ⟨L', rfl, by rw [way, e, e2], f, t, e2, e3, h1⟩
  rcases hway with ⟨L', rfl, hw, hf⟩ | ⟨rfl, hw⟩ | ⟨g, hg, rfl, hw, hn⟩
  · unfold chooseStages at h
    dsimp only at h
    split at h
    · exact absurd h act_stop
    · rw [act_pure] at h
      cases h
      refine ⟨fun _ => none, ?_, ?_⟩
      · unfold Drawn; rw [hw]; exact hf
      · intro m prog out c hs
        unfold CompiledBy; rw [hw]; exact ⟨_, _, hs⟩
  · unfold chooseStages at h
    dsimp only at h
    obtain ⟨L', h1, h⟩ := act_goes.1 h
    rw [lift_goes] at h1
    rw [act_pure] at h
    cases h
    cases e : a.noTwists with
    | true =>
      rw [e] at hw h1
      refine ⟨fun _ => none, ?_, ?_⟩
      · unfold Drawn; rw [hw]; exact h1
      · intro m prog out c hs
        unfold CompiledBy; rw [hw]; exact ⟨_, _, hs⟩
    | false =>
      rw [e] at hw h1
      refine ⟨fun _ => none, ?_, ?_⟩
      · unfold Drawn; rw [hw]; exact h1
      · intro m prog out c hs
        unfold CompiledBy; rw [hw]; exact ⟨_, _, hs⟩
  · unfold chooseStages at h
    have h' : (if a.noTwists = true then Act.stop Stop.refused else do
        let L ← Act.lift (makeCompact n a.options (g == .compactNoClogging))
        let m ← Act.lift (determineExposed L (coreQubits n))
        pure (L, Injection.boundary m, false)) = (Outcome.ok (Step.goes (L, inj, ok)) : Act _) := by
      cases g with
      | edpc => exact absurd rfl hg
      | compact => exact h
      | compactNoClogging => exact h
    split at h'
    · exact absurd h' act_stop
    · obtain ⟨L', h1, h'⟩ := act_goes.1 h'
      rw [lift_goes] at h1
      obtain ⟨m, h2, h'⟩ := act_goes.1 h'
      rw [lift_goes] at h2
      rw [act_pure] at h'
      cases h'
      have e : (g == Generator.compactNoClogging) = decide (a.generator = some "compact_no_clogging".toList) := by
        rw [Bool.eq_iff_iff, beq_iff_eq, decide_eq_true_iff]; exact hn
      rw [e] at h1
      refine ⟨m, ?_, ?_⟩
      · unfold Drawn; rw [hw]; exact ⟨h1, h2⟩
      · intro m' prog out c hs
        unfold CompiledBy; rw [hw]; exact ⟨_, _, hs⟩

/-- What is known of the source, the layout and the program. -/
structure Wired (a : Args) (w : World) (j : Job) (s : Settings) (src : Source) (ex : ExposedMap) : Prop where
  text : inputText a w = some s.text
  format : oneOf formats .lli a.format = (Outcome.ok (Step.goes s.format) : Act _)
  source : openSource w s = .ok src
  size : j.size = src.size
  drawn : Drawn a w j.size j.layout ex
  ids : j.opIds = (a.opIds || s.format == .pandora)
  router : oneOf routers false a.router = (Outcome.ok (Step.goes j.cached) : Act _)
  search : oneOf providers .djikstra a.search = (Outcome.ok (Step.goes j.provider) : Act _)
  program : ∀ P, j.program = .ok (P, true) → ∃ gs ds, src.gates w (placement w j.layout) = .ok (gs, true) ∧ DecStream.run w.approx w.steps ⟨gs, []⟩ = .ok (ds, true) ∧
    CompiledBy (way a) ⟨src.reg, decide (a.corrections = some "always".toList), a.loc⟩ j.size ex ds P

theorem wired {a : Args} {w : World} {j : Job} (h : prepare a w = (Outcome.ok (Step.goes j) : Act _)) : ∃ s src ex, Wired a w j s src ex := by
  obtain ⟨s, h1, h⟩ := act_goes.1 h
  obtain ⟨src, h2, h⟩ := act_goes.1 h
  rw [lift_goes] at h2
  obtain ⟨always, h3, h⟩ := act_goes.1 h
  obtain ⟨⟨L, inj, ok⟩, h4, h⟩ := act_goes.1 h
  dsimp only at h
  split at h
  · rw [lift_goes] at h; cases h
  obtain ⟨lli, -, h⟩ := act_goes.1 h
  obtain ⟨cached, h5, h⟩ := act_goes.1 h
  obtain ⟨provider, h6, h⟩ := act_goes.1 h
  rw [act_pure] at h
  subst h
  obtain ⟨lay, h7, h1⟩ := act_goes.1 h1
  obtain ⟨f, h8, h1⟩ := act_goes.1 h1
  obtain ⟨rep, -, h1⟩ := act_goes.1 h1
  have hs : s.layout = lay ∧ s.format = f ∧ inputText a w = some s.text := by
    split at h1
    · exact absurd h1 act_stop
    · obtain ⟨d, -, h1⟩ := act_goes.1 h1
      obtain ⟨p, -, h1⟩ := act_goes.1 h1
      unfold inputText
      split at h1
      · rename_i e
        rw [act_pure] at h1; rw [← h1, e]; exact ⟨rfl, rfl, rfl⟩
      · rename_i e
        split at h1
        · exact absurd h1 act_stop
        · rename_i e2
          rw [act_pure] at h1; rw [← h1, e]; exact ⟨rfl, rfl, e2⟩
  have ha : always = decide (a.corrections = some "always".toList) := by
    unfold correctionsOf at h3
    split at h3
    · obtain ⟨_, -, h3⟩ := act_goes.1 h3
      obtain ⟨_, -, h3⟩ := act_goes.1 h3
      exact absurd h3 act_stop
    · rcases oneOf_goes h3 with ⟨e, h⟩ | ⟨v, x, e, h, h', h''⟩
      · rw [e, h]; decide
      · simp only [correctionModes, List.mem_cons, List.mem_nil_iff, or_false] at h
        rw [e, ← h', ← h'']
        rcases h with rfl | rfl <;> decide
  rw [hs.1] at h4
  obtain ⟨ex, hd, hc⟩ := stages_drawn h7 h4
  refine ⟨s, src, ex, hs.2.2, by rw [hs.2.1]; exact h8, h2, rfl, hd, rfl, h5, h6, ?_⟩
  intro P hP
  obtain ⟨⟨gs, b1⟩, h9, hP⟩ := Outcome.bind_eq_ok.1 hP
  obtain ⟨⟨ds, b2⟩, h10, hP⟩ := Outcome.bind_eq_ok.1 hP
  obtain ⟨⟨out, b3, c⟩, h11, hP⟩ := Outcome.bind_eq_ok.1 hP
  have hP' := (Outcome.ok.inj hP)
  simp only [Prod.mk.injEq, Bool.and_eq_true] at hP'
  obtain ⟨rfl, ⟨rfl, rfl⟩, rfl⟩ := hP'
  rw [← ha]
  exact ⟨gs, ds, h9, h10, hc _ _ _ _ h11⟩

theorem piped {a : Args} {w : World} {j : Job} (h : prepare a w = (Outcome.ok (Step.goes j) : Act _)) : oneOf pipelines .stream a.pipeline = (Outcome.ok (Step.goes j.pipeline) : Act _) := by
  obtain ⟨s, h1, h⟩ := act_goes.1 h
  obtain ⟨src, -, h⟩ := act_goes.1 h
  obtain ⟨always, -, h⟩ := act_goes.1 h
  obtain ⟨⟨L, inj, ok⟩, -, h⟩ := act_goes.1 h
  dsimp only at h
  split at h
  · rw [lift_goes] at h; cases h
  obtain ⟨lli, -, h⟩ := act_goes.1 h
  obtain ⟨cached, -, h⟩ := act_goes.1 h
  obtain ⟨provider, -, h⟩ := act_goes.1 h
  rw [act_pure] at h
  subst h
  obtain ⟨lay, -, h1⟩ := act_goes.1 h1
  obtain ⟨f, -, h1⟩ := act_goes.1 h1
  obtain ⟨rep, -, h1⟩ := act_goes.1 h1
  split at h1
  · exact absurd h1 act_stop
  · obtain ⟨d, -, h1⟩ := act_goes.1 h1
    obtain ⟨p, hp, h1⟩ := act_goes.1 h1
    split at h1
    · rw [act_pure] at h1; rw [← h1]; exact hp
    · split at h1
      · exact absurd h1 act_stop
      · rw [act_pure] at h1; rw [← h1]; exact hp

/-! ## The gates of a file -/

theorem readAs_append {d0 d1 : Placement} {ls ls' : List Str} {rs rs' : List Qasm.ParseResult} (h : Qasm.Spec.LinesReadAs d0 ls rs) (hg : Qasm.Spec.gatesOf rs = [])
    (h' : ReadAs d0 d1 ls' rs') : ReadAs d0 d1 (ls ++ ls') (rs ++ rs') := by
  induction ls generalizing rs with
  | nil =>
    have : rs = [] := by simpa [Qasm.Spec.LinesReadAs] using h.symm
    rw [this]; exact h'
  | cons l ls ih =>
    obtain ⟨r, rs1, rfl, h1, h2⟩ := Qasm.linesReadAs_cons.1 h
    have hr : Qasm.Spec.isGate r = false ∧ Qasm.Spec.gatesOf rs1 = [] := by
      cases r with
      | gate g => simp [Qasm.Spec.gatesOf] at hg
      | ignored => exact ⟨rfl, by simpa [Qasm.Spec.gatesOf] using hg⟩
      | qreg a b => exact ⟨rfl, by simpa [Qasm.Spec.gatesOf] using hg⟩
    exact .other h1 hr.1 (ih h2 hr.2)

theorem file_read {d0 d1 : Placement} {ls : List Str} {f : Qasm.GateFile} {reg : Str × Nat} {gs : List Gate} (ho : Qasm.openGates d0 ls = .ok f) (hq : f.qreg = some reg)
    (hd : f.drain d1 (f.lines.length + 1) = .ok gs) :
    ∃ rs, ReadAs d0 d1 (Qasm.Spec.textLines ls) rs ∧ Qasm.Spec.gatesOf rs = gs ∧ Qasm.Spec.qregsOf rs = [reg] := by
  unfold Qasm.openGates at ho
  obtain ⟨f', ha, ho⟩ := Outcome.bind_eq_ok.1 ho
  split at ho
  · cases ho
  · cases ho
    rcases (Qasm.advanceGate_spec d0 _ _ _).1 ha with ⟨rs, h1, h2, h3, h4, h5⟩ | ⟨pre, l, rpre, g2, h1, h2, h3, h4, h5, h6, h7⟩
    · have hdr : f.drain d1 (f.lines.length + 1) = .ok [] := by unfold Qasm.GateFile.drain; rw [h3]
      rw [hdr] at hd; cases hd
      refine ⟨rs, ?_, h2, ?_⟩
      · have := readAs_append (d1 := d1) h1 h2 .nil
        simpa using this
      · rw [hq] at h5; simpa using h5.symm
    · rw [Qasm.drain_spec d1 _ f (by omega) (by simp [h6]) (by simp [hq])] at hd
      obtain ⟨rs, h8, h9, h10⟩ := hd
      refine ⟨rpre ++ .gate g2 :: rs, ?_, ?_, ?_⟩
      · rw [h1, Qasm.textLines_append, Qasm.textLines_ne h2]
        exact readAs_append h3 h4 (.gate h5 h8)
      · rw [Qasm.gatesOf_append, h4, h10, h6]; simp [Qasm.Spec.gatesOf]
      · rw [Qasm.qregsOf_append]
        rw [hq] at h7
        have : Qasm.Spec.qregsOf rpre = [reg] := by simpa using h7.symm
        rw [this]
        simpa [Qasm.Spec.qregsOf] using h9

namespace Spec

section
variable {a : Args} {w : World} {j : Job} {P : List Instr} {r : Ran} {t : List (Chan × Str)}

/-- The program made from QASM input, whatever is then done with it. -/
theorem qasm_made (h1 : prepare a w = (Outcome.ok (Step.goes j) : Act _)) (h2 : j.program = .ok (P, true)) (hf : a.format = some "qasm".toList ∨ a.format = some "q".toList) :
    ∃ text rs reg ls ex, inputText a w = some text ∧ ReadAs w.dflt (placement w j.layout) (Qasm.Spec.textLines (Lli.getlines text)) rs ∧ Qasm.Spec.qregsOf rs = [(reg, j.size)] ∧
      Gates.Spec.ProgramDecomposesTo w.approx (Qasm.Spec.gatesOf rs) ls ∧ Drawn a w j.size j.layout ex ∧
      CompiledBy (way a) ⟨reg, decide (a.corrections = some "always".toList), a.loc⟩ j.size ex ls.flatten P := by
  obtain ⟨s, src, ex, hw⟩ := wired h1
  obtain ⟨gs, ds, h3, h4, h5⟩ := hw.program P h2
  have hfm : s.format = .qasm := by
    have := hw.format
    rcases hf with e | e <;> (rw [e] at this; exact (act_pure.1 this).symm)
  have ho := hw.source
  unfold openSource at ho
  rw [hfm] at ho
  obtain ⟨f, h6, ho⟩ := Outcome.bind_eq_ok.1 ho
  split at ho
  · cases ho
  · rename_i reg n hq
    cases ho
    obtain ⟨gs', h7, h3⟩ := Outcome.bind_eq_ok.1 h3
    cases h3
    obtain ⟨rs, r1, r2, r3⟩ := file_read h6 hq h7
    obtain ⟨ls, d1, d2, d3⟩ := (Gates.Spec.c08_stream w.approx gs ds).1 ⟨_, h4⟩
    rw [d3] at h5
    exact ⟨s.text, rs, reg, ls, ex, hw.text, r1, by rw [r3, hw.size]; rfl, by rw [r2]; exact d1, hw.drawn, h5⟩

/-- C66: with QASM as input. The program that is sliced is compiled, in the way that belongs to the layout asked for, from the decomposition of the gates on the lines of the input in their
order. There is one register, of the size of the layout. -/
theorem c66_qasm (h : program a w = .ok (.sliced j P r t)) (hf : a.format = some "qasm".toList ∨ a.format = some "q".toList) :
    ∃ text rs reg ls ex, inputText a w = some text ∧ ReadAs w.dflt (placement w j.layout) (Qasm.Spec.textLines (Lli.getlines text)) rs ∧ Qasm.Spec.qregsOf rs = [(reg, j.size)] ∧
      Gates.Spec.ProgramDecomposesTo w.approx (Qasm.Spec.gatesOf rs) ls ∧ Drawn a w j.size j.layout ex ∧
      CompiledBy (way a) ⟨reg, decide (a.corrections = some "always".toList), a.loc⟩ j.size ex ls.flatten P := by
  obtain ⟨h1, h2, -⟩ := program_sliced h
  exact qasm_made h1 h2 hf

/-- C66: with a database as input. What its rows are read as is the subject of C64. -/
theorem c66_pandora (h : program a w = .ok (.sliced j P r t)) (hf : a.format = some "pandora".toList ∨ a.format = some "p".toList) :
    j.size = w.qubits ∧ ∃ gs ls ex, Pandora.read w.db w.steps ⟨[], 1⟩ = .ok (gs, true) ∧ Gates.Spec.ProgramDecomposesTo w.approx gs ls ∧ Drawn a w j.size j.layout ex ∧
      CompiledBy (way a) ⟨"pandora_reg".toList, decide (a.corrections = some "always".toList), a.loc⟩ j.size ex ls.flatten P := by
  obtain ⟨h1, h2, -⟩ := program_sliced h
  obtain ⟨s, src, ex, hw⟩ := wired h1
  obtain ⟨gs, ds, h3, h4, h5⟩ := hw.program P h2
  have hfm : s.format = .pandora := by
    have := hw.format
    rcases hf with e | e <;> (rw [e] at this; exact (act_pure.1 this).symm)
  have ho := hw.source
  unfold openSource at ho
  rw [hfm] at ho
  obtain ⟨⟨n, rd⟩, h6, ho⟩ := Outcome.bind_eq_ok.1 ho
  cases ho
  unfold Pandora.openDb at h6
  split at h6
  · cases h6
  · cases h6
    obtain ⟨ls, d1, d2, d3⟩ := (Gates.Spec.c08_stream w.approx gs ds).1 ⟨_, h4⟩
    rw [d3] at h5
    exact ⟨hw.size, gs, ls, ex, h3, d1, hw.drawn, h5⟩

/-- The router asked for, and the state it starts with. -/
inductive Chosen (a : Args) (w : World) (L : Layout) : {ρ : Type} → RouterI ρ → ρ → Prop
  | search (hs : a.search ≠ some "boost".toList) (hr : a.router ≠ some "graph_search_cached".toList) :
      Chosen a w L (Router.dpRouter L w.pick (decide (a.search = some "astar".toList)) (decide (a.pipeline = some "edpc".toList))) ()
  | stored (hs : a.search ≠ some "boost".toList) (hr : a.router = some "graph_search_cached".toList) (hp : a.pipeline ≠ some "edpc".toList) :
      Chosen a w L (Router.cachedRouter L w.pick (decide (a.search = some "astar".toList))) fun _ => none
  | boost {pick : Boost.Pick} (hs : a.search = some "boost".toList) (hr : a.router ≠ some "graph_search_cached".toList) (hp : a.pipeline ≠ some "edpc".toList) (hb : w.boost = some pick) :
      Chosen a w L (Boost.boostRouter L pick) ()
  | storedBoost {pick : Boost.Pick} (hs : a.search = some "boost".toList) (hr : a.router = some "graph_search_cached".toList) (hp : a.pipeline ≠ some "edpc".toList) (hb : w.boost = some pick) :
      Chosen a w L (Boost.storedRouter L pick) fun _ => none

/-- What a pipeline is told: the options, the layout and the router. Gates from a database have their operations numbered. -/
def setup {ρ : Type} (a : Args) (w : World) (L : Layout) (R : RouterI ρ) : Ctx ρ where
  localInstrs := a.loc
  twists := !a.noTwists
  genIds := a.opIds || decide (a.format = some "pandora".toList ∨ a.format = some "p".toList)
  asserts := w.asserts
  layout := L
  router := R

/-- The pipeline asked for. -/
def loopOf (a : Args) : Loop :=
  if a.pipeline = some "dag".toList then .dag else if a.pipeline = some "wave".toList ∨ a.pipeline = some "edpc".toList then .wave else .streamed

/-- The values of the options on the router, the search and the pipeline. -/
theorem chosen_values (h : prepare a w = (Outcome.ok (Step.goes j) : Act _)) :
    (j.cached = true ↔ a.router = some "graph_search_cached".toList) ∧ (j.provider = .boost ↔ a.search = some "boost".toList) ∧ (j.provider = .astar ↔ a.search = some "astar".toList) ∧
      (j.pipeline = .edpc ↔ a.pipeline = some "edpc".toList) ∧ j.pipeline.loop = loopOf a := by
  obtain ⟨s, src, ex, hw⟩ := wired h
  have hp : oneOf pipelines .stream a.pipeline = (Outcome.ok (Step.goes j.pipeline) : Act _) := piped h
  refine ⟨?_, ?_, ?_, ?_⟩
  · rcases oneOf_goes hw.router with ⟨e, h⟩ | ⟨v, x, e, h, h', h''⟩
    · rw [e, h]; decide
    · simp only [routers, List.mem_cons, List.mem_nil_iff, or_false] at h
      rw [e, ← h', ← h'']
      rcases h with rfl | rfl <;> decide
  · rcases oneOf_goes hw.search with ⟨e, h⟩ | ⟨v, x, e, h, h', h''⟩
    · rw [e, h]; decide
    · simp only [providers, List.mem_cons, List.mem_nil_iff, or_false] at h
      rw [e, ← h', ← h'']
      rcases h with rfl | rfl | rfl <;> decide
  · rcases oneOf_goes hw.search with ⟨e, h⟩ | ⟨v, x, e, h, h', h''⟩
    · rw [e, h]; decide
    · simp only [providers, List.mem_cons, List.mem_nil_iff, or_false] at h
      rw [e, ← h', ← h'']
      rcases h with rfl | rfl | rfl <;> decide
  · unfold loopOf
    rcases oneOf_goes hp with ⟨e, h⟩ | ⟨v, x, e, h, h', h''⟩
    · rw [e, h]; exact ⟨by decide, rfl⟩
    · simp only [pipelines, List.mem_cons, List.mem_nil_iff, or_false] at h
      rw [e, ← h', ← h'']
      rcases h with rfl | rfl | rfl | rfl | rfl <;> exact ⟨by decide, rfl⟩

/-- C66: the run. What is shown is shown by the pipeline asked for, on the layout, with local instructions, twists and ids of operations as asked for, and with the router asked for. -/
theorem c66_run (h : program a w = .ok (.sliced j P r t)) (hr : r.phase ≠ .failed ∨ r.obs ≠ []) :
    ∃ (ρ : Type) (R : RouterI ρ) (rs : ρ) (s : DSlice) (A : List (Obs (Mach ρ))), Chosen a w j.layout R rs ∧ DSlice.init j.layout (coreQubits j.size) = .ok s ∧ r.obs = bare A ∧
      Account (Real.env (setup a w j.layout R) w.realloc) P ⟨s, rs, 1⟩ (loopOf a) A := by
  obtain ⟨h1, h2, h3, -⟩ := program_sliced h
  obtain ⟨s, src, ex, hw⟩ := wired h1
  obtain ⟨v1, v2, v3, v4, v5⟩ := chosen_values h1
  have hp := prepared h1
  have hpan : (s.format == Format.pandora) = decide (a.format = some "pandora".toList ∨ a.format = some "p".toList) := by
    rcases oneOf_goes hw.format with ⟨e, h⟩ | ⟨v, x, e, h, h', h''⟩
    · rw [e, h]; decide
    · simp only [formats, List.mem_cons, List.mem_nil_iff, or_false] at h
      rw [e, ← h', ← h'']
      rcases h with rfl | rfl | rfl | rfl | rfl | rfl <;> decide
  have hctx : ∀ {ρ : Type} (R : RouterI ρ), j.ctx w R = (setup a w j.layout R) := by
    intro ρ R
    unfold Job.ctx setup
    rw [hp.loc, hp.twists, hw.ids, hpan]
  have key : ∀ {ρ : Type} (R : RouterI ρ) (rs : ρ), pipeline w (j.ctx w R) rs j.pipeline (coreQubits j.size) P = .ok (some r) → Chosen a w j.layout R rs →
      ∃ (ρ : Type) (R : RouterI ρ) (rs : ρ) (s : DSlice) (A : List (Obs (Mach ρ))), Chosen a w j.layout R rs ∧ DSlice.init j.layout (coreQubits j.size) = .ok s ∧ r.obs = bare A ∧
        Account (Real.env (setup a w j.layout R) w.realloc) P ⟨s, rs, 1⟩ (loopOf a) A := by
    intro ρ R rs h hc
    obtain ⟨s, A, e1, e2, e3⟩ := pipeline_account h
    rw [hctx, v5] at e2
    exact ⟨ρ, R, rs, s, A, hc, e1, e3, e2⟩
  have hstop : (j.provider == Provider.astar) = decide (a.search = some "astar".toList) := by
    rw [Bool.eq_iff_iff, beq_iff_eq, decide_eq_true_iff]; exact v3
  unfold ran at h3
  split at h3
  · split at h3
    · split at h3
      · cases h3
        rcases hr with hr | hr <;> exact absurd rfl hr
      · cases h3
    · cases h3
  unfold slice at h3
  split at h3
  · rename_i he
    split at h3
    · cases h3
    · rename_i hn
      simp only [Bool.or_eq_true, beq_iff_eq, not_or, Bool.not_eq_true] at hn
      rw [hstop] at h3
      have hc := Chosen.search (a := a) (w := w) (L := j.layout) (fun e => hn.2 (v2.2 e)) (fun e => by have := v1.2 e; rw [hn.1] at this; cases this)
      rw [decide_eq_true (v4.1 he)] at hc
      refine key _ () ?_ hc
      rw [he]
      exact h3
  · rename_i he
    have he' : a.pipeline ≠ some "edpc".toList := fun e => he (v4.2 e)
    split at h3
    · rename_i e1 e2
      split at h3
      · rename_i pick hb
        exact key _ () h3 (.boost (v2.1 e2) (fun e => by have := v1.2 e; rw [e1] at this; cases this) he' hb)
      · cases h3
    · rename_i e1 e2
      split at h3
      · rename_i pick hb
        exact key _ _ h3 (.storedBoost (v2.1 e2) (v1.1 e1) he' hb)
      · cases h3
    · rename_i v e1 e2
      have hc := Chosen.search (a := a) (w := w) (L := j.layout) (fun e => e2 (v2.2 e)) (fun e => by have := v1.2 e; rw [e1] at this; cases this)
      rw [decide_eq_false he', ← hstop] at hc
      exact key _ () h3 hc
    · rename_i v e1 e2
      have hc := Chosen.stored (a := a) (w := w) (L := j.layout) (fun e => e2 (v2.2 e)) (v1.1 e1) he'
      rw [← hstop] at hc
      exact key _ _ h3 hc

/-- The approximations of a rotation act on its qubit only. -/
def KeepsQubit (approx : Nat → Frac → Outcome (List Gate)) : Prop := ∀ q f l, approx q f = .ok l → ∀ g ∈ l, gateQubits g = [q]

theorem decomposes_qubits {approx : Nat → Frac → Outcome (List Gate)} (hk : KeepsQubit approx) {g : Gate} {l : List Gate} (h : Gates.Spec.DecomposesTo approx g l) :
    ∀ x ∈ l, gateQubits x = gateQubits g ∨ ∃ q ∈ gateQubits g, gateQubits x = [q] := by
  cases h with
  | basic h => intro x hx; cases List.mem_singleton.1 hx; exact .inl rfl
  | rz h => intro x hx; exact .inl (hk _ _ _ h x hx)
  | crz ha hb he hd hn =>
    intro x hx
    simp only [List.mem_append, List.mem_singleton] at hx
    rcases hx with (((hx | hx) | rfl) | hx) | rfl
    · exact .inr ⟨_, List.mem_cons_self, hk _ _ _ ha x hx⟩
    · exact .inr ⟨_, List.mem_cons_of_mem _ List.mem_cons_self, hk _ _ _ hb x hx⟩
    · exact .inl rfl
    · exact .inr ⟨_, List.mem_cons_of_mem _ List.mem_cons_self, hk _ _ _ he x hx⟩
    · exact .inl rfl

theorem program_qubits {approx : Nat → Frac → Outcome (List Gate)} (hk : KeepsQubit approx) {gs : List Gate} {ls : List (List Gate)} (h : Gates.Spec.ProgramDecomposesTo approx gs ls) :
    ∀ x ∈ ls.flatten, ∃ g ∈ gs, gateQubits x = gateQubits g ∨ ∃ q ∈ gateQubits g, gateQubits x = [q] := by
  induction h with
  | nil => intro x hx; cases hx
  | cons h _ ih =>
    intro x hx
    rw [List.flatten_cons, List.mem_append] at hx
    rcases hx with hx | hx
    · exact ⟨_, List.mem_cons_self, decomposes_qubits hk h x hx⟩
    · obtain ⟨g, hg, e⟩ := ih x hx
      exact ⟨g, List.mem_cons_of_mem _ hg, e⟩

theorem program_register {approx : Nat → Frac → Outcome (List Gate)} (hk : KeepsQubit approx) {n : Nat} {gs : List Gate} {ls : List (List Gate)} (h : Gates.Spec.ProgramDecomposesTo approx gs ls)
    (hg : InRegister n gs) : InRegister n ls.flatten := by
  intro x hx q hq
  obtain ⟨g, h1, e | ⟨q', h2, e⟩⟩ := program_qubits hk h x hx
  · exact hg g h1 q (e ▸ hq)
  · rw [e] at hq; cases List.mem_singleton.1 hq; exact hg g h1 q h2

theorem program_distinct {approx : Nat → Frac → Outcome (List Gate)} (hk : KeepsQubit approx) {gs : List Gate} {ls : List (List Gate)} (h : Gates.Spec.ProgramDecomposesTo approx gs ls)
    (hg : DistinctOperands gs) : DistinctOperands ls.flatten := by
  intro x hx
  obtain ⟨g, h1, e | ⟨q', h2, e⟩⟩ := program_qubits hk h x hx
  · rw [e]; exact hg g h1
  · rw [e]; simp

theorem compiledBy_compiles {k : Way} {m : Mode} {n : Nat} {ex : ExposedMap} {prog : List Gate} {out : List Instr} (h : CompiledBy k m n ex prog out) : Compiles m n ex prog out := by
  cases k with
  | plain => obtain ⟨f, c, h⟩ := h; exact .plain f c h
  | teleported => obtain ⟨f, c, h⟩ := h; exact .teleported f c h
  | catalytic => obtain ⟨f, c, h⟩ := h; exact .catalytic f c h
  | compact => obtain ⟨f, c, h⟩ := h; exact .compact f c h

/-- The input is QASM, and these are the gates on its lines. -/
def Gives (a : Args) (w : World) (L : Layout) (gs : List Gate) : Prop :=
  (a.format = some "qasm".toList ∨ a.format = some "q".toList) ∧
    ∃ text rs, inputText a w = some text ∧ ReadAs w.dflt (placement w L) (Qasm.Spec.textLines (Lli.getlines text)) rs ∧ Qasm.Spec.gatesOf rs = gs

theorem readAs_unique {d0 d1 : Placement} {ls : List Str} {rs rs' : List Qasm.ParseResult} (h : ReadAs d0 d1 ls rs) (h' : ReadAs d0 d1 ls rs') : rs = rs' := by
  induction h generalizing rs' with
  | nil => cases h'; rfl
  | other h1 h2 _ ih =>
    cases h' with
    | other h1' _ h3' => rw [h1] at h1'; cases h1'; rw [ih h3']
    | gate h1' _ => rw [h1] at h1'; cases h1'; cases h2
  | gate h1 h2 =>
    cases h' with
    | other h1' h2' _ => rw [h1] at h1'; cases h1'; cases h2'
    | gate h1' h3' =>
      rw [h1] at h1'
      cases h1'
      unfold Qasm.Spec.LinesReadAs at h2 h3'
      rw [h2] at h3'
      have inj : ∀ {xs ys : List Qasm.ParseResult}, xs.map Outcome.ok = ys.map Outcome.ok → xs = ys := by
        intro xs
        induction xs with
        | nil => intro ys h; cases ys with
          | nil => rfl
          | cons y ys => cases h
        | cons x xs ih => intro ys h; cases ys with
          | nil => cases h
          | cons y ys => simp only [List.map_cons, List.cons.injEq, Outcome.ok.injEq] at h; rw [h.1, ih h.2]
      rw [inj h3']

/-- C66: every instruction sliced uses patches that are alive at that point, nothing is made twice, and at the end exactly the qubits of the register are left, if the gates of the input
are on the register (which is not checked, C49) and ids do not run out. -/
theorem c66_lifetimes (h : program a w = .ok (.sliced j P r t)) {gs : List Gate} (hg : Gives a w j.layout gs) (hk : KeepsQubit w.approx) (hreg : InRegister j.size gs)
    (hfit : j.size + (introduced P).length < 2 ^ 32) :
    ∃ st, lifeRun (coreAlive j.size) P = some st ∧ ∀ x, st x = if x < j.size then .alive else if x ∈ introduced P then .dead else .unborn := by
  obtain ⟨hf, text', rs', t1, t2, t3⟩ := hg
  obtain ⟨text, rs, reg, ls, ex, h1, h2, -, h4, h5, h6⟩ := c66_qasm h hf
  rw [h1] at t1
  cases t1
  rw [← readAs_unique h2 t2] at t3
  rw [t3] at h4
  exact c13_lifetimes _ _ _ _ _ (compiledBy_compiles h6) (program_register hk h4 hreg) hfit

/-- C66: the factories of the layout. The first one takes the time given with --disttime, ten slices by default; each further one starts a slice later than the one before,
unless --nostagger is given. A layout with reserved cells for magic states has no factories, and magic states take that time on all of them. Times are 32-bit numbers. -/
theorem c66_factories (h : program a w = .ok (.sliced j P r t)) :
    (∀ i, i < j.layout.regions.length → j.layout.times[i]? = some (((match a.distTime with | some n => n | none => 10) + if a.noStagger = true then 0 else i) % 2 ^ 32)) ∧
    (j.layout.magicReserved = true → j.layout.regions = [] ∧ j.layout.times = List.replicate j.layout.reserved.length ((match a.distTime with | some n => n | none => 10) % 2 ^ 32)) := by
  obtain ⟨h1, -⟩ := program_sliced h
  obtain ⟨g, hg⟩ := (prepared h1).grid
  obtain ⟨-, -, -, -, h2, -, h3⟩ := Layouts.Spec.c42_regions hg
  constructor
  · intro i hi
    rw [h2 i hi]
    unfold Args.options
    cases a.distTime <;> cases a.noStagger <;> rfl
  · intro hm
    obtain ⟨e1, e2⟩ := h3 hm
    refine ⟨e1, e2.trans ?_⟩
    unfold Args.options
    cases a.distTime <;> rfl

/-- C66: on compact layouts, which are the default, every joint measurement sliced meets the patches of the register with the needed operator towards an empty cell of the first slice. -/
theorem c66_facing (h : program a w = .ok (.sliced j P r t)) {gs : List Gate} (hg : Gives a w j.layout gs) (hk : KeepsQubit w.approx) (hreg : InRegister j.size gs) (hd : DistinctOperands gs)
    (hfit : j.size + (introduced P).length + 1 < 2 ^ 32) (hw : a.layout = none ∧ a.generator = none ∨ a.generator = some "compact".toList ∨ a.generator = some "compact_no_clogging".toList) :
    ∃ s, DSlice.init j.layout (coreQubits j.size) = .ok s ∧ ∀ (orient : Nat → Option Facing), (∀ p, orient p ≠ none ↔ p < j.size) →
      (∀ p c f, Router.Spec.Holds s p c → orient p = some f → Upright s c f) → ∃ o', faceRun orient P = some o' := by
  obtain ⟨hf, text', rs', t1, t2, t3⟩ := hg
  obtain ⟨text, rs, reg, ls, ex, h1, h2, -, h4, h5, h6⟩ := c66_qasm h hf
  rw [h1] at t1
  cases t1
  rw [← readAs_unique h2 t2] at t3
  rw [t3] at h4
  have hway : way a = .compact := by
    unfold way
    rcases hw with ⟨e1, e2⟩ | e | e
    · rw [e1, e2]
    · rw [e]; rfl
    · rw [e]; rfl
  unfold Drawn at h5
  rw [hway] at h5 h6
  obtain ⟨h5, h7⟩ := h5
  obtain ⟨f, c, h6⟩ := h6
  obtain ⟨L, s, exposed, e1, e2, e3, e4⟩ := c15_layout ⟨reg, decide (a.corrections = some "always".toList), a.loc⟩ j.size a.options (decide (a.generator = some "compact_no_clogging".toList))
  rw [h5] at e1
  cases e1
  rw [h7] at e3
  cases e3
  exact ⟨s, e2, fun orient ho hu => e4 orient ho hu _ (program_register hk h4 hreg) (program_distinct hk h4 hd) _ _ _ h6 hfit⟩

end
end Spec
end Verif.Slicer
