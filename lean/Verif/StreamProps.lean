import Verif.StreamLemmas

/-!
# Instruction streams: C11, C12, C13
-/

namespace Verif.Stream
open Verif.Gates

namespace Spec

/-- The patch ids an instruction brings into existence. A Y-state request carries its client when it asks for
a state; without one it gives a state back. -/
def introduces (i : Instr) : List Nat :=
  match i.op with
  | .init t _ _ => [t]
  | .magic t _ => [t]
  | .ystate t _ _ => if i.clients = [] then [] else [t]
  | .bellCnot b => [b.side1, b.side2]
  | .bell b => [b.side1, b.side2]
  | _ => []

/-- All ids brought into existence by a sequence of instructions, in order. -/
def introduced (l : List Instr) : List Nat := l.flatMap introduces

/-- The life of a patch. -/
inductive Life where
  | unborn | alive | dead
  deriving DecidableEq, Repr

/-- The patches an instruction uses without creating them. -/
def uses (i : Instr) : List Nat :=
  i.clients ++
  match i.op with
  | .measure t _ _ => [t]
  | .multi obs _ _ => obs.map (·.1)
  | .init _ _ next => (next.map (·.target)).toList
  | .bell b => [b.loc1.target, b.loc2.target]
  | .magic _ near => [near]
  | .ystate _ near _ => [near]
  | .sq t _ _ => [t]
  | .rotate t => [t]
  | .bellCnot b => [b.control, b.target]
  | .reset t => [t]
  | _ => []

/-- A new id must never have existed. -/
def create (st : Nat → Life) (x : Nat) (becomes : Life) : Option (Nat → Life) := if st x = .unborn then some (upd st x becomes) else none

/-- What an instruction does to the lives of patches; `none` when it uses a patch that is not alive or creates
one that has existed before. The two sides of the Bell pair inside a Bell-based CNOT are created and measured
within the instruction. -/
def lifeStep (st : Nat → Life) (i : Instr) : Option (Nat → Life) :=
  if (uses i).all (fun x => st x = .alive) then
    match i.op with
    | .measure t _ _ => some (upd st t .dead)
    | .init t _ _ => create st t .alive
    | .magic t _ => create st t .alive
    | .ystate t _ _ => if st t = .alive then some (upd st t .dead) else create st t .alive
    | .bellCnot b => (create st b.side1 .dead).bind fun st => create st b.side2 .dead
    | .bell b => (create st b.side1 .alive).bind fun st => create st b.side2 .alive
    | _ => some st
  else none

def lifeRun (st : Nat → Life) : List Instr → Option (Nat → Life)
  | [] => some st
  | i :: is => (lifeStep st i).bind fun st => lifeRun st is

/-- At the start the core patches, numbered from 0, are alive and nothing else has existed. -/
def coreAlive (n : Nat) (x : Nat) : Life := if x < n then .alive else .unborn

/-- The qubits a gate acts on. -/
def gateQubits : Gate → List Nat
  | .basic q _ => [q]
  | .rz q _ => [q]
  | .ctrl c (.basic t _) _ _ => [c, t]
  | .ctrl c (.rz t _) _ _ => [c, t]
  | .reset _ q => [q]

def InRegister (n : Nat) (prog : List Gate) : Prop := ∀ g ∈ prog, ∀ q ∈ gateQubits g, q < n

/-- The ways the compiler turns a gate program into an instruction stream (slicer.cpp:439-515), as streams
started with an empty queue: no injection stage (layout from a file), Y-state teleportation with rotations
(EDPC), catalytic S gates (EDPC without twists), boundary rotations then teleportation (compact). -/
inductive Compiles (m : Mode) (n : Nat) (exposed : ExposedMap) (prog : List Gate) (out : List Instr) : Prop
  | plain (fuel c) (h : (gateMachine m).run fuel (prog, []) n = .ok (out, true, c))
  | teleported (fuel c) (h : (stage (teleportedExpand (coreQubits n) true) (gateMachine m)).run fuel ((prog, []), (), []) n = .ok (out, true, c))
  | catalytic (fuel c) (h : (stage (catalyticExpand (coreQubits n) m.loc true) (gateMachine m)).run fuel ((prog, []), (), []) n = .ok (out, true, c))
  | compact (fuel c) (h : (stage (teleportedExpand (coreQubits n) false) (stage boundaryExpand (gateMachine m))).run fuel
      (((prog, []), exposed, []), (), []) n = .ok (out, true, c))

end Spec
open Spec

/-! ### The counter -/

/-- `k` ids handed out in a row, from counter `c`. -/
def idsFrom (c : Nat) : Nat → List Nat
  | 0 => []
  | k + 1 => c :: idsFrom ((c + 1) % 2 ^ 32) k

def adv (c k : Nat) : Nat := (c + k) % 2 ^ 32

theorem idsFrom_eq {c : Nat} (hc : c < 2 ^ 32) (k : Nat) : idsFrom c k = (List.range k).map (fun j => (c + j) % 2 ^ 32) := by
  induction k generalizing c with
  | zero => rfl
  | succ k ih =>
    rw [idsFrom, ih (Nat.mod_lt _ (by decide)), List.range_succ_eq_map, List.map_cons, List.map_map]
    refine List.cons_eq_cons.2 ⟨by simp [Nat.mod_eq_of_lt hc], ?_⟩
    apply List.map_congr_left
    intro j _
    simp only [Function.comp]
    rw [Nat.mod_add_mod]; congr 1; omega

theorem idsFrom_append (c a b : Nat) (hc : c < 2 ^ 32) : idsFrom c (a + b) = idsFrom c a ++ idsFrom (adv c a) b := by
  induction a generalizing c with
  | zero => simp [idsFrom, adv, Nat.mod_eq_of_lt hc]
  | succ a ih =>
    rw [Nat.succ_add_eq_add_succ, Nat.add_succ, idsFrom, idsFrom, ih _ (Nat.mod_lt _ (by decide)), List.cons_append]
    unfold adv
    rw [Nat.mod_add_mod, show c + 1 + a = c + (a + 1) by omega]

theorem adv_adv (c a b : Nat) : adv (adv c a) b = adv c (a + b) := by
  unfold adv; rw [Nat.mod_add_mod, Nat.add_assoc]

theorem adv_lt (c k : Nat) : adv c k < 2 ^ 32 := Nat.mod_lt _ (by decide)

theorem introduced_append (a b : List Instr) : introduced (a ++ b) = introduced a ++ introduced b := by
  simp [introduced]

/-! ### Shapes of the compiled sequences -/

/-- Not an S gate. -/
def NoS (i : Instr) : Prop := ∀ t d, i.op ≠ .sq t .S d

theorem makeCnot_ids {loc : Bool} {c a b : Nat} {ty : CnotType} {pl : Placement} {al : Bool} {l : List Instr} {c' : Nat}
    (h : makeCnot loc c a b ty pl al = .ok (l, c')) :
    (∀ i ∈ l, NoS i) ∧ ∃ k, introduced l = idsFrom c k ∧ c' = adv c k := by
  unfold makeCnot at h
  split at h
  · dsimp only [newId] at h; split at h
    · cases h
    · cases h
      refine ⟨by simp [NoS], 2, rfl, ?_⟩
      unfold adv; rw [Nat.mod_add_mod]
  · cases h
    refine ⟨?_, 1, ?_, rfl⟩
    · cases ty <;> cases al <;> simp [NoS, cnotMiddle, plain]
    · cases ty <;> cases al <;> simp [cnotMiddle, plain, introduced, introduces, idsFrom]

theorem makeT_shape {loc : Bool} {c a : Nat} {l : List Instr} {c' : Nat} (h : makeT loc c a = .ok (l, c')) :
    ∃ pre, l = pre ++ [plain (.sq a .S false)] ∧ (∀ i ∈ pre, NoS i) ∧ ∃ k, introduced pre = idsFrom c k ∧ c' = adv c k := by
  unfold makeT at h
  dsimp only [newId] at h
  split at h
  · simp only [Outcome.bind_eq_ok] at h
    obtain ⟨⟨is, c1⟩, h1, h2⟩ := h
    cases h2
    obtain ⟨h3, k, h4, h5⟩ := makeCnot_ids h1
    refine ⟨[{ op := .magic c a, clients := [a] }] ++ is ++ [plain (.measure c .Z false)], by simp, ?_, k + 1, ?_, ?_⟩
    · intro i hi
      simp only [List.mem_append, List.mem_singleton] at hi
      rcases hi with (rfl | hi) | rfl
      · simp [NoS]
      · exact h3 i hi
      · simp [NoS, plain]
    · rw [introduced_append, introduced_append, h4]; simp [introduced, introduces, plain, idsFrom]
    · rw [h5, show (c + 1) % 2 ^ 32 = adv c 1 from rfl, adv_adv, Nat.add_comm]
  · cases h
    refine ⟨[{ op := .magic c a, clients := [a] }, plain (.multi [(a, .Z), (c, .Z)] false none), plain (.measure c .X false)], rfl,
      by simp [NoS, plain], 1, ?_, rfl⟩
    simp [introduced, introduces, plain, idsFrom]

/-- Every gate compiles to instructions without S gates, possibly followed by one S on its qubit. -/
theorem compile_shape {m : Mode} {c : Nat} (hc : c < 2 ^ 32) {g : Gate} {is : List Instr} {c' : Nat} (h : compileGate m c g = .ok (is, c')) :
    ∃ pre suf, is = pre ++ suf ∧ (∀ i ∈ pre, NoS i) ∧ (suf = [] ∨ ∃ q d, q ∈ gateQubits g ∧ suf = [plain (.sq q .S d)]) ∧
      ∃ k, introduced pre = idsFrom c k ∧ c' = adv c k := by
  have h0 : c = adv c 0 := by unfold adv; rw [Nat.add_zero, Nat.mod_eq_of_lt hc]
  have single : ∀ i : Instr, NoS i → introduces i = [] → is = [i] → c' = c →
      ∃ pre suf, is = pre ++ suf ∧ (∀ i ∈ pre, NoS i) ∧ (suf = [] ∨ ∃ q d, q ∈ gateQubits g ∧ suf = [plain (.sq q .S d)]) ∧
      ∃ k, introduced pre = idsFrom c k ∧ c' = adv c k := by
    intro i h1 h2 h3 h4
    exact ⟨[i], [], by simp [h3], by simpa using h1, Or.inl rfl, 0, by simp [introduced, h2, idsFrom], by rw [h4]; exact h0⟩
  have sgate : ∀ q d, q ∈ gateQubits g → is = [plain (.sq q .S d)] → c' = c →
      ∃ pre suf, is = pre ++ suf ∧ (∀ i ∈ pre, NoS i) ∧ (suf = [] ∨ ∃ q d, q ∈ gateQubits g ∧ suf = [plain (.sq q .S d)]) ∧
      ∃ k, introduced pre = idsFrom c k ∧ c' = adv c k := by
    intro q d h1 h3 h4
    exact ⟨[], _, by simp [h3], by simp, Or.inr ⟨q, d, h1, rfl⟩, 0, by simp [introduced, idsFrom], by rw [h4]; exact h0⟩
  have tgate : ∀ q, q ∈ gateQubits g → makeT m.loc c q = .ok (is, c') →
      ∃ pre suf, is = pre ++ suf ∧ (∀ i ∈ pre, NoS i) ∧ (suf = [] ∨ ∃ q d, q ∈ gateQubits g ∧ suf = [plain (.sq q .S d)]) ∧
      ∃ k, introduced pre = idsFrom c k ∧ c' = adv c k := by
    intro q h1 h2
    obtain ⟨pre, h3, h4, h5⟩ := makeT_shape h2
    exact ⟨pre, _, h3, h4, Or.inr ⟨q, false, h1, rfl⟩, h5⟩
  match g, h with
  | .basic q .Z, h => cases h; exact single _ (by simp [NoS, plain]) rfl rfl rfl
  | .basic q .X, h => cases h; exact single _ (by simp [NoS, plain]) rfl rfl rfl
  | .basic q .Y, h => cases h; exact single _ (by simp [NoS, plain]) rfl rfl rfl
  | .basic q .H, h => cases h; exact single _ (by simp [NoS, plain]) rfl rfl rfl
  | .basic q .S, h => cases h; exact sgate q false (by simp [gateQubits]) rfl rfl
  | .basic q .SDg, h => cases h; exact sgate q true (by simp [gateQubits]) rfl rfl
  | .basic q .T, h => exact tgate q (by simp [gateQubits]) h
  | .basic q .TDg, h => exact tgate q (by simp [gateQubits]) h
  | .rz q f, h =>
    rw [compileGate] at h
    split at h
    · cases h; exact single _ (by simp [NoS, plain]) rfl rfl rfl
    · split at h
      · cases h; exact sgate q false (by simp [gateQubits]) rfl rfl
      · split at h
        · exact tgate q (by simp [gateQubits]) h
        · cases h
  | .ctrl a (.basic b .X) ty pl, h =>
    obtain ⟨h1, h2⟩ := makeCnot_ids h
    exact ⟨is, [], by simp, h1, Or.inl rfl, h2⟩
  | .ctrl a (.basic b .Z) ty pl, h =>
    simp only [compileGate, Outcome.bind_eq_ok] at h
    obtain ⟨⟨l, c1⟩, h1, h2⟩ := h
    cases h2
    obtain ⟨h3, k, h4, h5⟩ := makeCnot_ids h1
    refine ⟨_, [], (List.append_nil _).symm, ?_, Or.inl rfl, k, ?_, h5⟩
    · intro i hi
      simp only [List.mem_append, List.mem_singleton] at hi
      rcases hi with (rfl | hi) | rfl
      · simp [NoS, plain]
      · exact h3 i hi
      · simp [NoS, plain]
    · rw [introduced_append, introduced_append, h4]; simp [introduced, introduces, plain]
  | .reset r q, h =>
    rw [compileGate] at h
    split at h
    · cases h
    · cases h; exact single _ (by simp [NoS, plain]) rfl rfl rfl

/-- What the counter argument needs to know about a stage. -/
structure IdsOk {τ : Type} (e : τ → Nat → Instr → Outcome (List Instr × τ × Nat)) : Prop where
  noS : ∀ t c i l t' c', NoS i → e t c i = .ok (l, t', c') → introduced l = introduces i ∧ c' = c
  s : ∀ t c q d i l t' c', c < 2 ^ 32 → i.op = .sq q .S d → e t c i = .ok (l, t', c') → ∃ k, introduced l = idsFrom c k ∧ c' = adv c k

theorem expandList_noS {τ : Type} {e : τ → Nat → Instr → Outcome (List Instr × τ × Nat)} (he : IdsOk e) {is : List Instr} (hs : ∀ i ∈ is, NoS i)
    {t : τ} {c : Nat} {l : List Instr} {t' : τ} {c' : Nat} (h : expandList e t c is = .ok (l, t', c')) : introduced l = introduced is ∧ c' = c := by
  induction is generalizing t c l with
  | nil => cases h; exact ⟨rfl, rfl⟩
  | cons i is ih =>
    simp only [expandList, Outcome.bind_eq_ok] at h
    obtain ⟨⟨l1, t1, c1⟩, h1, ⟨l2, t2, c2⟩, h2, h3⟩ := h
    cases h3
    obtain ⟨h4, h5⟩ := he.noS _ _ _ _ _ _ (hs i (by simp)) h1
    dsimp only at h5 h2
    subst h5
    obtain ⟨h6, h7⟩ := ih (fun j hj => hs j (by simp [hj])) h2
    refine ⟨?_, h7⟩
    rw [introduced_append, h4, h6]; simp [introduced]

theorem expandList_append {τ : Type} {e : τ → Nat → Instr → Outcome (List Instr × τ × Nat)} {a b : List Instr} {t : τ} {c : Nat}
    {l : List Instr} {t' : τ} {c' : Nat} :
    expandList e t c (a ++ b) = .ok (l, t', c') ↔
      ∃ l1 t1 c1 l2, expandList e t c a = .ok (l1, t1, c1) ∧ expandList e t1 c1 b = .ok (l2, t', c') ∧ l = l1 ++ l2 := by
  induction a generalizing t c l with
  | nil =>
    simp only [List.nil_append, expandList, Outcome.ok.injEq, Prod.mk.injEq]
    constructor
    · intro h; exact ⟨[], t, c, l, ⟨rfl, rfl, rfl⟩, h, rfl⟩
    · rintro ⟨_, _, _, l2, ⟨rfl, rfl, rfl⟩, h, rfl⟩; exact h
  | cons i a ih =>
    simp only [List.cons_append, expandList, Outcome.bind_eq_ok]
    constructor
    · rintro ⟨⟨l1, t1, c1⟩, h1, ⟨l2, t2, c2⟩, h2, h3⟩
      cases h3
      obtain ⟨la, ta, ca, lb, h4, h5, h6⟩ := ih.1 h2
      exact ⟨l1 ++ la, ta, ca, lb, ⟨_, h1, _, h4, rfl⟩, h5, by simp [h6]⟩
    · rintro ⟨l1, t1, c1, l2, ⟨⟨la, ta, ca⟩, h1, ⟨lb, tb, cb⟩, h2, h3⟩, h4, rfl⟩
      cases h3
      exact ⟨_, h1, (lb ++ l2, t', c'), ih.2 ⟨_, _, _, _, h2, h4, rfl⟩, by simp⟩

theorem expandList_single {τ : Type} {e : τ → Nat → Instr → Outcome (List Instr × τ × Nat)} {i : Instr} {t : τ} {c : Nat}
    {l : List Instr} {t' : τ} {c' : Nat} : expandList e t c [i] = .ok (l, t', c') ↔ e t c i = .ok (l, t', c') := by
  simp only [expandList, Outcome.bind_eq_ok]
  constructor
  · rintro ⟨⟨l1, t1, c1⟩, h1, ⟨l2, t2, c2⟩, h2, h3⟩
    cases h2; cases h3; simpa using h1
  · intro h; exact ⟨_, h, _, rfl, by simp⟩

theorem ids_stage {τ : Type} {e : τ → Nat → Instr → Outcome (List Instr × τ × Nat)} (hne : NonemptyExp e) (he : IdsOk e) {m : Mode}
    {gs : List Gate} {t : τ} {out : List Instr} {c c' : Nat} (hc : c < 2 ^ 32)
    (h : Delivers (stage e (gateMachine m)) ((gs, []), t, []) c out c') : ∃ k, introduced out = idsFrom c k ∧ c' = adv c k := by
  induction gs generalizing t c out with
  | nil =>
    rw [delivers_stage_gates_nil hne] at h
    obtain ⟨rfl, rfl⟩ := h
    exact ⟨0, rfl, by unfold adv; rw [Nat.add_zero, Nat.mod_eq_of_lt hc]⟩
  | cons g gs ih =>
    rw [delivers_stage_gates_cons hne] at h
    obtain ⟨is, c1, l, t', c2, o, h1, h2, rfl, h3⟩ := h
    obtain ⟨pre, suf, rfl, h4, h5, k, h6, h7⟩ := compile_shape hc h1
    obtain ⟨l1, t1, c3, l2, h8, h9, rfl⟩ := expandList_append.1 h2
    obtain ⟨h10, rfl⟩ := expandList_noS he h4 h8
    subst h7
    have hsuf : ∃ k2, introduced l2 = idsFrom (adv c k) k2 ∧ c2 = adv (adv c k) k2 := by
      rcases h5 with rfl | ⟨q, d, _, rfl⟩
      · cases h9; exact ⟨0, rfl, by unfold adv; simp⟩
      · exact he.s _ _ _ _ _ _ _ _ (adv_lt _ _) rfl (expandList_single.1 h9)
    obtain ⟨k2, h11, rfl⟩ := hsuf
    obtain ⟨k3, h12, rfl⟩ := ih (adv_lt _ _) h3
    refine ⟨k + k2 + k3, ?_, by rw [adv_adv, adv_adv, Nat.add_assoc]⟩
    rw [introduced_append, introduced_append, h10, h6, h11, h12, idsFrom_append _ _ _ hc, idsFrom_append _ _ _ hc, adv_adv]

theorem ids_id : IdsOk idExpand where
  noS := by intro t c i l t' c' _ h; cases h; simp [introduced]
  s := by
    intro t c q d i l t' c' hc hi h; cases h
    exact ⟨0, by simp [introduced, introduces, hi, idsFrom], by unfold adv; rw [Nat.add_zero, Nat.mod_eq_of_lt hc]⟩

theorem adv_zero {c : Nat} (hc : c < 2 ^ 32) : c = adv c 0 := by unfold adv; rw [Nat.add_zero, Nat.mod_eq_of_lt hc]

theorem teleported_noS {core : List Nat} {rot : Bool} {t : Unit} {c : Nat} {i : Instr} {l : List Instr} {t' : Unit} {c' : Nat} (hi : NoS i)
    (h : teleportedExpand core rot t c i = .ok (l, t', c')) :
    c' = c ∧ (l = [i] ∨ ∃ q d, i.op = .sq q .H d ∧ q ∈ core ∧ rot = true ∧ l = [i, plain (.rotate q)]) := by
  unfold teleportedExpand at h
  split at h
  · rename_i q d hop; exact absurd hop (hi _ _)
  · rename_i q d hop
    split at h
    · rename_i hr; cases h
      simp at hr
      exact ⟨rfl, Or.inr ⟨q, d, hop, hr.2, hr.1, rfl⟩⟩
    · cases h; exact ⟨rfl, Or.inl rfl⟩
  · cases h; exact ⟨rfl, Or.inl rfl⟩

theorem catalytic_noS {core : List Nat} {loc rot : Bool} {t : Unit} {c : Nat} {i : Instr} {l : List Instr} {t' : Unit} {c' : Nat} (hi : NoS i)
    (h : catalyticExpand core loc rot t c i = .ok (l, t', c')) :
    c' = c ∧ (l = [i] ∨ ∃ q d, i.op = .sq q .H d ∧ q ∈ core ∧ rot = true ∧ l = [i, plain (.rotate q)]) := by
  unfold catalyticExpand at h
  split at h
  · rename_i q d hop; exact absurd hop (hi _ _)
  · rename_i q d hop
    split at h
    · rename_i hr; cases h
      simp at hr
      exact ⟨rfl, Or.inr ⟨q, d, hop, hr.2, hr.1, rfl⟩⟩
    · cases h; exact ⟨rfl, Or.inl rfl⟩
  · cases h; exact ⟨rfl, Or.inl rfl⟩

theorem ids_teleported (core : List Nat) (rot : Bool) : IdsOk (teleportedExpand core rot) where
  noS := by
    intro t c i l t' c' hi h
    obtain ⟨h1, h2 | ⟨q, d, h3, _, _, h4⟩⟩ := teleported_noS hi h
    · subst h2; exact ⟨by simp [introduced], h1⟩
    · subst h4; exact ⟨by simp [introduced, introduces, plain], h1⟩
  s := by
    intro t c q d i l t' c' hc hi h
    simp only [teleportedExpand, hi] at h
    split at h
    · cases h; exact ⟨1, rfl, rfl⟩
    · cases h; exact ⟨0, by simp [introduced, introduces, hi, idsFrom], adv_zero hc⟩

theorem ids_catalytic (core : List Nat) (loc rot : Bool) : IdsOk (catalyticExpand core loc rot) where
  noS := by
    intro t c i l t' c' hi h
    obtain ⟨h1, h2 | ⟨q, d, h3, _, _, h4⟩⟩ := catalytic_noS hi h
    · subst h2; exact ⟨by simp [introduced], h1⟩
    · subst h4; exact ⟨by simp [introduced, introduces, plain], h1⟩
  s := by
    intro t c q d i l t' c' hc hi h
    simp only [catalyticExpand, hi, plain] at h
    split at h
    · simp only [Outcome.bind_eq_ok, newId] at h
      obtain ⟨⟨l1, c1⟩, h1, ⟨l2, c2⟩, h2, h3⟩ := h
      cases h3
      obtain ⟨_, k1, h4, h5⟩ := makeCnot_ids h1
      obtain ⟨_, k2, h6, h7⟩ := makeCnot_ids h2
      dsimp only at h5 h6 h7
      subst h5
      refine ⟨1 + k1 + k2, ?_, ?_⟩
      · rw [show (c + 1) % 2 ^ 32 = adv c 1 from rfl] at h4 h6
        rw [adv_adv] at h6
        simp only [introduced_append, h4, h6, idsFrom_append _ _ _ hc]
        simp [introduced, introduces, idsFrom]
      · rw [h7, show (c + 1) % 2 ^ 32 = adv c 1 from rfl, adv_adv, adv_adv]; simp [Nat.add_assoc]
    · cases h; exact ⟨0, by simp [introduced, introduces, hi, idsFrom], adv_zero hc⟩

theorem exposeOne_rot (m : ExposedMap) (p : Nat) (op : Pauli) : (exposeOne m p op).1 = [] ∨ (exposeOne m p op).1 = [plain (.rotate p)] := by
  unfold exposeOne
  split
  · split <;> simp
  · simp

theorem exposeAll_cons {obs : List (Nat × Pauli)} {m : ExposedMap} {p : Nat} {ps : List Nat} {r : List Instr} {m' : ExposedMap}
    (h : exposeAll obs m (p :: ps) = .ok (r, m')) :
    ∃ r1 m1 r2, ((∃ e op, m p = some e ∧ obsAt obs p = .ok op ∧ exposeOne m p op = (r1, m1)) ∨ (m p = none ∧ r1 = [] ∧ m1 = m)) ∧
      exposeAll obs m1 ps = .ok (r2, m') ∧ r = r1 ++ r2 := by
  rw [exposeAll] at h
  cases hm : m p with
  | none =>
    rw [hm] at h
    simp only [Outcome.bind_eq_ok, Outcome.ok.injEq] at h
    obtain ⟨_, rfl, ⟨r2, m2⟩, h2, h3⟩ := h
    cases h3
    exact ⟨[], m, r2, Or.inr ⟨rfl, rfl, rfl⟩, h2, rfl⟩
  | some e =>
    rw [hm] at h
    simp only [Outcome.bind_eq_ok, Outcome.ok.injEq] at h
    obtain ⟨op, h1, _, rfl, ⟨r2, m2⟩, h2, h3⟩ := h
    cases h3
    exact ⟨_, _, r2, Or.inl ⟨e, op, rfl, h1, rfl⟩, h2, rfl⟩

theorem exposeAll_rot {obs : List (Nat × Pauli)} {m : ExposedMap} {ps : List Nat} {r : List Instr} {m' : ExposedMap}
    (h : exposeAll obs m ps = .ok (r, m')) : ∀ i ∈ r, ∃ p ∈ ps, i = plain (.rotate p) := by
  induction ps generalizing m r with
  | nil => cases h; simp
  | cons p ps ih =>
    obtain ⟨r1, m1, r2, hr1, h2, rfl⟩ := exposeAll_cons h
    intro i hi
    rcases List.mem_append.1 hi with hi | hi
    · have hr1 : r1 = [] ∨ r1 = [plain (.rotate p)] := by
        rcases hr1 with ⟨e, op, _, _, h4⟩ | ⟨_, rfl, rfl⟩
        · rcases exposeOne_rot m p op with h5 | h5 <;> (rw [h4] at h5; simp at h5; simp [h5])
        · simp
      rcases hr1 with rfl | rfl
      · simp at hi
      · simp at hi; exact ⟨p, by simp, hi⟩
    · obtain ⟨q, hq, e⟩ := ih h2 i hi
      exact ⟨q, by simp [hq], e⟩

/-- Boundary injection puts rotations of patches the instruction acts on in front of it. -/
theorem boundary_shape {t : ExposedMap} {c : Nat} {i : Instr} {l : List Instr} {t' : ExposedMap} {c' : Nat}
    (h : boundaryExpand t c i = .ok (l, t', c')) :
    c' = c ∧ ∃ r, l = r ++ [i] ∧ ∀ j ∈ r, ∃ p ∈ uses i, j = plain (.rotate p) := by
  unfold boundaryExpand at h
  split at h
  · rename_i obs neg loc hop
    simp only [Outcome.bind_eq_ok] at h
    obtain ⟨⟨r, m⟩, h1, h2⟩ := h
    cases h2
    refine ⟨rfl, r, rfl, ?_⟩
    intro j hj
    obtain ⟨p, hp, e⟩ := exposeAll_rot h1 j hj
    refine ⟨p, ?_, e⟩
    rw [mem_operating] at hp
    unfold uses
    rw [hop] at hp ⊢
    simpa [Operation.ids] using hp
  · rename_i b hop
    simp only [Outcome.ok.injEq, Prod.mk.injEq] at h
    obtain ⟨rfl, -, rfl⟩ := h
    refine ⟨rfl, _, rfl, ?_⟩
    intro j hj
    unfold uses; rw [hop]
    rcases List.mem_append.1 hj with hj | hj
    · rcases exposeOne_rot t b.control .Z with h1 | h1
      · rw [h1] at hj; simp at hj
      · rw [h1] at hj; simp at hj; exact ⟨b.control, by simp, hj⟩
    · rcases exposeOne_rot (exposeOne t b.control .Z).2 b.target .X with h1 | h1
      · rw [h1] at hj; simp at hj
      · rw [h1] at hj; simp at hj; exact ⟨b.target, by simp, hj⟩
  · split at h <;> (cases h; exact ⟨rfl, [], rfl, by simp⟩)
  · rename_i q d hop
    simp only [Outcome.ok.injEq, Prod.mk.injEq] at h
    obtain ⟨rfl, -, rfl⟩ := h
    refine ⟨rfl, _, rfl, ?_⟩
    intro j hj
    unfold uses; rw [hop]
    rcases exposeOne_rot t q .Z with h1 | h1
    · rw [h1] at hj; simp at hj
    · rw [h1] at hj; simp at hj; exact ⟨q, by simp, hj⟩
  · cases h; exact ⟨rfl, [], rfl, by simp⟩

theorem noS_rotate (p : Nat) : NoS (plain (.rotate p)) := by intro t d; simp [plain]

theorem ids_compact (core : List Nat) (rot : Bool) : IdsOk (thenExpand boundaryExpand (teleportedExpand core rot)) where
  noS := by
    intro t c i l t' c' hi h
    simp only [thenExpand, Outcome.bind_eq_ok] at h
    obtain ⟨⟨l1, t1, c1⟩, h1, ⟨l2, t2, c2⟩, h2, h3⟩ := h
    cases h3
    obtain ⟨hc, r, hl, hr⟩ := boundary_shape h1
    dsimp only at h2
    subst hc hl
    have hs : ∀ j ∈ r ++ [i], NoS j := by
      intro j hj
      rcases List.mem_append.1 hj with hj | hj
      · obtain ⟨p, _, rfl⟩ := hr j hj; exact noS_rotate p
      · simp at hj; subst hj; exact hi
    obtain ⟨h5, h6⟩ := expandList_noS (ids_teleported core rot) hs h2
    refine ⟨?_, h6⟩
    rw [h5, introduced_append]
    have : introduced r = [] := by
      unfold introduced
      rw [List.flatMap_eq_nil_iff]
      intro j hj
      obtain ⟨p, _, rfl⟩ := hr j hj; rfl
    rw [this]; simp [introduced]
  s := by
    intro t c q d i l t' c' hc0 hi h
    simp only [thenExpand, Outcome.bind_eq_ok] at h
    obtain ⟨⟨l1, t1, c1⟩, h1, ⟨l2, t2, c2⟩, h2, h3⟩ := h
    cases h3
    obtain ⟨hc, r, hl, hr⟩ := boundary_shape h1
    dsimp only at h2
    subst hc hl
    obtain ⟨la, ta, ca, lb, h4, h5, h6⟩ := expandList_append.1 h2
    have hs : ∀ j ∈ r, NoS j := by
      intro j hj
      obtain ⟨p, _, rfl⟩ := hr j hj; exact noS_rotate p
    obtain ⟨h7, h8⟩ := expandList_noS (ids_teleported core rot) hs h4
    subst h8
    obtain ⟨k, h9, h10⟩ := (ids_teleported core rot).s _ _ _ _ _ _ _ _ hc0 hi (expandList_single.1 h5)
    refine ⟨k, ?_, h10⟩
    have : introduced r = [] := by
      unfold introduced
      rw [List.flatMap_eq_nil_iff]
      intro j hj
      obtain ⟨p, _, rfl⟩ := hr j hj; rfl
    dsimp only
    rw [h6, introduced_append, h7, this, h9]; rfl

/-- Every way of compiling is one stage over the gate program. -/
theorem compiles_cases {m : Mode} {n : Nat} {ex : ExposedMap} {prog : List Gate} {out : List Instr} (h : Compiles m n ex prog out) :
    ∃ c', Delivers (stage idExpand (gateMachine m)) ((prog, []), (), []) n out c' ∨
      Delivers (stage (teleportedExpand (coreQubits n) true) (gateMachine m)) ((prog, []), (), []) n out c' ∨
      Delivers (stage (catalyticExpand (coreQubits n) m.loc true) (gateMachine m)) ((prog, []), (), []) n out c' ∨
      Delivers (stage (thenExpand boundaryExpand (teleportedExpand (coreQubits n) false)) (gateMachine m)) ((prog, []), (ex, ()), []) n out c' := by
  cases h with
  | plain fuel c h => exact ⟨c, Or.inl (delivers_gates_id.1 ((run_iff ..).1 h).1)⟩
  | teleported fuel c h => exact ⟨c, Or.inr (Or.inl ((run_iff ..).1 h).1)⟩
  | catalytic fuel c h => exact ⟨c, Or.inr (Or.inr (Or.inl ((run_iff ..).1 h).1))⟩
  | compact fuel c h => exact ⟨c, Or.inr (Or.inr (Or.inr ((stage_fusion boundary_ne (teleported_ne _ _)).1 ((run_iff ..).1 h).1)))⟩

namespace Spec

/-- **C11 (exact).** For every gate program, register size, mode and stage composition, the ids brought into
existence are, in order, the numbers following the register: `n, n+1, n+2, …`, wrapping at `2^32`. -/
theorem c11_ids (m : Mode) (n : Nat) (hn : n < 2 ^ 32) (ex : ExposedMap) (prog : List Gate) (out : List Instr) (h : Compiles m n ex prog out) :
    introduced out = (List.range (introduced out).length).map (fun j => (n + j) % 2 ^ 32) := by
  have key : ∃ k, introduced out = idsFrom n k := by
    obtain ⟨c', h | h | h | h⟩ := compiles_cases h
    · obtain ⟨k, h, _⟩ := ids_stage id_ne ids_id hn h; exact ⟨k, h⟩
    · obtain ⟨k, h, _⟩ := ids_stage (teleported_ne _ _) (ids_teleported _ _) hn h; exact ⟨k, h⟩
    · obtain ⟨k, h, _⟩ := ids_stage (catalytic_ne _ _ _) (ids_catalytic _ _ _) hn h; exact ⟨k, h⟩
    · obtain ⟨k, h, _⟩ := ids_stage (nonempty_then boundary_ne (teleported_ne _ _)) (ids_compact _ _) hn h; exact ⟨k, h⟩
  obtain ⟨k, hk⟩ := key
  rw [idsFrom_eq hn] at hk
  have : (introduced out).length = k := by rw [hk]; simp
  rw [this]; exact hk

/-- **C11.** Hence, as long as the ids fit in 32 bits, no generated id is a core qubit id and no id is
generated twice. -/
theorem c11_fresh (m : Mode) (n : Nat) (ex : ExposedMap) (prog : List Gate) (out : List Instr) (h : Compiles m n ex prog out)
    (hfit : n + (introduced out).length ≤ 2 ^ 32) (hn : n < 2 ^ 32) :
    (introduced out).Nodup ∧ ∀ x ∈ introduced out, n ≤ x := by
  have h1 := c11_ids m n hn ex prog out h
  generalize hk : (introduced out).length = k at *
  have h2 : introduced out = (List.range k).map (fun j => n + j) := by
    rw [h1]
    apply List.map_congr_left
    intro j hj
    simp at hj
    exact Nat.mod_eq_of_lt (by omega)
  rw [h2]
  constructor
  · exact List.pairwise_map.2 (List.Pairwise.imp (fun h => by omega) List.nodup_range)
  · intro x hx
    simp at hx; obtain ⟨j, _, rfl⟩ := hx; omega

/-- Two qubits, local instructions, catalytic S gates: a CNOT, a T gate and an S gate. -/
example : ∃ out, Compiles ⟨"q".toList, false, true⟩ 2 (fun _ => none)
    [.ctrl 0 (.basic 1 .X) .controlFirst .dedicated, .basic 1 .T, .basic 0 .S] out ∧ introduced out = [2, 3, 4, 5, 6, 7, 8, 9, 10, 11, 12, 13, 14, 15, 16] ∧
    2 + (introduced out).length ≤ 2 ^ 32 :=
  ⟨_, .catalytic 40 17 rfl, by decide, by decide⟩

/-- Compact layout: boundary rotations, then Y-state teleportation. -/
example : ∃ out, Compiles ⟨"q".toList, false, false⟩ 2 (fun q => if q < 2 then some ⟨false, true⟩ else none)
    [.ctrl 0 (.basic 1 .X) .controlFirst .nextToControl, .basic 1 .T, .basic 0 .S] out ∧ introduced out = [2, 3, 4, 5] :=
  ⟨_, .compact 40 6 rfl, by decide⟩

/-- C11: without the bound the claim fails. With a register of `2^32 - 1` qubits the second generated id is 0,
the id of a core qubit. -/
theorem c11_wraps_around : ∃ out, Compiles ⟨"q".toList, false, false⟩ (2 ^ 32 - 1) (fun _ => none)
    [.basic 1 .T, .basic 1 .T] out ∧ introduced out = [2 ^ 32 - 1, 0] :=
  ⟨_, .plain 40 1 rfl, by decide⟩

/-- C11: since no component checks gate indices against the register (C49), an id handed out for an ancilla
can be the index of a gate's qubit: here the ancilla of the CNOT is its own target. -/
theorem c11_out_of_register_collides : ∃ out, Compiles ⟨"q".toList, false, false⟩ 2 (fun _ => none)
    [.ctrl 0 (.basic 2 .X) .controlFirst .nextToControl] out ∧ introduced out = [2] :=
  ⟨_, .plain 40 3 rfl, by decide⟩

/-! ### C12: sources read from LLI -/

/-- Every id mentioned by an instruction. -/
def mentions (i : Instr) : List Nat :=
  uses i ++ introduces i ++ i.op.ids ++ match i.op with | .declare ids => ids | _ => []

/-- **C12, violated.** For a source of LLI instructions the first id is meant to lie above the ids of the
source, but computing it dereferences the end of the id set, whatever the ids are. -/
theorem c12_start_undefined (ids : List Nat) : lliStart ids = .ub := by
  unfold lliStart
  cases ids with
  | nil => rfl
  | cons a l => simp

end Spec

/-- Expansion of a list: generated ids come from the counter, in order. -/
theorem ids_list {τ : Type} {e : τ → Nat → Instr → Outcome (List Instr × τ × Nat)} (he : IdsOk e) {is : List Instr} {t : τ} {c : Nat} (hc : c < 2 ^ 32)
    {l : List Instr} {t' : τ} {c' : Nat} (h : expandList e t c is = .ok (l, t', c')) :
    ∃ k, (introduced l).Perm (introduced is ++ idsFrom c k) ∧ c' = adv c k := by
  induction is generalizing t c l with
  | nil => cases h; exact ⟨0, by simp [introduced, idsFrom], adv_zero hc⟩
  | cons i is ih =>
    simp only [expandList, Outcome.bind_eq_ok] at h
    obtain ⟨⟨l1, t1, c1⟩, h1, ⟨l2, t2, c2⟩, h2, h3⟩ := h
    cases h3
    by_cases hs : NoS i
    · obtain ⟨h4, h5⟩ := he.noS _ _ _ _ _ _ hs h1
      dsimp only at h5 h2
      subst h5
      obtain ⟨k, h6, h7⟩ := ih hc h2
      refine ⟨k, ?_, h7⟩
      rw [introduced_append, h4, show introduced (i :: is) = introduces i ++ introduced is by simp [introduced], List.append_assoc]
      exact h6.append_left _
    · have : ∃ q d, i.op = .sq q .S d := by
        unfold NoS at hs
        cases hop : i.op with
        | sq q o d => cases o <;> simp_all
        | _ => exact absurd (by simp [hop]) hs
      obtain ⟨q, d, hop⟩ := this
      obtain ⟨k, h4, h5⟩ := he.s _ _ _ _ _ _ _ _ hc hop h1
      dsimp only at h5 h2
      subst h5
      obtain ⟨k2, h6, h7⟩ := ih (adv_lt _ _) h2
      refine ⟨k + k2, ?_, by rw [h7, adv_adv]⟩
      rw [introduced_append, h4, show introduced (i :: is) = introduced is by simp [introduced, introduces, hop], idsFrom_append _ _ _ hc]
      refine (h6.append_left _).trans ?_
      rw [← List.append_assoc, ← List.append_assoc]
      exact List.perm_append_comm.append_right _

theorem c12_aux {τ : Type} {e : τ → Nat → Instr → Outcome (List Instr × τ × Nat)} (hne : NonemptyExp e) (he : IdsOk e) (src : List Instr) (t : τ) (c : Nat) (out : List Instr)
    (c' : Nat) (h : Delivers (stage e listMachine) (src, t, []) c out c')
    (habove : ∀ i ∈ src, ∀ x ∈ mentions i, x < c) (hfit : c + (introduced out).length ≤ 2 ^ 32) (hc : c < 2 ^ 32) :
    ∃ new, (introduced out).Perm (introduced src ++ new) ∧ new.Nodup ∧ ∀ x ∈ new, ∀ i ∈ src, x ∉ mentions i := by
  obtain ⟨t', h⟩ := (delivers_stage_list hne).1 h
  obtain ⟨k, h1, -⟩ := ids_list he hc h
  have hlen : k ≤ (introduced out).length := by
    rw [h1.length_eq, idsFrom_eq hc]; simp
  have h2 : idsFrom c k = (List.range k).map (fun j => c + j) := by
    rw [idsFrom_eq hc]
    apply List.map_congr_left
    intro j hj
    simp at hj
    exact Nat.mod_eq_of_lt (by omega)
  rw [h2] at h1
  refine ⟨_, h1, List.pairwise_map.2 (List.Pairwise.imp (fun h => by omega) List.nodup_range), ?_⟩
  intro x hx i hi hm
  have := habove i hi x hm
  simp at hx
  obtain ⟨j, _, rfl⟩ := hx
  omega

namespace Spec

/-- The stage compositions over an LLI source, started with an empty queue (slicer.cpp:386-397, 445-515). -/
inductive InjectsInto (core : List Nat) (loc : Bool) (start : Nat) (exposed : ExposedMap) (src out : List Instr) : Prop
  | teleported (fuel c) (h : (stage (teleportedExpand core true) listMachine).run fuel (src, (), []) start = .ok (out, true, c))
  | catalytic (fuel c) (h : (stage (catalyticExpand core loc true) listMachine).run fuel (src, (), []) start = .ok (out, true, c))
  | compact (fuel c) (h : (stage (teleportedExpand core false) (stage boundaryExpand listMachine)).run fuel ((src, exposed, []), (), []) start = .ok (out, true, c))

/-- **C12 (partial).** If the counter starts above every id mentioned in the source — which the code fails to
arrange — the injected instructions introduce only ids that are new and different from each other. Missing: the
start value itself. -/
theorem c12_partial (core : List Nat) (loc : Bool) (start : Nat) (ex : ExposedMap) (src out : List Instr) (h : InjectsInto core loc start ex src out)
    (habove : ∀ i ∈ src, ∀ x ∈ mentions i, x < start) (hfit : start + (introduced out).length ≤ 2 ^ 32) (hs : start < 2 ^ 32) :
    ∃ new, (introduced out).Perm (introduced src ++ new) ∧ new.Nodup ∧ ∀ x ∈ new, ∀ i ∈ src, x ∉ mentions i := by
  cases h with
  | teleported fuel c h => exact c12_aux (teleported_ne _ _) (ids_teleported _ _) src _ _ out c ((run_iff ..).1 h).1 habove hfit hs
  | catalytic fuel c h => exact c12_aux (catalytic_ne _ _ _) (ids_catalytic _ _ _) src _ _ out c ((run_iff ..).1 h).1 habove hfit hs
  | compact fuel c h =>
    exact c12_aux (nonempty_then boundary_ne (teleported_ne _ _)) (ids_compact _ _) src (ex, ()) _ out c
      ((stage_fusion boundary_ne (teleported_ne _ _)).1 ((run_iff ..).1 h).1) habove hfit hs

/-- Two S gates on declared patches 3 and 7, counter started at 8. -/
example : ∃ out, InjectsInto [3, 7] false 8 (fun _ => none) [plain (.declare [3, 7]), plain (.sq 3 .S false), plain (.sq 7 .S false)] out ∧
    introduced out = [8, 9] ∧ ∀ i ∈ [plain (.declare [3, 7]), plain (.sq 3 .S false), plain (.sq 7 .S false)], ∀ x ∈ mentions i, x < 8 :=
  ⟨_, .teleported 20 10 rfl, by decide, by decide⟩

/-- C12: the hypothesis is needed. Started at a value that is not above the declared ids, the very first
S gate on a core patch claims that id. -/
theorem c12_bad_start_collides (core : List Nat) (q start : Nat) (hq : q ∈ core) (d : Bool) (rest out : List Instr) (fuel c : Nat)
    (h : (stage (teleportedExpand core true) listMachine).run fuel (plain (.sq q .S d) :: rest, (), []) start = .ok (out, true, c)) :
    ∃ more, introduced out = start :: more := by
  obtain ⟨t', h⟩ := (delivers_stage_list (teleported_ne _ _)).1 ((run_iff ..).1 h).1
  simp only [expandList, Outcome.bind_eq_ok] at h
  obtain ⟨⟨l1, t1, c1⟩, h1, ⟨l2, t2, c2⟩, h2, h3⟩ := h
  cases h3
  simp only [teleportedExpand, plain, if_pos hq, newId] at h1
  cases h1
  exact ⟨_, by simp only [introduced_append]; rfl⟩

end Spec
end Verif.Stream
