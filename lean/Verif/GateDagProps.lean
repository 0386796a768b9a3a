import Verif.Dot
import Verif.DagProps
import Verif.Quantum

/-!
# C70: the graph of the gates
-/

namespace Verif.Dag
open Verif.Gates

variable {I : Type}

theorem linkNewM_eq {comm : I → I → Outcome Bool} {c : I → I → Bool} {instr : Nat → Option I} {new : Nat} : ∀ (es : List Nat) (g : Graph),
    (∀ e ∈ es, ∀ a b, instr e = some a → instr new = some b → comm a b = .ok (c a b)) → DDag.linkNewM comm instr new g es = DDag.linkNew c instr new g es
  | [], _, _ => rfl
  | e :: es, g, h => by
    have ih := fun g => linkNewM_eq es g (fun x hx => h x (by simp [hx]))
    unfold DDag.linkNewM DDag.linkNew
    split
    · exact ih g
    · cases h1 : instr e with
      | none => rfl
      | some a =>
        cases h2 : instr new with
        | none => rfl
        | some b =>
          simp only [h e (by simp) a b h1 h2, Outcome.bind_ok]
          rw [ih, ih]

theorem pushM_eq {comm : I → I → Outcome Bool} {c : I → I → Bool} {d : DDag I} {i : I}
    (h : ∀ a, (a = i ∨ ∃ e, d.instr e = some a) → comm a i = .ok (c a i)) : DDag.pushM comm d i = DDag.push c d i := by
  unfold DDag.pushM DDag.push DDag.addIsolated
  dsimp only
  cases ho : (d.graph.addNode d.next).topoOrder with
  | none => rfl
  | some order =>
    dsimp only
    rw [linkNewM_eq (c := c)]
    intro e _ a b ha hb
    simp only [upd_same, Option.some.injEq] at hb
    subst hb
    by_cases he : e = d.next
    · subst he; simp only [upd_same, Option.some.injEq] at ha; exact h a (Or.inl ha.symm)
    · rw [upd_other _ _ he] at ha; exact h a (Or.inr ⟨e, ha⟩)

theorem pushAllM_eq {comm : I → I → Outcome Bool} {c : I → I → Bool} : ∀ (Q P : List I) (d : DDag I), Built c P d →
    (∀ a ∈ P ++ Q, ∀ b ∈ P ++ Q, comm a b = .ok (c a b)) → DDag.pushAllM comm d Q = DDag.pushAll c d Q
  | [], _, _, _, _ => rfl
  | i :: Q, P, d, hb, h => by
    have e : DDag.pushM comm d i = DDag.push c d i := by
      refine pushM_eq fun a ha => h a ?_ i (by simp)
      rcases ha with rfl | ⟨e, he⟩
      · simp
      · rw [hb.instr] at he
        exact List.mem_append_left _ (List.mem_of_getElem? he)
    obtain ⟨d1, h1, hb1⟩ := built_push c hb i
    rw [DDag.pushAllM, DDag.pushAll, e, h1, Outcome.bind_ok, Outcome.bind_ok]
    exact pushAllM_eq Q (P ++ [i]) d1 hb1 (by simpa using h)

/-- Comparing with any other throws. -/
theorem linkNewM_throws {comm : I → I → Outcome Bool} {instr : Nat → Option I} {new : Nat} {b : I} (hb : instr new = some b)
    (h : ∀ a, (∃ e, e ≠ new ∧ instr e = some a) → comm a b = .throws) : ∀ (es : List Nat) (g : Graph), (∃ e ∈ es, e ≠ new) →
    DDag.linkNewM comm instr new g es = .throws
  | [], _, he => by obtain ⟨e, he, _⟩ := he; simp at he
  | e :: es, g, he => by
    unfold DDag.linkNewM
    split
    · rename_i hn
      refine linkNewM_throws hb h es g ?_
      obtain ⟨x, hx, hx'⟩ := he
      rcases List.mem_cons.1 hx with rfl | hx
      · exact absurd hn hx'
      · exact ⟨x, hx, hx'⟩
    · rename_i hn
      cases h1 : instr e with
      | none => rfl
      | some a => simp only [hb, h a ⟨e, hn, h1⟩, Outcome.bind_throws]

theorem pushM_throws {comm : I → I → Outcome Bool} {c : I → I → Bool} {P : List I} {d : DDag I} {i : I} (hb : Built c P d) (hne : P ≠ [])
    (h : ∀ a ∈ P, comm a i = .throws) : DDag.pushM comm d i = .throws := by
  have hw1 := hb.wf.addNode d.next
  have hac : (d.graph.addNode d.next).Acyclic := acyclic_of_lt (fun x y e => by
    rw [Verif.Dag.edge_addNode] at e; exact ((hb.edge x y).1 e).1)
  obtain ⟨o, ho, _, hmem, _⟩ := Verif.Dag.topoOrder_spec hw1 hac
  have h0 : 0 < P.length := List.length_pos_iff.2 hne
  unfold DDag.pushM DDag.addIsolated
  dsimp only
  rw [ho]
  dsimp only
  rw [linkNewM_throws (b := i) (upd_same _ _ _), Outcome.bind_throws]
  · rintro a ⟨e, he, ha⟩
    rw [upd_other _ _ he, hb.instr] at ha
    exact h a (List.mem_of_getElem? ha)
  · refine ⟨0, ?_, by rw [hb.next]; omega⟩
    rw [hmem, Verif.Dag.mem_addNode]
    exact Or.inl ((hb.nodes 0).2 h0)

end Verif.Dag

namespace Verif.Gates

/-- The comparison of gates that are not resets. -/
def comm (a b : Gate) : Bool :=
  match a.canCommute b with
  | .ok c => c
  | _ => false

theorem canCommute_ok {a b : Gate} (ha : ∀ r q, a ≠ .reset r q) (hb : ∀ r q, b ≠ .reset r q) : a.canCommute b = .ok (comm a b) := by
  cases a <;> cases b <;> first | exact absurd rfl (ha _ _) | exact absurd rfl (hb _ _) | skip
  all_goals try rfl
  unfold comm Gate.canCommute
  dsimp only
  split <;> rfl

theorem canCommute_reset_right (a : Gate) (r : Str) (q : Nat) : a.canCommute (.reset r q) = .throws := by
  cases a <;> rfl

theorem canCommute_reset_left (b : Gate) (r : Str) (q : Nat) : (Gate.reset r q).canCommute b = .throws := by
  cases b <;> rfl

theorem apartSets_iff {a b : List Nat} : apartSets a b = true ↔ ∀ q, q ∈ a → q ∉ b := by
  unfold apartSets
  rw [List.isEmpty_iff, List.filter_eq_nil_iff]
  simp

end Verif.Gates

namespace Verif.Gates.Spec
open Verif.Dag Verif.Dag.Spec Verif.Quantum

/-! ## Specification -/

/-- The qubits of a gate. -/
def qubits : Gate → List Nat
  | .basic q _ => [q]
  | .rz q _ => [q]
  | .ctrl c t _ _ => [c, t.qubit]
  | .reset _ q => [q]

/-- Two gates have to stay in order: they have a qubit in common, and it is not only that both have the same control. -/
def Clash (a b : Gate) : Prop :=
  (∃ q, q ∈ qubits a ∧ q ∈ qubits b) ∧
    ¬ ∃ c t ty pl t' ty' pl', a = .ctrl c t ty pl ∧ b = .ctrl c t' ty' pl' ∧ t.qubit ≠ t'.qubit

def IsReset (g : Gate) : Prop := ∃ r q, g = .reset r q

/-- What the gates do: any matrix for each kind of gate on one qubit, and anything at all for a reset. -/
structure Meaning (K : Type) where
  basic : BasicType → Bool → Bool → K
  rz : Frac → Bool → Bool → K
  reset : Nat → Vec Nat K → Vec Nat K

variable {K : Type} [Field K]

/-- A matrix applied to one qubit. -/
def matOn (U : Bool → Bool → K) (q : Nat) (v : Vec Nat K) : Vec Nat K := fun b => U (b q) false * v (upd b q false) + U (b q) true * v (upd b q true)

def Meaning.single (M : Meaning K) : SingleGate → Vec Nat K → Vec Nat K
  | .basic q t => matOn (M.basic t) q
  | .rz q f => matOn (M.rz f) q

/-- The state after a gate. A controlled gate acts where the control is one. -/
def Meaning.gate (M : Meaning K) : Gate → Vec Nat K → Vec Nat K
  | .basic q t => matOn (M.basic t) q
  | .rz q f => matOn (M.rz f) q
  | .ctrl c t _ _ => fun v b => if b c then M.single t v b else v b
  | .reset _ q => M.reset q

def Meaning.run (M : Meaning K) (gs : List Gate) (v : Vec Nat K) : Vec Nat K := gs.foldl (fun v g => M.gate g v) v

/-- A gate is controlled by another qubit than it acts on. -/
def Distinct : Gate → Prop
  | .ctrl c t _ _ => c ≠ t.qubit
  | _ => True

end Verif.Gates.Spec

namespace Verif.Gates
open Verif.Dag Verif.Dag.Spec Verif.Quantum Spec

theorem upd_swap {α : Type} (b : Nat → α) {p q : Nat} (h : p ≠ q) (x y : α) : upd (upd b p x) q y = upd (upd b q y) p x := by
  funext k
  by_cases h1 : k = q
  · subst h1
    rw [upd_same, upd_other _ _ (Ne.symm h), upd_same]
  · by_cases h2 : k = p
    · subst h2; rw [upd_other _ _ h1, upd_same, upd_same]
    · rw [upd_other _ _ h1, upd_other _ _ h2, upd_other _ _ h2, upd_other _ _ h1]

variable {K : Type} [Field K]

theorem matOn_comm (U V : Bool → Bool → K) {p q : Nat} (h : p ≠ q) (v : Vec Nat K) : matOn U p (matOn V q v) = matOn V q (matOn U p v) := by
  funext b
  simp only [matOn, upd_other _ _ h, upd_other _ _ (Ne.symm h), upd_swap b h]
  ring

/-- The gate on one qubit, if the condition on the other qubits holds. -/
def guarded (P : (Nat → Bool) → Bool) (U : Bool → Bool → K) (q : Nat) (v : Vec Nat K) : Vec Nat K := fun b => if P b then matOn U q v b else v b

/-- Two guarded gates commute when their qubits differ and neither guard looks at the qubit of the other. -/
theorem guarded_comm {P Q : (Nat → Bool) → Bool} (U V : Bool → Bool → K) {p q : Nat} (h : p ≠ q) (hP : ∀ b x, P (upd b q x) = P b) (hQ : ∀ b x, Q (upd b p x) = Q b)
    (v : Vec Nat K) : guarded P U p (guarded Q V q v) = guarded Q V q (guarded P U p v) := by
  funext b
  cases h1 : P b <;> cases h2 : Q b <;>
    simp [guarded, matOn, h1, h2, hP, hQ, upd_other _ _ h, upd_other _ _ (Ne.symm h), upd_swap b h]
  ring

theorem gate_guarded (M : Meaning K) (g : Gate) (hr : ¬ IsReset g) (hp : Distinct g) : ∃ (P : (Nat → Bool) → Bool) (U : Bool → Bool → K) (q : Nat),
    M.gate g = guarded P U q ∧
    match g with
    | .ctrl c t _ _ => q = t.qubit ∧ (∀ b, P b = b c)
    | .basic t _ => q = t ∧ ∀ b, P b = true
    | .rz t _ => q = t ∧ ∀ b, P b = true
    | .reset _ _ => True := by
  cases g with
  | basic q t => exact ⟨fun _ => true, M.basic t, q, by funext v b; simp [guarded, Meaning.gate], rfl, fun _ => rfl⟩
  | rz q f => exact ⟨fun _ => true, M.rz f, q, by funext v b; simp [guarded, Meaning.gate], rfl, fun _ => rfl⟩
  | ctrl c t ty pl =>
    cases t with
    | basic q t => exact ⟨fun b => b c, M.basic t, q, by funext v b; simp [guarded, Meaning.gate, Meaning.single], rfl, fun _ => rfl⟩
    | rz q f => exact ⟨fun b => b c, M.rz f, q, by funext v b; simp [guarded, Meaning.gate, Meaning.single], rfl, fun _ => rfl⟩
  | reset r q => exact absurd ⟨r, q, rfl⟩ hr

theorem comm_iff {a b : Gate} (ha : ¬ IsReset a) (hb : ¬ IsReset b) : comm a b = true ↔ ¬ Clash a b := by
  have hs : ∀ {c : Nat} {l : List Nat} {x : Nat}, x ∈ oset l c ↔ x ∈ l ∨ x = c := fun {c l x} => mem_oset
  unfold comm Clash
  cases a with
  | reset r q => exact absurd ⟨r, q, rfl⟩ ha
  | basic q t =>
    cases b with
    | reset r q => exact absurd ⟨r, q, rfl⟩ hb
    | _ => simp [Gate.canCommute, Gate.operating, apartSets_iff, qubits, hs]
  | rz q f =>
    cases b with
    | reset r q => exact absurd ⟨r, q, rfl⟩ hb
    | _ => simp [Gate.canCommute, Gate.operating, apartSets_iff, qubits, hs]
  | ctrl c t ty pl =>
    cases b with
    | reset r q => exact absurd ⟨r, q, rfl⟩ hb
    | basic q f => simp [Gate.canCommute, Gate.operating, apartSets_iff, qubits, hs]; omega
    | rz q f => simp [Gate.canCommute, Gate.operating, apartSets_iff, qubits, hs]; omega
    | ctrl c' t' ty' pl' =>
      by_cases hc : c = c'
      · subst hc
        simp [Gate.canCommute, apartSets_iff, qubits]
      · simp [Gate.canCommute, apartSets_iff, qubits, hs, hc]; omega

/-- Gates without a clash commute. -/
theorem gate_comm (M : Meaning K) {a b : Gate} (ha : ¬ IsReset a) (hb : ¬ IsReset b) (pa : Distinct a) (pb : Distinct b) (h : ¬ Clash a b) (v : Vec Nat K) :
    M.gate a (M.gate b v) = M.gate b (M.gate a v) := by
  obtain ⟨P, U, p, e1, s1⟩ := gate_guarded M a ha pa
  obtain ⟨Q, V, q, e2, s2⟩ := gate_guarded M b hb pb
  rw [e1, e2]
  have key : p ≠ q ∧ (∀ b x, P (upd b q x) = P b) ∧ ∀ b x, Q (upd b p x) = Q b := by
    unfold Clash at h
    cases a with
    | reset r q => exact absurd ⟨r, q, rfl⟩ ha
    | basic t k =>
      obtain ⟨rfl, s1⟩ := s1
      cases b with
      | reset r q => exact absurd ⟨r, q, rfl⟩ hb
      | basic t' k' => obtain ⟨rfl, s2⟩ := s2; simp [qubits] at h; exact ⟨by omega, fun b x => by rw [s1, s1], fun b x => by rw [s2, s2]⟩
      | rz t' k' => obtain ⟨rfl, s2⟩ := s2; simp [qubits] at h; exact ⟨by omega, fun b x => by rw [s1, s1], fun b x => by rw [s2, s2]⟩
      | ctrl c t' _ _ =>
        obtain ⟨rfl, s2⟩ := s2
        simp [qubits] at h
        exact ⟨by omega, fun b x => by rw [s1, s1], fun b x => by rw [s2, s2, upd_other _ _ (by omega)]⟩
    | rz t k =>
      obtain ⟨rfl, s1⟩ := s1
      cases b with
      | reset r q => exact absurd ⟨r, q, rfl⟩ hb
      | basic t' k' => obtain ⟨rfl, s2⟩ := s2; simp [qubits] at h; exact ⟨by omega, fun b x => by rw [s1, s1], fun b x => by rw [s2, s2]⟩
      | rz t' k' => obtain ⟨rfl, s2⟩ := s2; simp [qubits] at h; exact ⟨by omega, fun b x => by rw [s1, s1], fun b x => by rw [s2, s2]⟩
      | ctrl c t' _ _ =>
        obtain ⟨rfl, s2⟩ := s2
        simp [qubits] at h
        exact ⟨by omega, fun b x => by rw [s1, s1], fun b x => by rw [s2, s2, upd_other _ _ (by omega)]⟩
    | ctrl c t ty pl =>
      obtain ⟨rfl, s1⟩ := s1
      cases b with
      | reset r q => exact absurd ⟨r, q, rfl⟩ hb
      | basic t' k' =>
        obtain ⟨rfl, s2⟩ := s2
        simp [qubits] at h
        exact ⟨by omega, fun b x => by rw [s1, s1, upd_other _ _ (by omega)], fun b x => by rw [s2, s2]⟩
      | rz t' k' =>
        obtain ⟨rfl, s2⟩ := s2
        simp [qubits] at h
        exact ⟨by omega, fun b x => by rw [s1, s1, upd_other _ _ (by omega)], fun b x => by rw [s2, s2]⟩
      | ctrl c' t' ty' pl' =>
        obtain ⟨rfl, s2⟩ := s2
        simp only [Distinct] at pa pb
        by_cases hc : c = c'
        · subst hc
          simp [qubits] at h
          exact ⟨h, fun b x => by rw [s1, s1, upd_other _ _ pb], fun b x => by rw [s2, s2, upd_other _ _ pa]⟩
        · simp [qubits, hc] at h
          exact ⟨by omega, fun b x => by rw [s1, s1, upd_other _ _ (by omega)], fun b x => by rw [s2, s2, upd_other _ _ (by omega)]⟩
  exact guarded_comm U V key.1 key.2.1 key.2.2 v

/-! ## Orders that keep the arrows -/

/-- `i` stands before `j`. -/
def Before (l : List Nat) (i j : Nat) : Prop := ∃ l1 l2 l3, l = l1 ++ i :: l2 ++ j :: l3

/-- Moving one operation to the end, past those it commutes with. -/
theorem fold_move {V : Type} (f : Nat → V → V) (n : Nat) : ∀ (l2 : List Nat) (v : V), (∀ y ∈ l2, ∀ v, f y (f n v) = f n (f y v)) →
    l2.foldl (fun v i => f i v) (f n v) = f n (l2.foldl (fun v i => f i v) v)
  | [], _, _ => rfl
  | y :: l2, v, h => by
    simp only [List.foldl_cons]
    rw [h y (by simp), fold_move f n l2 _ (fun z hz => h z (by simp [hz]))]

/-- Any order of `0 … n-1` in which operations that do not commute keep their order has the same effect. -/
theorem fold_order {V : Type} (f : Nat → V → V) : ∀ (n : Nat) (l : List Nat), l.Perm (List.range n) →
    (∀ l1 j l2, l = l1 ++ j :: l2 → ∀ i ∈ l2, i < j → ∀ v, f i (f j v) = f j (f i v)) → ∀ v,
    l.foldl (fun v i => f i v) v = (List.range n).foldl (fun v i => f i v) v
  | 0, l, hp, _, v => by
    have : l = [] := by simpa using hp
    subst this; rfl
  | n + 1, l, hp, h, v => by
    have hn : n ∈ l := hp.symm.subset (by simp)
    obtain ⟨l1, l2, rfl⟩ := List.append_of_mem hn
    have hp' : (l1 ++ l2).Perm (List.range n) := by
      have e1 : (n :: (l1 ++ l2)).Perm (List.range (n + 1)) := List.perm_middle.symm.trans hp
      rw [List.range_succ] at e1
      exact List.Perm.cons_inv (e1.trans (List.perm_append_comm (l₁ := List.range n) (l₂ := [n])))
    have hlt : ∀ y ∈ l2, y < n := fun y hy => List.mem_range.1 (hp'.subset (by simp [hy]))
    rw [List.range_succ, List.foldl_append, List.foldl_append, List.foldl_cons, fold_move f n l2 _ (fun y hy => h l1 n l2 rfl y hy (hlt y hy))]
    simp only [List.foldl_cons, List.foldl_nil]
    congr 1
    rw [← List.foldl_append]
    refine fold_order f n (l1 ++ l2) hp' ?_ v
    intro m1 j m2 e i hi hij w
    rcases List.append_eq_append_iff.1 e with ⟨a, e1, e2⟩ | ⟨a, e1, e2⟩
    · subst e1
      exact h (l1 ++ n :: a) j m2 (by rw [e2]; simp) i hi hij w
    · cases a with
      | nil =>
        simp only [List.nil_append] at e2
        exact h (l1 ++ [n]) j m2 (by rw [← e2]; simp) i hi hij w
      | cons x a =>
        simp only [List.cons_append, List.cons.injEq] at e2
        obtain ⟨rfl, e2⟩ := e2
        rw [e2] at hi
        rcases List.mem_append.1 hi with hi | hi
        · exact h m1 j (a ++ n :: l2) (by rw [e1]; simp) i (by simp [hi]) hij w
        · exact h m1 j (a ++ n :: l2) (by rw [e1]; simp) i (by simp [hi]) hij w

/-- The gates at the given positions. -/
def pick (gs : List Gate) (l : List Nat) : List Gate := l.filterMap (fun k => gs[k]?)

theorem run_pick (M : Meaning K) (gs : List Gate) : ∀ (l : List Nat) (v : Vec Nat K),
    M.run (pick gs l) v = l.foldl (fun v i => match gs[i]? with | some g => M.gate g v | none => v) v
  | [], _ => rfl
  | i :: l, v => by
    have ih := run_pick M gs l
    unfold pick Meaning.run at ih ⊢
    cases h : gs[i]? with
    | none => rw [List.filterMap_cons_none h, List.foldl_cons, h]; exact ih v
    | some g => rw [List.filterMap_cons_some h, List.foldl_cons, List.foldl_cons, h]; exact ih _

theorem pick_range (gs : List Gate) : pick gs (List.range gs.length) = gs := by
  unfold pick
  induction gs with
  | nil => rfl
  | cons g gs ih =>
    rw [List.length_cons, List.range_succ_eq_map, List.filterMap_cons_some (by rfl : (fun k => (g :: gs)[k]?) 0 = some g), List.filterMap_map]
    exact congrArg (g :: ·) ih

theorem built_gates {gs : List Gate} (h : ∀ g ∈ gs, ¬ IsReset g) : ∃ d, gateDag gs = .ok d ∧ Built comm gs d := by
  obtain ⟨d, h1, h2⟩ := built_pushAll comm gs (built_empty comm)
  refine ⟨d, ?_, by simpa using h2⟩
  unfold gateDag
  rw [pushAllM_eq gs [] DDag.empty (built_empty comm), h1]
  intro a ha b hb
  exact canCommute_ok (fun r q e => h a (by simpa using ha) ⟨r, q, e⟩) (fun r q e => h b (by simpa using hb) ⟨r, q, e⟩)

end Verif.Gates

namespace Verif.Gates.Spec
open Verif.Dag Verif.Dag.Spec Verif.Quantum

variable {K : Type} [Field K]

/-- **C70 (commuting gates)**. Two gates that the code takes to commute do commute, whatever the gates on one qubit are. -/
theorem c70_commute (M : Meaning K) (a b : Gate) (h : a.canCommute b = .ok true) (pa : Distinct a) (pb : Distinct b) (v : Vec Nat K) :
    M.gate a (M.gate b v) = M.gate b (M.gate a v) := by
  have ha : ¬ IsReset a := by rintro ⟨r, q, rfl⟩; rw [canCommute_reset_left] at h; cases h
  have hb : ¬ IsReset b := by rintro ⟨r, q, rfl⟩; rw [canCommute_reset_right] at h; cases h
  refine gate_comm M ha hb pa pb ((comm_iff ha hb).1 ?_) v
  rw [canCommute_ok (fun r q e => ha ⟨r, q, e⟩) (fun r q e => hb ⟨r, q, e⟩)] at h
  exact Outcome.ok.inj h

/-- Two CNOTs with the same control, and with different ones. -/
example : (cnot 1 0 .controlFirst .dedicated).canCommute (cnot 2 0 .controlFirst .dedicated) = .ok true ∧
    (cnot 1 0 .controlFirst .dedicated).canCommute (cnot 0 2 .controlFirst .dedicated) = .ok false ∧
    (cnot 1 0 .controlFirst .dedicated).canCommute (.basic 2 .H) = .ok true ∧ Distinct (cnot 1 0 .controlFirst .dedicated) :=
  ⟨rfl, rfl, rfl, by simp [Distinct, cnot, SingleGate.qubit]⟩

/-- **C70 (the graph)**. For programs without resets the graph is made; its nodes are the positions of the gates, and there is an arrow from `i` to `j` exactly when
gate `i` comes before gate `j` and the two have to stay in order. -/
theorem c70_graph_partial (gs : List Gate) (h : ∀ g ∈ gs, ¬ IsReset g) :
    ∃ d, gateDag gs = .ok d ∧ (∀ k, k ∈ d.graph.nodes ↔ k < gs.length) ∧ (∀ k, d.instr k = gs[k]?) ∧
      ∀ i j, ListedSucc d.graph i j ↔ i < j ∧ ∃ a b, gs[i]? = some a ∧ gs[j]? = some b ∧ Clash a b := by
  obtain ⟨d, h1, h2⟩ := built_gates h
  refine ⟨d, h1, h2.nodes, h2.instr, fun i j => ?_⟩
  rw [listedSucc_iff, h2.edge]
  have : ∀ a b, gs[i]? = some a → gs[j]? = some b → (comm a b = false ↔ Clash a b) := by
    intro a b ha hb
    have := comm_iff (h a (List.mem_of_getElem? ha)) (h b (List.mem_of_getElem? hb))
    rw [← Bool.not_eq_true, this, not_not]
  constructor
  · rintro ⟨hij, a, b, ha, hb, hc⟩; exact ⟨hij, a, b, ha, hb, (this a b ha hb).1 hc⟩
  · rintro ⟨hij, a, b, ha, hb, hc⟩; exact ⟨hij, a, b, ha, hb, (this a b ha hb).2 hc⟩

/-- **C70 (negation)**. With a reset among two or more gates no graph is made: comparing a reset with anything throws. -/
theorem c70_reset_throws (gs : List Gate) (h2 : 2 ≤ gs.length) (h : ∃ g ∈ gs, IsReset g) : gateDag gs = .throws := by
  have first : ∀ (l : List Gate), (∃ g ∈ l, IsReset g) → ∃ pre g post, l = pre ++ g :: post ∧ IsReset g ∧ ∀ x ∈ pre, ¬ IsReset x := by
    intro l
    induction l with
    | nil => rintro ⟨g, hg, _⟩; simp at hg
    | cons x l ih =>
      intro hl
      by_cases hx : IsReset x
      · exact ⟨[], x, l, rfl, hx, by simp⟩
      · obtain ⟨g, hg, hr⟩ := hl
        rcases List.mem_cons.1 hg with rfl | hg
        · exact absurd hr hx
        · obtain ⟨pre, g', post, e, h1, h2⟩ := ih ⟨g, hg, hr⟩
          exact ⟨x :: pre, g', post, by rw [e]; rfl, h1, by intro y hy; rcases List.mem_cons.1 hy with rfl | hy; exact hx; exact h2 y hy⟩
  have app : ∀ (a b : List Gate) (d d1 : DDag Gate), DDag.pushAllM Gate.canCommute d a = .ok d1 →
      DDag.pushAllM Gate.canCommute d (a ++ b) = DDag.pushAllM Gate.canCommute d1 b := by
    intro a
    induction a with
    | nil => intro b d d1 e; cases e; rfl
    | cons x a ih =>
      intro b d d1 e
      simp only [DDag.pushAllM, List.cons_append, Outcome.bind_eq_ok] at e ⊢
      obtain ⟨d2, e1, e2⟩ := e
      rw [e1, Outcome.bind_ok]
      exact ih b d2 d1 e2
  obtain ⟨pre, g, post, rfl, ⟨r, q, rfl⟩, hpre⟩ := first gs h
  unfold gateDag
  obtain ⟨d, hd, hb⟩ := built_gates hpre
  rw [app _ _ _ _ hd, DDag.pushAllM]
  by_cases hne : pre = []
  · subst hne
    cases post with
    | nil => simp at h2
    | cons b post =>
      cases hd
      have e1 : DDag.pushM Gate.canCommute DDag.empty (.reset r q) = DDag.push (fun _ _ => false) DDag.empty (.reset r q) := by
        rfl
      obtain ⟨d1, h3, h4⟩ := built_push (fun _ _ => false) (built_empty (I := Gate) _) (.reset r q)
      rw [e1, h3, Outcome.bind_ok, DDag.pushAllM, pushM_throws h4 (by simp) (by
        intro a ha; simp at ha; subst ha; exact canCommute_reset_left _ _ _), Outcome.bind_throws]
  · rw [pushM_throws hb hne (fun a _ => canCommute_reset_right a r q), Outcome.bind_throws]

example : gateDag [.basic 0 .H, .reset ['q'] 1] = .throws := c70_reset_throws _ (by decide) ⟨.reset ['q'] 1, by simp, _, _, rfl⟩

/-- **C70 (orders)**. Carrying out the gates in any order in which no arrow of the graph points back gives the same state as the program, whatever the gates on one qubit are. -/
theorem c70_orders (M : Meaning K) (gs : List Gate) (hp : ∀ g ∈ gs, Distinct g) (d : DDag Gate) (hd : gateDag gs = .ok d)
    (l : List Nat) (hl : l.Perm (List.range gs.length)) (ho : ∀ l1 j l2, l = l1 ++ j :: l2 → ∀ i ∈ l2, ¬ ListedSucc d.graph i j) (v : Vec Nat K) :
    M.run (l.filterMap fun k => gs[k]?) v = M.run gs v := by
  have e1 := run_pick M gs l v
  have e2 := run_pick M gs (List.range gs.length) v
  rw [pick_range] at e2
  unfold pick at e1
  rw [e1, e2]
  refine fold_order (fun i v => match gs[i]? with | some g => M.gate g v | none => v) gs.length l hl ?_ v
  intro l1 j l2 e i hi hij w
  have hj : j < gs.length := List.mem_range.1 (hl.subset (by rw [e]; simp))
  have hi' : i < gs.length := by omega
  rw [List.getElem?_eq_getElem hi', List.getElem?_eq_getElem hj]
  dsimp only
  have hr : ∀ g ∈ gs, ¬ IsReset g := by
    intro g hg hr
    rw [c70_reset_throws gs (by omega) ⟨g, hg, hr⟩] at hd
    cases hd
  obtain ⟨d', h1, _, _, h4⟩ := c70_graph_partial gs hr
  rw [hd] at h1; cases h1
  refine gate_comm M (hr _ (List.getElem_mem _)) (hr _ (List.getElem_mem _)) (hp _ (List.getElem_mem _)) (hp _ (List.getElem_mem _)) ?_ w
  intro hc
  exact ho l1 j l2 e i hi ((h4 i j).2 ⟨hij, _, _, List.getElem?_eq_getElem hi', List.getElem?_eq_getElem hj, hc⟩)

/-- **C70 (working off the graph)**. Taking ready gates out of the graph in any way until it is empty and carrying them out in that order gives the same state as the program. -/
theorem c70_work_off (M : Meaning K) (gs : List Gate) (hp : ∀ g ∈ gs, Distinct g) (hr : ∀ g ∈ gs, ¬ IsReset g) (d : DDag Gate) (hd : gateDag gs = .ok d)
    (ls : List Nat) (s : DRun Gate) (hs : (DRun.start d).acts (ls.map DAct.pop) = .ok s) (he : s.dag.graph.nodes = []) (v : Vec Nat K) :
    M.run (s.popped.filterMap fun k => gs[k]?) v = M.run gs v := by
  obtain ⟨d', h1, hb⟩ := built_gates hr
  rw [hd] at h1; cases h1
  have hd' : DDag.pushAll comm DDag.empty gs = .ok d := by
    obtain ⟨d1, e1, _⟩ := built_pushAll comm gs (built_empty comm)
    have := pushAllM_eq (comm := Gate.canCommute) gs [] DDag.empty (built_empty comm) (by
      intro a ha b hb
      exact canCommute_ok (fun r q e => hr a (by simpa using ha) ⟨r, q, e⟩) (fun r q e => hr b (by simpa using hb) ⟨r, q, e⟩))
    rw [← this]; exact hd
  have horig : ∀ (ls : List Nat) (s0 s1 : DRun Gate), s0.acts (ls.map DAct.pop) = .ok s1 → s1.origin = s0.origin := by
    intro ls
    induction ls with
    | nil => intro s0 s1 h; cases h; rfl
    | cons a ls ih =>
      intro s0 s1 h
      simp only [List.map_cons, DRun.acts, Outcome.bind_eq_ok] at h
      obtain ⟨s2, h4, h5⟩ := h
      rw [ih _ _ h5]
      simp only [DRun.act] at h4
      split at h4
      · simp only [Outcome.bind_eq_ok] at h4
        obtain ⟨d3, _, h6⟩ := h4
        cases h6; rfl
      · cases h4
  have hall : ∀ (ls : List Nat) (s0 s1 : DRun Gate), RunInv comm gs s0 → s0.acts (ls.map DAct.pop) = .ok s1 →
      ∀ x, (x ∈ s1.dag.graph.nodes ∨ x ∈ s1.popped) ↔ (x ∈ s0.dag.graph.nodes ∨ x ∈ s0.popped) := by
    intro ls
    induction ls with
    | nil => intro s0 s1 _ h; cases h; exact fun _ => Iff.rfl
    | cons a ls ih =>
      intro s0 s1 hI h
      simp only [List.map_cons, DRun.acts, Outcome.bind_eq_ok] at h
      obtain ⟨s2, h4, h5⟩ := h
      have h6 := ih s2 s1 (runInv_act hI h4) h5
      simp only [DRun.act] at h4
      split at h4
      · rename_i hl
        obtain ⟨d', e1, e2, e3, _⟩ := popHead_spec hI.wf hI.instr hl
        rw [e1] at h4; simp at h4; subst h4
        intro x
        rw [h6]
        simp only [e3, hI.wf.nodup.mem_erase_iff, List.mem_append, List.mem_singleton]
        by_cases hx : x = a
        · subst hx; simp [((mem_heads hI.wf).1 hl).1]
        · simp [hx]
      · simp at h4
  have hc := c19_count comm gs d hd' _ s hs
  have hperm : s.popped.Perm (List.range gs.length) := by
    refine (List.perm_ext_iff_of_nodup hc.2.1 List.nodup_range).2 fun x => ?_
    have := hall ls _ _ (runInv_start hb) hs x
    rw [he] at this
    simp only [DRun.start, hb.nodes, List.not_mem_nil, false_or, or_false] at this
    rw [this, List.mem_range]
  refine c70_orders M gs hp d hd s.popped hperm ?_ v
  intro l1 j l2 e i hi hsucc
  rw [listedSucc_iff, hb.edge] at hsucc
  obtain ⟨hij, a, b, ha, hb', hcm⟩ := hsucc
  have ho := horig _ _ _ hs
  exact (c18_order comm gs d hd' _ s hs i j a b ha hb' hij hcm).1 l1 j l2 e (by rw [ho]; rfl) i hi (by rw [ho]; rfl)

/-- Four gates, of which the second CNOT may be first. -/
example : ∃ d s, gateDag [.basic 1 .H, cnot 1 0 .controlFirst .dedicated, cnot 2 0 .controlFirst .dedicated, .rz 1 ⟨1, 8, false⟩] = .ok d ∧
    (DRun.start d).acts ([2, 0, 1, 3].map DAct.pop) = .ok s ∧ s.dag.graph.nodes = [] ∧ s.popped = [2, 0, 1, 3] :=
  ⟨_, _, rfl, rfl, by decide, by decide⟩

end Verif.Gates.Spec
