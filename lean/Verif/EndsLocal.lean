import Verif.EndsCnot

/-! # C69 for the slicer program with Bell pairs -/

namespace Verif.Ends

open Verif Apply Verif.Wave Verif.Wave.Spec Verif.Pipe Verif.Pipe.Spec Verif.Real Verif.Slices.Spec Verif.Course.Spec Verif.Ends.Spec

section
open Verif.Gates Verif.Stream Verif.Stream.Spec

/-! ### CNOTs compiled for gates on different qubits are between different patches -/

theorem apart_cnot {loc : Bool} {c x y : Nat} {ty : CnotType} {pl : Placement} {al : Bool} {l : List Instr} {c' : Nat} (hne : x ≠ y) (h : makeCnot loc c x y ty pl al = .ok (l, c')) : ∀ i ∈ l, Spec.Apart i := by
  unfold makeCnot at h
  split at h
  · dsimp only [newId] at h; split at h
    · cases h
    · cases h
      simp [Spec.Apart, hne]
  · cases h
    cases ty <;> cases al <;> simp [cnotMiddle, plain, Spec.Apart]

theorem apart_t {loc : Bool} {n c q : Nat} {l : List Instr} {c' : Nat} (hn : n ≤ c) (hq : q < n) (h : makeT loc c q = .ok (l, c')) : ∀ i ∈ l, Spec.Apart i := by
  unfold makeT at h
  dsimp only [newId] at h
  split at h
  · obtain ⟨⟨is, c1⟩, h1, h⟩ := Outcome.bind_eq_ok.1 h
    cases h
    have := apart_cnot (by omega) h1
    intro i hi
    simp only [List.mem_append, List.mem_cons, List.not_mem_nil, or_false] at hi
    rcases hi with (rfl | hi) | rfl | rfl
    · simp [Spec.Apart]
    · exact this i hi
    · simp [Spec.Apart, plain]
    · simp [Spec.Apart, plain]
  · cases h
    simp [Spec.Apart, plain]

theorem apart_gate {m : Mode} {n c : Nat} (hn : n ≤ c) {g : Gate} {is : List Instr} {c' : Nat} (h : compileGate m c g = .ok (is, c')) (hg : ∀ q ∈ gateQubits g, q < n) (hd : (gateQubits g).Nodup) :
    ∀ i ∈ is, Spec.Apart i := by
  match g, h with
  | .basic q .Z, h => cases h; simp [Spec.Apart, plain]
  | .basic q .X, h => cases h; simp [Spec.Apart, plain]
  | .basic q .Y, h => cases h; simp [Spec.Apart, plain]
  | .basic q .H, h => cases h; simp [Spec.Apart, plain]
  | .basic q .S, h => cases h; simp [Spec.Apart, plain]
  | .basic q .SDg, h => cases h; simp [Spec.Apart, plain]
  | .basic q .T, h => exact apart_t hn (hg q (by simp [gateQubits])) h
  | .basic q .TDg, h => exact apart_t hn (hg q (by simp [gateQubits])) h
  | .rz q f, h =>
    rw [compileGate] at h
    split at h
    · cases h; simp [Spec.Apart, plain]
    · split at h
      · cases h; simp [Spec.Apart, plain]
      · split at h
        · exact apart_t hn (hg q (by simp [gateQubits])) h
        · cases h
  | .reset r q, h =>
    rw [compileGate] at h
    split at h
    · cases h
    · cases h; simp [Spec.Apart, plain]
  | .ctrl a (.basic b .X) ty pl, h => exact apart_cnot (by simpa [gateQubits] using hd) h
  | .ctrl a (.basic b .Z) ty pl, h =>
    simp only [compileGate, Outcome.bind_eq_ok] at h
    obtain ⟨⟨l, c1⟩, h1, h2⟩ := h
    cases h2
    have := apart_cnot (by simpa [gateQubits] using hd) h1
    intro i hi
    simp only [List.mem_append, List.mem_cons, List.not_mem_nil, or_false] at hi
    rcases hi with (rfl | hi) | rfl
    · simp [Spec.Apart, plain]
    · exact this i hi
    · simp [Spec.Apart, plain]

/-- The injection stages keep it. -/
def ApartExp (n : Nat) {τ : Type} (e : τ → Nat → Instr → Outcome (List Instr × τ × Nat)) : Prop :=
  ∀ t c i l t' c', n ≤ c → e t c i = .ok (l, t', c') → Spec.Apart i → ∀ j ∈ l, Spec.Apart j

theorem apart_id {n : Nat} : ApartExp n idExpand := by
  intro t c i l t' c' _ h hi; cases h; simpa using hi

theorem apart_rotated {i j : Instr} {q : Nat} (hi : Spec.Apart i) (hj : j ∈ [i, plain (.rotate q)]) : Spec.Apart j := by
  simp only [List.mem_cons, List.not_mem_nil, or_false] at hj
  rcases hj with rfl | rfl
  · exact hi
  · simp [Spec.Apart, plain]

theorem apart_teleported {n : Nat} (core : List Nat) (rot : Bool) : ApartExp n (teleportedExpand core rot) := by
  intro t c i l t' c' _ h hi
  unfold teleportedExpand at h
  split at h
  · split at h
    · cases h
      simp [Spec.Apart, plain]
    · cases h; simpa using hi
  · split at h
    · cases h
      exact fun j hj => apart_rotated hi hj
    · cases h; simpa using hi
  · cases h; simpa using hi

theorem apart_catalytic {n : Nat} {loc : Bool} (rot : Bool) : ApartExp n (catalyticExpand (coreQubits n) loc rot) := by
  intro t c i l t' c' hc h hi
  unfold catalyticExpand at h
  split at h
  · split at h
    · rename_i hq
      simp only [Outcome.bind_eq_ok, newId] at h
      obtain ⟨⟨l1, c1⟩, h1, ⟨l2, c2⟩, h2, h3⟩ := h
      cases h3
      have hlt := hq
      simp only [coreQubits, List.mem_range] at hlt
      have e1 := apart_cnot (by omega) h1
      have e2 := apart_cnot (by omega) h2
      intro j hj
      simp only [List.mem_append, List.mem_cons, List.not_mem_nil, or_false] at hj
      rcases hj with (((rfl | hj) | rfl | rfl) | hj) | rfl | rfl | rfl
      · simp [Spec.Apart]
      · exact e1 j hj
      · simp [Spec.Apart, plain]
      · simp [Spec.Apart, plain]
      · exact e2 j hj
      · simp [Spec.Apart, plain]
      · simp [Spec.Apart, plain]
      · simp [Spec.Apart, plain]
    · cases h; simpa using hi
  · split at h
    · cases h
      exact fun j hj => apart_rotated hi hj
    · cases h; simpa using hi
  · cases h; simpa using hi

theorem apart_compact {n : Nat} (core : List Nat) (rot : Bool) : ApartExp n (thenExpand boundaryExpand (teleportedExpand core rot)) := by
  intro t c i l t' c' hc h hi
  simp only [thenExpand, Outcome.bind_eq_ok] at h
  obtain ⟨⟨l1, t1, c1⟩, h1, ⟨l2, t2, c2⟩, h2, h3⟩ := h
  cases h3
  obtain ⟨e, r, rfl, hr⟩ := boundary_shape h1
  have h4 : ∀ j ∈ r ++ [i], Spec.Apart j := by
    intro j hj
    rcases List.mem_append.1 hj with hj | hj
    · obtain ⟨p, -, rfl⟩ := hr j hj
      simp [Spec.Apart, plain]
    · rw [List.mem_singleton.1 hj]; exact hi
  clear hr h1
  have go : ∀ {is : List Instr} {t t' : Unit} {c c' : Nat} {l : List Instr}, expandList (teleportedExpand core rot) t c is = .ok (l, t', c') → (∀ i ∈ is, Spec.Apart i) → ∀ j ∈ l, Spec.Apart j := by
    intro is
    induction is with
    | nil => intro t t' c c' l h _; cases h; simp
    | cons i is ih =>
      intro t t' c c' l h hi
      simp only [expandList, Outcome.bind_eq_ok] at h
      obtain ⟨⟨l1, t1, c1⟩, h1, ⟨l2, t2, c2⟩, h2, h3⟩ := h
      cases h3
      intro j hj
      rcases List.mem_append.1 hj with hj | hj
      · exact apart_teleported (n := 0) core rot _ _ _ _ _ _ (Nat.zero_le _) h1 (hi i (by simp)) j hj
      · exact ih h2 (fun x hx => hi x (by simp [hx])) j hj
  exact go h2 h4

theorem apart_list {n : Nat} {τ : Type} {e : τ → Nat → Instr → Outcome (List Instr × τ × Nat)} (hi : IdsOk e) (he : ApartExp n e) {is : List Instr} (hns : ∀ i ∈ is, NoS i) (ha : ∀ i ∈ is, Spec.Apart i)
    {t t' : τ} {c c' : Nat} (hc : n ≤ c) {l : List Instr} (h : expandList e t c is = .ok (l, t', c')) : ∀ j ∈ l, Spec.Apart j := by
  induction is generalizing t l with
  | nil => cases h; simp
  | cons i is ih =>
    simp only [expandList, Outcome.bind_eq_ok] at h
    obtain ⟨⟨l1, t1, c1⟩, h1, ⟨l2, t2, c2⟩, h2, h3⟩ := h
    cases h3
    obtain ⟨_, hcc⟩ := hi.noS _ _ _ _ _ _ (hns i (by simp)) h1
    dsimp only at hcc h2
    subst hcc
    intro j hj
    rcases List.mem_append.1 hj with hj | hj
    · exact he _ _ _ _ _ _ hc h1 (ha i (by simp)) j hj
    · exact ih (fun x hx => hns x (by simp [hx])) (fun x hx => ha x (by simp [hx])) h2 j hj

theorem apart_stage {n : Nat} {τ : Type} {e : τ → Nat → Instr → Outcome (List Instr × τ × Nat)} (hne : NonemptyExp e) (hi : IdsOk e) (he : ApartExp n e) {m : Mode} {gs : List Gate}
    (hgs : InRegister n gs) (hdd : DistinctOperands gs) {t : τ} {out : List Instr} {c c' : Nat} (hc : n ≤ c) (hfit : c + (introduced out).length < 2 ^ 32)
    (h : Delivers (stage e (gateMachine m)) ((gs, []), t, []) c out c') : ∀ i ∈ out, Spec.Apart i := by
  induction gs generalizing t c out with
  | nil =>
    rw [delivers_stage_gates_nil hne] at h
    obtain ⟨rfl, rfl⟩ := h
    simp
  | cons g gs ih =>
    rw [delivers_stage_gates_cons hne] at h
    obtain ⟨is, c1, l, t', c2, out', h1, h2, rfl, h3⟩ := h
    have ha := apart_gate hc h1 (hgs g (by simp)) (hdd g (by simp))
    obtain ⟨pre, suf, rfl, hns, h5, k, hk, rfl⟩ := compile_shape (by omega) h1
    obtain ⟨l1, t1, c3, l2, h8, h9, rfl⟩ := expandList_append.1 h2
    obtain ⟨hI, rfl⟩ := expandList_noS hi hns h8
    rw [introduced_append, introduced_append, hI, hk, List.length_append, List.length_append] at hfit
    have hklen : (idsFrom c k).length = k := by rw [idsFrom_eq (by omega)]; simp
    rw [hklen] at hfit
    have hadv : adv c k = c + k := Nat.mod_eq_of_lt (by omega)
    rw [hadv] at h8 h9
    have a1 := apart_list hi he hns (fun i hi => ha i (by simp [hi])) (by omega) h8
    have hsuf : (∀ j ∈ l2, Spec.Apart j) ∧ c2 = c + k + (introduced l2).length := by
      rcases h5 with rfl | ⟨q, d, hq, rfl⟩
      · cases h9; exact ⟨by simp, rfl⟩
      · have h9 := expandList_single.1 h9
        obtain ⟨k2, e1, e2⟩ := hi.s _ _ _ _ _ _ _ _ (by omega) rfl h9
        have hk2 : (introduced l2).length = k2 := by rw [e1, idsFrom_eq (by omega)]; simp
        refine ⟨he _ _ _ _ _ _ (by omega) h9 (ha _ (by simp)), ?_⟩
        rw [e2, hk2]; exact Nat.mod_eq_of_lt (by omega)
    obtain ⟨a2, rfl⟩ := hsuf
    have a3 := ih (fun g hg => hgs g (by simp [hg])) (fun g hg => hdd g (by simp [hg])) (by omega) (by omega) h3
    intro j hj
    rcases List.mem_append.1 hj with hj | hj
    · rcases List.mem_append.1 hj with hj | hj
      · exact a1 j hj
      · exact a2 j hj
    · exact a3 j hj

theorem apart_compiled {m : Mode} {n : Nat} {ex : ExposedMap} {prog : List Gate} {out : List Instr} (h : Compiles m n ex prog out) (hreg : InRegister n prog) (hd : DistinctOperands prog)
    (hfit : n + (introduced out).length < 2 ^ 32) : ∀ i ∈ out, Spec.Apart i := by
  obtain ⟨c', h | h | h | h⟩ := compiles_cases h
  · exact apart_stage id_ne ids_id apart_id hreg hd (Nat.le_refl n) hfit h
  · exact apart_stage (teleported_ne _ _) (ids_teleported _ _) (apart_teleported _ _) hreg hd (Nat.le_refl n) hfit h
  · exact apart_stage (catalytic_ne _ _ _) (ids_catalytic _ _ _) (apart_catalytic _) hreg hd (Nat.le_refl n) hfit h
  · exact apart_stage (nonempty_then boundary_ne (teleported_ne _ _)) (ids_compact _ _) (apart_compact _ _) hreg hd (Nat.le_refl n) hfit h

end

/-! ### The slicer program -/

/-- The search of the code without a cache, from the first slice on. -/
theorem clear_init {L : Layout} {pick : Search.Pick} {stop : Bool} {ids : List Nat} {s0 : DSlice} (h : DSlice.init L ids = .ok s0) : Clear (Router.dpRouter L pick stop false) s0.rows s0.cols := by
  have e := init_size h
  simp only [Prod.mk.injEq] at e
  by_cases h0 : 0 ≤ L.furthest.row ∧ 0 ≤ L.furthest.col
  · exact clear_dp ⟨h0.1, h0.2, by omega, by omega⟩
  · refine ⟨rfl, fun rs s a b r rs' h1 h2 hne h x y hx hy => ?_⟩
    exfalso
    have hm := List.mem_of_getLast? hx
    have hr := (List.mem_filter.1 hm).1
    have : s.rows = 0 ∨ s.cols = 0 := by omega
    unfold DSlice.allCells at hr
    rcases this with e | e <;> simp [e] at hr

namespace Spec

section
open Verif.Slicer Verif.Slicer.Spec Verif.Compiled.Spec Verif.Gates Verif.Stream.Spec

variable {a : Args} {w : World} {j : Job} {P : List Instr} {r : Ran} {t : List (Chan × Str)}

/-- C69 for the slicer program slicing instruction by instruction, which is the default, without a cache of routes and without Boost: it comes to an end, CNOTs made of Bell pairs or not, if
these are between different patches. -/
theorem c69_slicer_local_partial (h : program a w = .ok (.sliced j P r t)) (hp : loopOf a = .streamed) (hc : a.router ≠ some "graph_search_cached".toList) (hv : a.search ≠ some "boost".toList)
    (hP : ∀ i ∈ P, Spec.Apart i) (hn : 5 * P.length * 2 ^ 64 < w.steps) : r.phase ≠ .running := by
  obtain ⟨h1, h2, h3, -⟩ := program_sliced h
  obtain ⟨v1, v2, -, v4, v5⟩ := chosen_values h1
  obtain ⟨m, ex, gs, hcomp⟩ := (prepared h1).program P h2
  have hw : ∀ i ∈ P, i.wait = maxWait := fun i hi => (easy_compiled (b := False) (fun h => h.elim) hcomp i hi).1
  have hplain : ∀ i ∈ P, Plain i := fun i hi => (Stream.sound_iff.1 ((Stream.compiled_block hcomp).sound i hi)).1
  have hs : j.pipeline = .stream := by
    rw [hp] at v5
    revert v5
    cases j.pipeline <;> simp [Pipeline.loop]
  have key : ∀ {b : Bool}, pipeline w (j.ctx w (Router.dpRouter j.layout w.pick b false)) () .stream (Stream.coreQubits j.size) P = .ok (some r) → r.phase ≠ .running := by
    intro b h
    obtain ⟨s, e1, h⟩ := Outcome.bind_eq_ok.1 h
    obtain ⟨⟨c, st⟩, e2, h⟩ := Outcome.bind_eq_ok.1 h
    cases h
    have := c69_streamed_cnots (fun i hi => ⟨hplain i hi, hP i hi⟩) (clear_init e1) e2 (by rw [waits_enough hw]; exact hn)
    cases c with
    | go => exact absurd rfl this
    | finished => simp
    | failed => simp
  unfold ran at h3
  split at h3
  · split at h3
    · split at h3
      · cases h3; simp
      · cases h3
    · cases h3
  unfold slice at h3
  rw [hs, if_neg (by decide)] at h3
  split at h3
  · rename_i e; exact absurd (v2.1 e) hv
  · rename_i e; exact absurd (v2.1 e) hv
  · exact key h3
  · rename_i e _; exact absurd (v1.1 e) hc

/-- C69 for the slicer program and QASM: the gates within the register, each on different qubits, and as many patches as there are ids. With local instructions or not, with any layout and any
way of making S and CNOT gates, the program comes to an end by itself. -/
theorem c69_local (h : program a w = .ok (.sliced j P r t)) {gs : List Gates.Gate} (hg : Gives a w j.layout gs) (hk : KeepsQubit w.approx) (hreg : InRegister j.size gs) (hd : DistinctOperands gs)
    (hfit : j.size + (introduced P).length < 2 ^ 32) (hp : loopOf a = .streamed) (hc : a.router ≠ some "graph_search_cached".toList) (hv : a.search ≠ some "boost".toList)
    (hn : 5 * P.length * 2 ^ 64 < w.steps) : r.phase ≠ .running := by
  obtain ⟨hf, text', rs', t1, t2, t3⟩ := hg
  obtain ⟨text, rs, reg, ls, ex, h1, h2, -, h4, h5, h6⟩ := c66_qasm h hf
  rw [h1] at t1
  cases t1
  rw [← readAs_unique h2 t2] at t3
  rw [t3] at h4
  exact c69_slicer_local_partial h hp hc hv (apart_compiled (compiledBy_compiles h6) (program_register hk h4 hreg) (program_distinct hk h4 hd) hfit) hn

end

end Spec

end Verif.Ends
