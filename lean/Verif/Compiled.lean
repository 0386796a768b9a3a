import Verif.StreamLife
import Verif.ReachProps
import Verif.HomeProps
import Verif.SlicedProps

/-!
# Compiled programs meet the conditions on programs (lemmas for C65)

The theorems on pipelines assume that the program is as it comes from a stream (`Plain`), that new ids are new (`Proper`), that no
qubit of the register is made or taken away, and so on. Here this is proved of every program compiled from gates.
-/

namespace Verif.Stream

open Verif.Gates Verif.Stream.Spec Verif.Slices.Spec

/-- An instruction as the compiler makes it. -/
structure Sound (i : Instr) : Prop where
  plain : Plain i
  notI : ∀ q d, i.op ≠ .sq q .I d
  notDeclare : ∀ ids, i.op ≠ .declare ids

theorem sound_iff {i : Instr} : Sound i ↔ Plain i ∧ (∀ q d, i.op ≠ .sq q .I d) ∧ ∀ ids, i.op ≠ .declare ids :=
  ⟨fun h => ⟨h.1, h.2, h.3⟩, fun h => ⟨h.1, h.2.1, h.2.2⟩⟩

/-- Instructions of which none takes away a patch that none of them makes. -/
structure Block (l : List Instr) : Prop where
  sound : ∀ i ∈ l, Sound i
  taken : ∀ i ∈ l, ∀ t b n, i.op = .measure t b n → ∃ j ∈ l, t ∈ introduces j
  given : ∀ i ∈ l, ∀ t n o, i.op = .ystate t n o → ∃ j ∈ l, ∃ n' o', j.op = .ystate t n' o' ∧ j.clients ≠ []

theorem Block.nil : Block [] := ⟨by simp, by simp, by simp⟩

theorem Block.append {a b : List Instr} (ha : Block a) (hb : Block b) : Block (a ++ b) := by
  refine ⟨?_, ?_, ?_⟩
  · intro i hi
    rcases List.mem_append.1 hi with h | h
    · exact ha.sound i h
    · exact hb.sound i h
  · intro i hi t p n e
    rcases List.mem_append.1 hi with h | h
    · obtain ⟨j, hj, hx⟩ := ha.taken i h t p n e; exact ⟨j, List.mem_append_left _ hj, hx⟩
    · obtain ⟨j, hj, hx⟩ := hb.taken i h t p n e; exact ⟨j, List.mem_append_right _ hj, hx⟩
  · intro i hi t p n e
    rcases List.mem_append.1 hi with h | h
    · obtain ⟨j, hj, hx⟩ := ha.given i h t p n e; exact ⟨j, List.mem_append_left _ hj, hx⟩
    · obtain ⟨j, hj, hx⟩ := hb.given i h t p n e; exact ⟨j, List.mem_append_right _ hj, hx⟩

/-- One instruction that takes nothing away. -/
theorem Block.single {i : Instr} (h : Sound i) (h1 : ∀ t b n, i.op ≠ .measure t b n) (h2 : ∀ t n o, i.op ≠ .ystate t n o) : Block [i] := by
  refine ⟨by simpa using h, ?_, ?_⟩
  · intro j hj t b n e; rw [List.mem_singleton.1 hj] at e; exact absurd e (h1 t b n)
  · intro j hj t b n e; rw [List.mem_singleton.1 hj] at e; exact absurd e (h2 t b n)

theorem block_sq (q : Nat) {o : SqOp} (d : Bool) (ho : o ≠ .I) : Block [plain (.sq q o d)] :=
  .single (by simp [sound_iff, Plain, plain, ho]) (by simp [plain]) (by simp [plain])

theorem block_rotate (q : Nat) : Block [plain (.rotate q)] :=
  .single (by simp [sound_iff, Plain, plain]) (by simp [plain]) (by simp [plain])

theorem block_cnot {loc : Bool} {c a b : Nat} {ty : CnotType} {pl : Placement} {al : Bool} {l : List Instr} {c' : Nat}
    (h : makeCnot loc c a b ty pl al = .ok (l, c')) : Block l := by
  unfold makeCnot at h
  split at h
  · dsimp only [newId] at h; split at h
    · cases h
    · cases h
      refine .single ⟨?_, by simp, by simp⟩ (by simp) (by simp)
      unfold Plain; exact ⟨rfl, rfl, rfl, rfl⟩
  · cases h
    refine ⟨?_, ?_, ?_⟩
    · cases ty <;> cases al <;> simp [cnotMiddle, plain, Plain, sound_iff]
    · intro i hi t p n e
      refine ⟨_, by simp; exact .inl rfl, ?_⟩
      cases ty <;> cases al <;> simp [cnotMiddle, plain] at hi <;> simp only [introduces, List.mem_singleton] <;> rcases hi with rfl | rfl | rfl | rfl | rfl | rfl <;> simp_all
    · intro i hi t p n e
      cases ty <;> cases al <;> simp [cnotMiddle, plain] at hi <;> rcases hi with rfl | rfl | rfl | rfl | rfl | rfl <;> simp_all

theorem block_t {loc : Bool} {c a : Nat} {l : List Instr} {c' : Nat} (h : makeT loc c a = .ok (l, c')) : Block l := by
  unfold makeT at h
  dsimp only [newId] at h
  have hm : Block [{ op := .magic c a, clients := [a] }] := .single (by simp [sound_iff, Plain]) (by simp) (by simp)
  have hend : ∀ {x : List Instr} {p : Pauli}, Block x → Block ([{ op := .magic c a, clients := [a] }] ++ x ++ [plain (.measure c p false), plain (.sq a .S false)]) := by
    intro x p hx
    have h1 := (hm.append hx).append (block_sq a false (o := .S) (by decide))
    refine ⟨?_, ?_, ?_⟩
    · intro i hi
      simp only [List.mem_append, List.mem_cons, List.not_mem_nil, or_false] at hi
      rcases hi with (hi | hi) | hi | hi
      · exact h1.sound i (by simp [hi])
      · exact h1.sound i (by simp [hi])
      · subst hi; simp [sound_iff, plain, Plain]
      · exact h1.sound i (by simp [hi])
    · intro i hi t b n e
      simp only [List.mem_append, List.mem_cons, List.not_mem_nil, or_false] at hi
      rcases hi with (hi | hi) | hi | hi
      · subst hi; cases e
      · obtain ⟨j, hj, ht⟩ := hx.taken i hi t b n e
        exact ⟨j, by simp [hj], ht⟩
      · subst hi; cases e; exact ⟨_, by simp; exact .inl rfl, by simp [introduces]⟩
      · subst hi; cases e
    · intro i hi t b n e
      simp only [List.mem_append, List.mem_cons, List.not_mem_nil, or_false] at hi
      rcases hi with (hi | hi) | hi | hi
      · subst hi; cases e
      · obtain ⟨j, hj, ht⟩ := hx.given i hi t b n e
        exact ⟨j, by simp [hj], ht⟩
      · subst hi; cases e
      · subst hi; cases e
  split at h
  · simp only [Outcome.bind_eq_ok] at h
    obtain ⟨⟨is, c1⟩, h1, h2⟩ := h
    cases h2
    exact hend (block_cnot h1)
  · cases h
    exact hend (x := [plain (.multi [(a, .Z), (c, .Z)] false none)]) (.single (by simp [sound_iff, plain, Plain]) (by simp [plain]) (by simp [plain]))

theorem block_gate {m : Mode} {c : Nat} {g : Gate} {is : List Instr} {c' : Nat} (h : compileGate m c g = .ok (is, c')) : Block is := by
  match g, h with
  | .basic q .Z, h => cases h; exact block_sq _ _ (by decide)
  | .basic q .X, h => cases h; exact block_sq _ _ (by decide)
  | .basic q .Y, h => cases h; exact block_sq _ _ (by decide)
  | .basic q .H, h => cases h; exact block_sq _ _ (by decide)
  | .basic q .S, h => cases h; exact block_sq _ _ (by decide)
  | .basic q .SDg, h => cases h; exact block_sq _ _ (by decide)
  | .basic q .T, h => exact block_t h
  | .basic q .TDg, h => exact block_t h
  | .rz q f, h =>
    rw [compileGate] at h
    split at h
    · cases h; exact block_sq _ _ (by decide)
    · split at h
      · cases h; exact block_sq _ _ (by decide)
      · split at h
        · exact block_t h
        · cases h
  | .reset r q, h =>
    rw [compileGate] at h
    split at h
    · cases h
    · cases h; exact .single (by simp [sound_iff, plain, Plain]) (by simp [plain]) (by simp [plain])
  | .ctrl a (.basic t .X) ty pl, h => exact block_cnot h
  | .ctrl a (.basic t .Z) ty pl, h =>
    simp only [compileGate, Outcome.bind_eq_ok] at h
    obtain ⟨⟨l, c1⟩, h1, h2⟩ := h
    cases h2
    exact ((block_sq _ _ (by decide)).append (block_cnot h1)).append (block_sq _ _ (by decide))
  | .ctrl a (.rz t f) ty pl, h => cases h
  | .ctrl a (.basic t .Y) ty pl, h => cases h
  | .ctrl a (.basic t .H) ty pl, h => cases h
  | .ctrl a (.basic t .S) ty pl, h => cases h
  | .ctrl a (.basic t .SDg) ty pl, h => cases h
  | .ctrl a (.basic t .T) ty pl, h => cases h
  | .ctrl a (.basic t .TDg) ty pl, h => cases h

/-- What the injection stages do: an instruction is kept, with rotations around it, except that an S gate may be replaced. -/
def Spreads {τ : Type} (e : τ → Nat → Instr → Outcome (List Instr × τ × Nat)) : Prop :=
  ∀ t c i l t' c', e t c i = .ok (l, t', c') → (i ∈ l ∧ ∀ j ∈ l, j = i ∨ ∃ p, j = plain (.rotate p)) ∨ (¬ NoS i ∧ Block l)

theorem spreads_list {τ : Type} {e : τ → Nat → Instr → Outcome (List Instr × τ × Nat)} (he : Spreads e) {is : List Instr} (hb : Block is) {t t' : τ} {c c' : Nat} {l : List Instr}
    (h : expandList e t c is = .ok (l, t', c')) : Block l := by
  have key : ∀ (js : List Instr) (t : τ) (c : Nat) (l : List Instr) (t' : τ) (c' : Nat), expandList e t c js = .ok (l, t', c') →
      ∃ (old new : List Instr), Block new ∧ (∀ j ∈ l, j ∈ old ∨ j ∈ new ∨ ∃ p, j = plain (.rotate p)) ∧ (∀ j ∈ old, j ∈ js) ∧ (∀ j ∈ js, NoS j → j ∈ old) ∧ (∀ j ∈ old, j ∈ l) ∧
        ∀ j ∈ new, j ∈ l := by
    intro js
    induction js with
    | nil =>
      intro t c l t' c' h
      cases h
      exact ⟨[], [], .nil, by simp, by simp, by simp, by simp, by simp⟩
    | cons i js ih =>
      intro t c l t' c' h
      simp only [expandList, Outcome.bind_eq_ok] at h
      obtain ⟨⟨l1, t1, c1⟩, h1, ⟨l2, t2, c2⟩, h2, h3⟩ := h
      cases h3
      obtain ⟨old, new, a1, a2, a3, a4, a5, a6⟩ := ih _ _ _ _ _ h2
      rcases he _ _ _ _ _ _ h1 with ⟨b1, b2⟩ | ⟨b1, b2⟩
      · refine ⟨i :: old, new, a1, ?_, ?_, ?_, ?_, ?_⟩
        · intro j hj
          rcases List.mem_append.1 hj with hj | hj
          · rcases b2 j hj with rfl | hp
            · exact .inl (by simp)
            · exact .inr (.inr hp)
          · rcases a2 j hj with h | h | h
            · exact .inl (by simp [h])
            · exact .inr (.inl h)
            · exact .inr (.inr h)
        · intro j hj
          rcases List.mem_cons.1 hj with rfl | hj
          · simp
          · simp [a3 j hj]
        · intro j hj hn
          rcases List.mem_cons.1 hj with rfl | hj
          · simp
          · simp [a4 j hj hn]
        · intro j hj
          rcases List.mem_cons.1 hj with rfl | hj
          · simp [b1]
          · simp [a5 j hj]
        · intro j hj; simp [a6 j hj]
      · refine ⟨old, l1 ++ new, b2.append a1, ?_, ?_, ?_, ?_, ?_⟩
        · intro j hj
          rcases List.mem_append.1 hj with hj | hj
          · exact .inr (.inl (by simp [hj]))
          · rcases a2 j hj with h | h | h
            · exact .inl h
            · exact .inr (.inl (by simp [h]))
            · exact .inr (.inr h)
        · intro j hj; simp [a3 j hj]
        · intro j hj hn
          rcases List.mem_cons.1 hj with rfl | hj
          · exact absurd hn b1
          · exact a4 j hj hn
        · intro j hj; simp [a5 j hj]
        · intro j hj
          rcases List.mem_append.1 hj with hj | hj
          · simp [hj]
          · simp [a6 j hj]
  obtain ⟨old, new, a1, a2, a3, a4, a5, a6⟩ := key _ _ _ _ _ _ h
  refine ⟨?_, ?_, ?_⟩
  · intro j hj
    rcases a2 j hj with h | h | ⟨p, rfl⟩
    · exact hb.sound j (a3 j h)
    · exact a1.sound j h
    · exact (block_rotate p).sound _ (by simp)
  · intro j hj x p n hop
    rcases a2 j hj with h | h | ⟨q, rfl⟩
    · obtain ⟨k, hk, hx⟩ := hb.taken j (a3 j h) x p n hop
      refine ⟨k, a5 k (a4 k hk ?_), hx⟩
      intro q d e; unfold introduces at hx; rw [e] at hx; simp at hx
    · obtain ⟨k, hk, hx⟩ := a1.taken j h x p n hop
      exact ⟨k, a6 k hk, hx⟩
    · cases hop
  · intro j hj x p n hop
    rcases a2 j hj with h | h | ⟨q, rfl⟩
    · obtain ⟨k, hk, n', o', hx, hc⟩ := hb.given j (a3 j h) x p n hop
      refine ⟨k, a5 k (a4 k hk ?_), n', o', hx, hc⟩
      intro q d e; rw [e] at hx; cases hx
    · obtain ⟨k, hk, hx⟩ := a1.given j h x p n hop
      exact ⟨k, a6 k hk, hx⟩
    · cases hop

theorem spreads_id : Spreads idExpand := by
  intro t c i l t' c' h; cases h; exact .inl ⟨by simp, by simp⟩

theorem spreads_teleported (core : List Nat) (rot : Bool) : Spreads (teleportedExpand core rot) := by
  intro t c i l t' c' h
  by_cases hn : NoS i
  · obtain ⟨-, rfl | ⟨q, d, -, -, -, rfl⟩⟩ := teleported_noS hn h
    · exact .inl ⟨by simp, by simp⟩
    · exact .inl ⟨by simp, fun j hj => by
        rcases List.mem_cons.1 hj with e | hj
        · exact .inl e
        · exact .inr ⟨q, by simpa using hj⟩⟩
  · simp only [NoS, Classical.not_forall, not_not] at hn
    obtain ⟨q, d, hop⟩ := hn
    simp only [teleportedExpand, hop] at h
    split at h
    · cases h
      refine .inr ⟨by simp [NoS, hop], ?_, ?_, ?_⟩
      · simp [sound_iff, plain, Plain]
      · intro j hj t b n e
        simp [plain] at hj
        rcases hj with rfl | rfl | rfl | rfl <;> simp at e
        exact ⟨_, by simp; exact .inl rfl, by simp [introduces, e]⟩
      · intro j hj t b n e
        simp [plain] at hj
        rcases hj with rfl | rfl | rfl | rfl <;> simp at e
        exact ⟨_, by simp; exact .inl rfl, _, _, by rw [e.1], by simp⟩
    · cases h; exact .inl ⟨by simp, by simp⟩

theorem spreads_catalytic (core : List Nat) (loc rot : Bool) : Spreads (catalyticExpand core loc rot) := by
  intro t c i l t' c' h
  by_cases hn : NoS i
  · obtain ⟨-, rfl | ⟨q, d, -, -, -, rfl⟩⟩ := catalytic_noS hn h
    · exact .inl ⟨by simp, by simp⟩
    · exact .inl ⟨by simp, fun j hj => by
        rcases List.mem_cons.1 hj with e | hj
        · exact .inl e
        · exact .inr ⟨q, by simpa using hj⟩⟩
  · simp only [NoS, Classical.not_forall, not_not] at hn
    obtain ⟨q, d, hop⟩ := hn
    simp only [catalyticExpand, hop] at h
    split at h
    · simp only [Outcome.bind_eq_ok, newId] at h
      obtain ⟨⟨l1, c1⟩, h1, ⟨l2, c2⟩, h2, h3⟩ := h
      cases h3
      have hb := ((block_cnot h1).append ((block_sq c false (o := .H) (by decide)).append (block_rotate c))).append ((block_cnot h2).append ((block_sq c false (o := .H) (by decide)).append (block_rotate c)))
      have hmem : ∀ j, j ∈ [({ op := .ystate c q none, clients := [q] } : Instr)] ++ l1 ++ [plain (.sq c .H false), plain (.rotate c)] ++ l2 ++
          [plain (.sq c .H false), plain (.rotate c), plain (.ystate c q none)] → j.op = .ystate c q none ∨
          j ∈ (l1 ++ ([plain (.sq c .H false)] ++ [plain (.rotate c)])) ++ (l2 ++ ([plain (.sq c .H false)] ++ [plain (.rotate c)])) := by
        intro j hj
        simp only [List.mem_append, List.mem_cons, List.not_mem_nil, or_false] at hj
        rcases hj with (((rfl | hj) | hj | hj) | hj) | hj | hj | rfl
        · exact .inl rfl
        · exact .inr (by simp [hj])
        · exact .inr (by simp [hj])
        · exact .inr (by simp [hj])
        · exact .inr (by simp [hj])
        · exact .inr (by simp [hj])
        · exact .inr (by simp [hj])
        · exact .inl rfl
      have hback : ∀ j, j ∈ (l1 ++ ([plain (.sq c .H false)] ++ [plain (.rotate c)])) ++ (l2 ++ ([plain (.sq c .H false)] ++ [plain (.rotate c)])) →
          j ∈ [({ op := .ystate c q none, clients := [q] } : Instr)] ++ l1 ++ [plain (.sq c .H false), plain (.rotate c)] ++ l2 ++
          [plain (.sq c .H false), plain (.rotate c), plain (.ystate c q none)] := by
        intro j hj
        simp only [List.mem_append, List.mem_cons, List.not_mem_nil, or_false] at hj
        rcases hj with (hj | hj | hj) | (hj | hj | hj) <;> simp [hj]
      refine .inr ⟨by simp [NoS, hop], ?_, ?_, ?_⟩
      · intro j hj
        rcases hmem j hj with e | hj
        · rw [sound_iff]; unfold Plain; rw [e]; simp
        · exact hb.sound j hj
      · intro j hj x b n e
        rcases hmem j hj with e2 | hj
        · rw [e2] at e; cases e
        · obtain ⟨k, hk, hx⟩ := hb.taken j hj x b n e
          exact ⟨k, hback k hk, hx⟩
      · intro j hj x b n e
        rcases hmem j hj with e2 | hj
        · rw [e2] at e; cases e
          exact ⟨{ op := .ystate c q none, clients := [q] }, by simp, q, none, rfl, by simp⟩
        · obtain ⟨k, hk, hx⟩ := hb.given j hj x b n e
          exact ⟨k, hback k hk, hx⟩
    · cases h; exact .inl ⟨by simp, by simp⟩

theorem spreads_boundary : Spreads boundaryExpand := by
  intro t c i l t' c' h
  obtain ⟨-, r, rfl, hr⟩ := boundary_shape h
  refine .inl ⟨by simp, ?_⟩
  intro j hj
  rcases List.mem_append.1 hj with hj | hj
  · obtain ⟨p, -, e⟩ := hr j hj; exact .inr ⟨p, e⟩
  · exact .inl (by simpa using hj)

theorem block_compact {core : List Nat} {rot : Bool} {is : List Instr} (hb : Block is) {t t' : ExposedMap × Unit} {c c' : Nat} {l : List Instr}
    (h : expandList (thenExpand boundaryExpand (teleportedExpand core rot)) t c is = .ok (l, t', c')) : Block l := by
  have hs : Spreads (thenExpand boundaryExpand (teleportedExpand core rot)) := by
    intro t c i l t' c' h
    simp only [thenExpand, Outcome.bind_eq_ok] at h
    obtain ⟨⟨l1, t1, c1⟩, h1, ⟨l2, t2, c2⟩, h2, h3⟩ := h
    cases h3
    obtain ⟨-, r, rfl, hr⟩ := boundary_shape h1
    obtain ⟨la, ta, ca, lb, h4, h5, e6⟩ := expandList_append.1 h2
    subst e6
    have hra : la = r := by
      have : ∀ (r : List Instr), (∀ j ∈ r, ∃ p, j = plain (.rotate p)) → ∀ t c l t' c', expandList (teleportedExpand core rot) t c r = .ok (l, t', c') → l = r := by
        intro r
        induction r with
        | nil => intro _ t c l t' c' h; cases h; rfl
        | cons x r ih =>
          intro hr t c l t' c' h
          simp only [expandList, Outcome.bind_eq_ok] at h
          obtain ⟨⟨l1, t1, c1⟩, h1, ⟨l2, t2, c2⟩, h2, h3⟩ := h
          cases h3
          obtain ⟨p, rfl⟩ := hr x (by simp)
          cases h1
          rw [ih (fun j hj => hr j (by simp [hj])) _ _ _ _ _ h2]; rfl
      exact this r (fun j hj => by obtain ⟨p, -, e⟩ := hr j hj; exact ⟨p, e⟩) _ _ _ _ _ h4
    subst hra
    have hrot : ∀ j ∈ la, ∃ p, j = plain (.rotate p) := fun j hj => by obtain ⟨p, -, e⟩ := hr j hj; exact ⟨p, e⟩
    rcases spreads_teleported core rot _ _ _ _ _ _ (expandList_single.1 h5) with ⟨b1, b2⟩ | ⟨b1, b2⟩
    · refine .inl ⟨by simp [b1], ?_⟩
      intro j hj
      rcases List.mem_append.1 hj with hj | hj
      · exact .inr (hrot j hj)
      · exact b2 j hj
    · refine .inr ⟨b1, Block.append ?_ b2⟩
      clear h1 h2 h4 hr
      induction la with
      | nil => exact .nil
      | cons x la ih =>
        obtain ⟨p, rfl⟩ := hrot x (by simp)
        exact (block_rotate p).append (ih (fun j hj => hrot j (by simp [hj])))
  exact spreads_list hs hb h

theorem block_stage {τ : Type} {e : τ → Nat → Instr → Outcome (List Instr × τ × Nat)} (hne : NonemptyExp e)
    (he : ∀ {is : List Instr}, Block is → ∀ {t t' : τ} {c c' : Nat} {l : List Instr}, expandList e t c is = .ok (l, t', c') → Block l) {m : Mode}
    {gs : List Gate} {t : τ} {out : List Instr} {c c' : Nat} (h : Delivers (stage e (gateMachine m)) ((gs, []), t, []) c out c') : Block out := by
  induction gs generalizing t c out with
  | nil =>
    rw [delivers_stage_gates_nil hne] at h
    obtain ⟨rfl, rfl⟩ := h
    exact .nil
  | cons g gs ih =>
    rw [delivers_stage_gates_cons hne] at h
    obtain ⟨is, c1, l, t', c2, o, h1, h2, rfl, h3⟩ := h
    exact (he (block_gate h1) h2).append (ih h3)

theorem compiled_block {m : Mode} {n : Nat} {ex : ExposedMap} {prog : List Gate} {out : List Instr} (h : Compiles m n ex prog out) : Block out := by
  obtain ⟨c', h | h | h | h⟩ := compiles_cases h
  · exact block_stage id_ne (spreads_list spreads_id) h
  · exact block_stage (teleported_ne _ _) (spreads_list (spreads_teleported _ _)) h
  · exact block_stage (catalytic_ne _ _ _) (spreads_list (spreads_catalytic _ _ _)) h
  · exact block_stage (nonempty_then boundary_ne (teleported_ne _ _)) block_compact h

/-! ## Names -/

theorem introduces_new {i : Instr} {n : Nat} (h : n ∈ introduces i) : n ∈ newIds i := by
  unfold introduces at h
  unfold newIds
  split at h <;> rename_i e <;> try rw [e]
  all_goals first | exact h | (split at h <;> first | exact h | cases h) | cases h

theorem new_introduces {i : Instr} {n : Nat} (hs : Sound i) (hy : Real.asksY i = false) (h : n ∈ newIds i) : n ∈ introduces i := by
  unfold introduces
  unfold newIds at h
  have hp := hs.plain
  unfold Plain at hp
  unfold Real.asksY at hy
  split at h <;> rename_i e <;> (try rw [e] at hp hy ⊢) <;> first | exact h | exact hp.elim | cases hy | cases h

theorem Block.new {l : List Instr} (hb : Block l) {i : Instr} (hi : i ∈ l) {n : Nat} (h : n ∈ newIds i) : n ∈ introduced l := by
  cases hy : Real.asksY i with
  | false => exact List.mem_flatMap.2 ⟨i, hi, new_introduces (hb.sound i hi) hy h⟩
  | true =>
    unfold Real.asksY at hy
    split at hy
    · rename_i t a o e
      unfold newIds at h
      rw [e] at h
      rw [List.mem_singleton.1 h]
      obtain ⟨j, hj, n', o', e2, hc⟩ := hb.given i hi t a o e
      exact List.mem_flatMap.2 ⟨j, hj, by unfold introduces; rw [e2]; simp [hc]⟩
    · cases hy

/-- Each new name stands for one patch. -/
theorem Block.proper {l : List Instr} (hb : Block l) (hd : (introduced l).Nodup) {ids : List Nat} (hf : ∀ n ∈ introduced l, n ∉ ids) : Real.Proper (fun _ => True) ids l := by
  have hp := List.pairwise_flatMap.1 hd
  have hone : ∀ {x y : Instr} {n : Nat}, Real.asksY x = false → x ∈ l → n ∈ newIds x → y ∈ l → Real.asksY y = true → n ∈ newIds y → False := by
    intro x y n hx hxl hn hyl hy hn'
    unfold Real.asksY at hy
    split at hy
    · rename_i t a o e
      unfold newIds at hn'
      rw [e] at hn'
      rw [List.mem_singleton.1 hn'] at hn
      obtain ⟨j, hj, n', o', e2, hc⟩ := hb.given y hyl t a o e
      have h1 : t ∈ introduces j := by unfold introduces; rw [e2]; simp [hc]
      have h2 := new_introduces (hb.sound x hxl) hx hn
      have hne : x ≠ j := by rintro rfl; unfold Real.asksY at hx; rw [e2] at hx; cases hx
      obtain ⟨a, ha, rfl⟩ := List.getElem_of_mem hxl
      obtain ⟨b, hb', rfl⟩ := List.getElem_of_mem hj
      have hab : a ≠ b := by rintro rfl; exact hne rfl
      have hq := List.pairwise_iff_getElem.1 hp.2
      rcases Nat.lt_or_gt_of_ne hab with hl | hl
      · exact hq a b ha hb' hl _ h2 _ h1 rfl
      · exact hq b a hb' ha hl _ h1 _ h2 rfl
    · cases hy
  refine ⟨fun i hi => ⟨(hb.sound i hi).plain, trivial⟩, ?_, ?_, ?_⟩
  · intro i hi
    cases hy : Real.asksY i with
    | false =>
      have h1 := hp.1 i hi
      have hs := (hb.sound i hi).plain
      revert h1 hs hy
      rcases i with ⟨op, w, cl⟩
      cases op <;> simp [introduces, newIds, Plain, Real.asksY] <;> (intros; assumption)
    | true =>
      unfold Real.asksY at hy
      split at hy
      · rename_i e; unfold newIds; rw [e]; simp
      · cases hy
  · intro i hi _ n hn
    exact hf n (hb.new hi hn)
  · refine List.Pairwise.imp_of_mem ?_ hp.2
    intro x y hx hy h n hnx hny
    cases h1 : Real.asksY x <;> cases h2 : Real.asksY y
    · exact (h n (new_introduces (hb.sound x hx) h1 hnx) n (new_introduces (hb.sound y hy) h2 hny) rfl).elim
    · exact (hone h1 hx hnx hy h2 hny).elim
    · exact (hone h2 hy hny hx h1 hnx).elim
    · exact ⟨rfl, rfl⟩

theorem Block.keeps {l : List Instr} (hb : Block l) {q : Nat} (hf : q ∉ introduced l) {i : Instr} (hi : i ∈ l) : ¬ Real.Removes q i ∧ ¬ Real.Makes q i := by
  constructor
  · intro h
    unfold Real.Removes at h
    split at h
    · rename_i e
      obtain ⟨j, hj, h1⟩ := hb.taken i hi _ _ _ e
      exact hf (List.mem_flatMap.2 ⟨j, hj, h ▸ h1⟩)
    · rename_i e
      exact hf (hb.new hi (by unfold newIds; rw [e]; simp [h]))
    · exact h
  · intro h
    refine hf (hb.new hi ?_)
    unfold Real.Makes at h
    unfold newIds
    split at h <;> rename_i e <;> first | (rw [e]; simp; omega) | (rw [e]; simp; rcases h with h | h <;> simp [h]) | exact h.elim

end Verif.Stream

namespace Verif.Real

open Verif Verif.Wave Verif.Apply Verif.Slices.Spec Verif.Pipe Verif.Pipe.Spec

section
variable {ρ : Type} {ctx : Ctx ρ} {m : Mach ρ} {i : Instr} {r : Res (Mach ρ)}

theorem bell_kinds {b : BellInit} (e : i.op = .bell b) (h : applyBell ctx m i b = .ok r) : (∃ b, r.instr.op = .bell b) ∧ ∀ f ∈ r.followups, ∃ b, f.op = .bell b := by
  have key : ∀ {m : Mach ρ} {ls k}, bellInitRun ctx m i b ls k = .ok r → (∃ b, r.instr.op = .bell b) ∧ ∀ f ∈ r.followups, ∃ b, f.op = .bell b := by
    intro m ls k h
    obtain ⟨n, h1, h2, -, h3⟩ := bellInitRun_ok h
    have h4 : ∃ b, r.instr.op = .bell b := by rw [h2]; exact ⟨_, rfl⟩
    refine ⟨h4, ?_⟩
    rcases h3 with h3 | h3 <;> simp [h3, h4]
  rcases applyBell_ok h with h | ⟨w, ls, h1, h2, h⟩ | ⟨-, _, _, ls, -, -, -, h⟩
  · rw [h.1, h.2.2]; exact ⟨⟨_, e⟩, by simp⟩
  · exact key h
  · exact key h

theorem cnot_kinds {c : BellCNOT} (e : i.op = .bellCnot c) (h : applyCnot ctx m i c = .ok r) : (∃ c, r.instr.op = .bellCnot c) ∧ ∀ f ∈ r.followups, ∃ c, f.op = .bellCnot c := by
  have self : (∃ c, r.instr.op = .bellCnot c) → (r.followups = [] ∨ r.followups = [r.instr]) → (∃ c, r.instr.op = .bellCnot c) ∧ ∀ f ∈ r.followups, ∃ c, f.op = .bellCnot c := by
    intro h1 h2
    refine ⟨h1, ?_⟩
    rcases h2 with h2 | h2 <;> simp [h2, h1]
  have run : ∀ {m : Mach ρ} {c sets ws}, cnotRun ctx m i c sets ws = .ok r → (∃ c, r.instr.op = .bellCnot c) ∧ ∀ f ∈ r.followups, ∃ c, f.op = .bellCnot c := by
    intro m c sets ws h
    obtain ⟨w, k, ps, ls, rest, n, e1, e2, h1, h2, -, h3⟩ := cnotRun_ok h
    exact self (by rw [h2]; exact ⟨_, rfl⟩) (by rcases h3 with h3 | h3 <;> simp [h3])
  rcases applyCnot_ok h with h | ⟨-, h⟩ | ⟨-, h⟩
  · exact self (by rw [h.1]; exact ⟨_, e⟩) (.inl h.2.2)
  · rcases applyCnotEdpc_ok h with h | ⟨h1, _, _, _, _, region', -, -, -, -, -, h2, -, h3⟩ | ⟨_, _, p, -, -, -, -, h2, -, h3⟩ | ⟨_, pairs, ph, sets, -, h2, -, h4, h⟩
    · exact self (by rw [h.1]; exact ⟨_, e⟩) (.inl h.2.2)
    · exact self (by rw [h2]; exact ⟨_, rfl⟩) (.inr h3)
    · exact self (by rw [h2]; exact ⟨_, rfl⟩) (.inl h3)
    · obtain ⟨w, k, ls, n, e1, e2, h1, -, h3⟩ := cnotPhase_ok h
      rcases h3 with ⟨h4, h5⟩ | ⟨-, -, h4, h5⟩ | ⟨-, -, h4, h5⟩
      · exact self (by rw [h5]; exact ⟨_, rfl⟩) (.inr h4)
      · exact self (by rw [h5]; exact ⟨_, rfl⟩) (.inl h4)
      · exact self (by rw [h5]; exact ⟨_, rfl⟩) (.inr h4)
  · rcases applyCnotPlain_ok h with h | ⟨pairs, sets, h2, h4, h⟩ | ⟨-, _, _, _, l, -, -, -, -, h⟩
    · exact self (by rw [h.1]; exact ⟨_, e⟩) (.inl h.2.2)
    · exact run h
    · exact run h

/-- An instruction that does not take the patch away does not turn into one that does. -/
theorem harmless {q : Nat} (hi : ¬ Removes q i) (h : Apply.apply ctx m i = .ok r) : ¬ Removes q r.instr ∧ ∀ f ∈ r.followups, ¬ Removes q f := by
  cases Sliced.apply_leaves h with
  | same hd h1 h2 h3 =>
    refine ⟨by rw [h1]; exact hi, fun f hf => ?_⟩
    unfold Removes
    rcases h3 f hf with ⟨_, _, _, e⟩ | ⟨_, _, _, e⟩ <;> rw [e] <;> exact id
  | multi h1 h2 => exact ⟨by unfold Removes; rw [h1]; exact id, by rw [h2]; simp⟩
  | ystate h0 h1 h2 =>
    refine ⟨?_, by rw [h2]; simp⟩
    unfold Removes at hi ⊢
    rw [h0] at hi; rw [h1]; exact hi
  | bell e h =>
    obtain ⟨⟨b, h1⟩, h2⟩ := bell_kinds e h
    refine ⟨by unfold Removes; rw [h1]; exact id, fun f hf => ?_⟩
    obtain ⟨b, h3⟩ := h2 f hf
    unfold Removes; rw [h3]; exact id
  | cnot e h =>
    obtain ⟨⟨b, h1⟩, h2⟩ := cnot_kinds e h
    refine ⟨by unfold Removes; rw [h1]; exact id, fun f hf => ?_⟩
    obtain ⟨b, h3⟩ := h2 f hf
    unfold Removes; rw [h3]; exact id

theorem harmless_keeps (q : Nat) (realloc : Nat → Bool) : Keeps (ghost (env ctx realloc)) (fun x => ∀ i ∈ x.2, ¬ Removes q i) (fun _ i => ¬ Removes q i) where
  apply := by
    intro s i r h hi hr
    obtain ⟨r0, h1, rfl⟩ := ghost_apply hr
    have h2 : Apply.apply ctx s.1 i = .ok r0 := h1
    obtain ⟨f1, f2⟩ := harmless hi h2
    refine ⟨?_, f1, f2, fun _ h => h⟩
    intro j hj
    dsimp only at hj
    split at hj
    · exact h j hj
    · rcases List.mem_append.1 hj with hj | hj
      · exact h j hj
      · rw [List.mem_singleton.1 hj]; exact f1
  waits _ h := h
  advance := by
    intro s s' h ha
    unfold ghost at ha
    dsimp only at ha
    obtain ⟨t, h1, ha⟩ := Outcome.bind_eq_ok.1 ha
    cases ha
    exact ⟨h, fun _ h => h⟩
  reset := by
    intro s s' h ha
    unfold ghost at ha
    dsimp only at ha
    obtain ⟨t, h1, ha⟩ := Outcome.bind_eq_ok.1 ha
    cases ha
    exact ⟨h, fun _ h => h⟩

/-- A patch that no instruction of the program takes away is not taken away. -/
theorem account_harmless {realloc : Nat → Bool} {q : Nat} {P : List Instr} (hP : ∀ i ∈ P, ¬ Removes q i) {s : Mach ρ} {k : Spec.Loop} {A B : List (Pipe.Obs (Mach ρ))}
    (h : Spec.Account (env ctx realloc) P s k (A ++ .slice m :: B)) : ∀ i ∈ instrs A, ¬ Removes q i := by
  obtain ⟨L', g1, g2, g3⟩ := Spec.account_ghost h
  exact account_lift g3 (fun x hx => Spec.account_keeps (harmless_keeps q realloc) (ghost_one (one_followup ctx realloc)) (ghost_alone (fails_alone ctx realloc))
    (by simp) hP g1 hx) g2

end

end Verif.Real
