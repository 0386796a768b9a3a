import Verif.StreamProps

/-!
# Instruction streams: C13, lifetimes of generated patches
-/

namespace Verif.Stream
open Verif.Gates Spec

/-- Between two gates: the core is alive, the ids handed out so far are dead, the others unborn. -/
def canon (n c : Nat) (x : Nat) : Life := if x < n then .alive else if x < c then .dead else .unborn

theorem canon_start (n : Nat) : canon n n = coreAlive n := by
  funext x; unfold canon coreAlive; split <;> rfl

theorem lifeRun_append (st : Nat → Life) (a b : List Instr) : lifeRun st (a ++ b) = (lifeRun st a).bind fun st => lifeRun st b := by
  induction a generalizing st with
  | nil => rfl
  | cons i a ih =>
    simp only [List.cons_append, lifeRun]
    cases h : lifeStep st i with
    | none => rfl
    | some st' => exact ih st'

/-- Counter without wrap-around. -/
theorem newId_small {c : Nat} (h : c + 1 < 2 ^ 32) : newId c = (c, c + 1) := by
  unfold newId; rw [Nat.mod_eq_of_lt h]

theorem life_cnot {loc : Bool} {c a b : Nat} {ty : CnotType} {pl : Placement} {al : Bool} {l : List Instr} {c' : Nat}
    (h : makeCnot loc c a b ty pl al = .ok (l, c')) (hfit : c + (introduced l).length < 2 ^ 32) {st : Nat → Life}
    (ha : st a = .alive) (hb : st b = .alive) (hu : ∀ x, c ≤ x → st x = .unborn) :
    ∃ k, c' = c + k ∧ (introduced l).length = k ∧ lifeRun st l = some (fun x => if c ≤ x ∧ x < c + k then .dead else st x) := by
  have hac : a < c := by rcases Nat.lt_or_ge a c with h | h; exact h; rw [hu a h] at ha; cases ha
  have hbc : b < c := by rcases Nat.lt_or_ge b c with h | h; exact h; rw [hu b h] at hb; cases hb
  unfold makeCnot at h
  split at h
  · dsimp only [newId] at h; split at h
    · cases h
    · cases h
      simp [introduced, introduces] at hfit
      refine ⟨2, ?_, rfl, ?_⟩
      · rw [Nat.mod_eq_of_lt (by omega : c + 1 < 2 ^ 32), Nat.mod_eq_of_lt (by omega)]
      · have e : (c + 1) % 2 ^ 32 = c + 1 := Nat.mod_eq_of_lt (by omega)
        have hall : ((osetAll [] [a, b] ++ [a, b]).all fun x => st x = .alive) = true := by
          rw [List.all_eq_true]
          intro x hx
          have : x = a ∨ x = b := by
            rcases List.mem_append.1 hx with hx | hx
            · simpa using mem_osetAll.1 hx
            · simpa using hx
          rcases this with rfl | rfl <;> simp [ha, hb]
        simp only [lifeRun, lifeStep, uses, hall, if_pos, create, e, hu c (Nat.le_refl _), Option.bind_some]
        rw [upd_other _ _ (by omega), hu (c + 1) (by omega)]
        simp only [if_pos, Option.bind_some]
        congr 1
        funext x
        by_cases h1 : x = c + 1
        · subst h1; rw [upd_same, if_pos (by omega)]
        · rw [upd_other _ _ h1]
          by_cases h2 : x = c
          · subst h2; rw [upd_same, if_pos (by omega)]
          · rw [upd_other _ _ h2, if_neg (by omega)]
  · rename_i hty
    cases h
    have hc1 : c + 1 < 2 ^ 32 := by
      rw [introduced_append, introduced_append] at hfit
      simp [introduced, introduces] at hfit
      omega
    refine ⟨1, Nat.mod_eq_of_lt hc1, ?_, ?_⟩
    · cases ty <;> cases al <;> simp [cnotMiddle, plain, introduced, introduces]
    · have huc := hu c (Nat.le_refl _)
      have hua : ∀ v, upd st c v a = .alive := fun v => by rw [upd_other _ _ (by omega), ha]
      have hub : ∀ v, upd st c v b = .alive := fun v => by rw [upd_other _ _ (by omega), hb]
      have hinit : lifeStep st { op := .init c .plus (ancillaNextTo a b pl), clients := osetAll [] [a, b] } = some (upd st c .alive) := by
        have hall : (uses { op := .init c .plus (ancillaNextTo a b pl), clients := osetAll [] [a, b] }).all (fun x => st x = .alive) = true := by
          rw [List.all_eq_true]
          intro x hx
          have : x = a ∨ x = b := by
            rcases List.mem_append.1 hx with hx | hx
            · simpa using mem_osetAll.1 hx
            · cases pl <;> simp [ancillaNextTo] at hx <;> simp [hx]
          rcases this with rfl | rfl <;> simp [ha, hb]
        simp only [lifeStep, hall, if_pos, create, huc]
      have hmid : lifeRun (upd st c .alive) (cnotMiddle a b c al ty) = some (upd st c .alive) := by
        cases ty <;> cases al <;> simp [cnotMiddle, plain, lifeRun, lifeStep, uses, hua, hub, upd_same]
      have hend : lifeRun (upd st c .alive) [plain (.measure c .X false)] = some (upd (upd st c .alive) c .dead) := by
        simp [plain, lifeRun, lifeStep, uses, upd_same]
      rw [lifeRun_append, lifeRun_append]
      simp only [lifeRun, hinit, Option.bind_some, hmid]
      simp only [lifeRun] at hend
      rw [hend]
      congr 1
      funext x
      by_cases h2 : x = c
      · subst h2; rw [upd_same, if_pos (by omega)]
      · rw [upd_other _ _ h2, upd_other _ _ h2, if_neg (by omega)]

theorem canon_unborn {n c x : Nat} (hn : n ≤ c) (h : c ≤ x) : canon n c x = .unborn := by
  unfold canon; rw [if_neg (by omega), if_neg (by omega)]

theorem canon_alive {n c x : Nat} (h : x < n) : canon n c x = .alive := by unfold canon; rw [if_pos h]

theorem canon_grow {n c k : Nat} (hn : n ≤ c) : (fun x => if c ≤ x ∧ x < c + k then Life.dead else canon n c x) = canon n (c + k) := by
  funext x
  unfold canon
  by_cases h1 : x < n
  · simp only [h1, if_pos]; rw [if_neg (by omega)]
  · by_cases h2 : x < c
    · rw [if_neg (by omega), if_neg h1, if_pos h2, if_neg h1, if_pos (by omega)]
    · by_cases h3 : x < c + k
      · rw [if_pos (by omega), if_neg h1, if_pos h3]
      · rw [if_neg (by omega), if_neg h1, if_neg h2, if_neg h1, if_neg h3]

/-- A state request near an alive patch. -/
theorem life_magic {st : Nat → Life} {c q : Nat} (hq : st q = .alive) (hc : st c = .unborn) :
    lifeStep st { op := .magic c q, clients := [q] } = some (upd st c .alive) := by
  simp [lifeStep, uses, hq, create, hc]

theorem life_t {loc : Bool} {c q : Nat} {pre : List Instr} {c' n : Nat}
    (h : makeT loc c q = .ok (pre ++ [plain (.sq q .S false)], c')) (hfit : c + (introduced pre).length < 2 ^ 32) (hq : q < n) (hn : n ≤ c) :
    lifeRun (canon n c) pre = some (canon n (c + (introduced pre).length)) ∧ c' = c + (introduced pre).length := by
  have hqa := canon_alive (c := c) hq
  have hcu := canon_unborn hn (Nat.le_refl c)
  unfold makeT at h
  dsimp only [newId] at h
  split at h
  · simp only [Outcome.bind_eq_ok] at h
    obtain ⟨⟨is, c1⟩, h1, h2⟩ := h
    simp only [Outcome.ok.injEq, Prod.mk.injEq] at h2
    obtain ⟨h2, rfl⟩ := h2
    have hpre : pre = [{ op := .magic c q, clients := [q] }] ++ is ++ [plain (.measure c .Z false)] := by
      have := h2
      rw [show [plain (.measure c .Z false), plain (.sq q .S false)] = [plain (.measure c .Z false)] ++ [plain (.sq q .S false)] from rfl, ← List.append_assoc] at this
      exact (List.append_cancel_right this).symm
    subst hpre
    have hlen : (introduced ([({ op := .magic c q, clients := [q] } : Instr)] ++ is ++ [plain (.measure c .Z false)])).length = 1 + (introduced is).length := by
      rw [introduced_append, introduced_append]; simp [introduced, introduces, plain]; omega
    rw [hlen] at hfit ⊢
    rw [Nat.mod_eq_of_lt (by omega : c + 1 < 2 ^ 32)] at h1
    obtain ⟨k, h3, h4, h5⟩ := life_cnot h1 (by omega) (st := upd (canon n c) c .alive) (by rw [upd_other _ _ (by omega), hqa]) (upd_same ..)
      (fun x hx => by rw [upd_other _ _ (by omega)]; exact canon_unborn hn (by omega))
    rw [h4]
    refine ⟨?_, by rw [h3]; omega⟩
    rw [lifeRun_append, lifeRun_append]
    simp only [lifeRun, life_magic hqa hcu, Option.bind_some, h5]
    have e : (if c + 1 ≤ c ∧ c < c + 1 + k then Life.dead else upd (canon n c) c Life.alive c) = .alive := by
      rw [if_neg (by omega), upd_same]
    simp only [lifeStep, plain, uses, List.nil_append, List.all_cons, List.all_nil, e, decide_true, Bool.and_self, if_pos, Option.bind_some]
    congr 1
    rw [← canon_grow hn]
    funext x
    by_cases hx : x = c
    · subst hx; rw [upd_same, if_pos (by omega)]
    · rw [upd_other _ _ hx, upd_other _ _ hx]
      by_cases h7 : c ≤ x ∧ x < c + (1 + k)
      · rw [if_pos h7, if_pos (by omega)]
      · rw [if_neg h7, if_neg (by omega)]
  · simp only [Outcome.ok.injEq, Prod.mk.injEq] at h
    obtain ⟨h2, rfl⟩ := h
    have hpre : pre = [{ op := .magic c q, clients := [q] }, plain (.multi [(q, .Z), (c, .Z)] false none), plain (.measure c .X false)] := by
      have := h2
      rw [show ∀ a b d e : Instr, [a, b, d, e] = [a, b, d] ++ [e] from fun _ _ _ _ => rfl] at this
      exact (List.append_cancel_right this).symm
    subst hpre
    have hlen : (introduced [({ op := .magic c q, clients := [q] } : Instr), plain (.multi [(q, .Z), (c, .Z)] false none), plain (.measure c .X false)]).length = 1 := rfl
    rw [hlen] at hfit ⊢
    refine ⟨?_, Nat.mod_eq_of_lt hfit⟩
    simp only [lifeRun, life_magic hqa hcu, Option.bind_some]
    have e : upd (canon n c) c .alive q = .alive := by rw [upd_other _ _ (by omega), hqa]
    simp only [plain, lifeStep, uses, List.nil_append, List.map, List.all_cons, List.all_nil, e, upd_same, decide_true, Bool.and_self, if_pos, Option.bind_some]
    congr 1
    rw [← canon_grow hn]
    funext x
    by_cases hx : x = c
    · subst hx; rw [upd_same, if_pos (by omega)]
    · rw [upd_other _ _ hx, upd_other _ _ hx, if_neg (by omega)]

theorem life_compile {m : Mode} {c n : Nat} (hn : n ≤ c) {g : Gate} {is : List Instr} {c' : Nat} (h : compileGate m c g = .ok (is, c'))
    (hg : ∀ q ∈ gateQubits g, q < n) (hfit : c + (introduced is).length < 2 ^ 32) :
    ∃ pre suf, is = pre ++ suf ∧ (∀ i ∈ pre, NoS i) ∧ (suf = [] ∨ ∃ q d, q < n ∧ suf = [plain (.sq q .S d)]) ∧
      lifeRun (canon n c) pre = some (canon n (c + (introduced is).length)) ∧ c' = c + (introduced is).length := by
  have single : ∀ q o, q < n → o ≠ SqOp.S → (plain (.sq q o false) :: [] : List Instr) = is → c' = c →
      ∃ pre suf, is = pre ++ suf ∧ (∀ i ∈ pre, NoS i) ∧ (suf = [] ∨ ∃ q d, q < n ∧ suf = [plain (.sq q .S d)]) ∧
      lifeRun (canon n c) pre = some (canon n (c + (introduced is).length)) ∧ c' = c + (introduced is).length := by
    intro q o h1 h2 h3 h4
    subst h3
    refine ⟨[plain (.sq q o false)], [], rfl, ?_, Or.inl rfl, ?_, h4⟩
    · simp [NoS, plain, h2]
    · simp [lifeRun, lifeStep, plain, uses, canon_alive h1, introduced, introduces]
  have sgate : ∀ q d, q < n → (plain (.sq q .S d) :: [] : List Instr) = is → c' = c →
      ∃ pre suf, is = pre ++ suf ∧ (∀ i ∈ pre, NoS i) ∧ (suf = [] ∨ ∃ q d, q < n ∧ suf = [plain (.sq q .S d)]) ∧
      lifeRun (canon n c) pre = some (canon n (c + (introduced is).length)) ∧ c' = c + (introduced is).length := by
    intro q d h1 h3 h4
    subst h3
    exact ⟨[], _, rfl, by simp, Or.inr ⟨q, d, h1, rfl⟩, rfl, h4⟩
  have tgate : ∀ q, q < n → makeT m.loc c q = .ok (is, c') →
      ∃ pre suf, is = pre ++ suf ∧ (∀ i ∈ pre, NoS i) ∧ (suf = [] ∨ ∃ q d, q < n ∧ suf = [plain (.sq q .S d)]) ∧
      lifeRun (canon n c) pre = some (canon n (c + (introduced is).length)) ∧ c' = c + (introduced is).length := by
    intro q h1 h2
    obtain ⟨pre, rfl, h4, -⟩ := makeT_shape h2
    have hlen : (introduced (pre ++ [plain (.sq q .S false)])).length = (introduced pre).length := by
      rw [introduced_append]; simp [introduced, introduces, plain]
    rw [hlen] at hfit ⊢
    obtain ⟨h5, h6⟩ := life_t h2 hfit h1 hn
    exact ⟨pre, _, rfl, h4, Or.inr ⟨q, false, h1, rfl⟩, h5, h6⟩
  have cnot : ∀ a b ty pl al l, a < n → b < n → makeCnot m.loc c a b ty pl al = .ok (l, c') → c + (introduced l).length < 2 ^ 32 →
      lifeRun (canon n c) l = some (canon n (c + (introduced l).length)) ∧ c' = c + (introduced l).length := by
    intro a b ty pl al l ha hb h1 h2
    obtain ⟨k, h3, h4, h5⟩ := life_cnot h1 h2 (canon_alive (c := c) ha) (canon_alive hb) (fun x hx => canon_unborn hn hx)
    rw [h4, h5, canon_grow hn]
    exact ⟨rfl, h3⟩
  match g, h with
  | .basic q .Z, h => cases h; exact single _ _ (hg q (by simp [gateQubits])) (by decide) rfl rfl
  | .basic q .X, h => cases h; exact single _ _ (hg q (by simp [gateQubits])) (by decide) rfl rfl
  | .basic q .Y, h => cases h; exact single _ _ (hg q (by simp [gateQubits])) (by decide) rfl rfl
  | .basic q .H, h => cases h; exact single _ _ (hg q (by simp [gateQubits])) (by decide) rfl rfl
  | .basic q .S, h => cases h; exact sgate q false (hg q (by simp [gateQubits])) rfl rfl
  | .basic q .SDg, h => cases h; exact sgate q true (hg q (by simp [gateQubits])) rfl rfl
  | .basic q .T, h => exact tgate q (hg q (by simp [gateQubits])) h
  | .basic q .TDg, h => exact tgate q (hg q (by simp [gateQubits])) h
  | .rz q f, h =>
    rw [compileGate] at h
    split at h
    · cases h; exact single _ _ (hg q (by simp [gateQubits])) (by decide) rfl rfl
    · split at h
      · cases h; exact sgate q false (hg q (by simp [gateQubits])) rfl rfl
      · split at h
        · exact tgate q (hg q (by simp [gateQubits])) h
        · cases h
  | .ctrl a (.basic b .X) ty pl, h =>
    obtain ⟨h1, h2⟩ := cnot _ _ _ _ _ _ (hg a (by simp [gateQubits])) (hg b (by simp [gateQubits])) h hfit
    exact ⟨is, [], by simp, (makeCnot_ids h).1, Or.inl rfl, h1, h2⟩
  | .ctrl a (.basic b .Z) ty pl, h =>
    simp only [compileGate, Outcome.bind_eq_ok] at h
    obtain ⟨⟨l, c1⟩, h1, h2⟩ := h
    simp only [Outcome.ok.injEq, Prod.mk.injEq] at h2
    obtain ⟨rfl, rfl⟩ := h2
    have hlen : introduced ([plain (.sq b .H false)] ++ l ++ [plain (.sq b .H false)]) = introduced l := by
      rw [introduced_append, introduced_append]; simp [introduced, introduces, plain]
    rw [hlen] at hfit ⊢
    obtain ⟨h3, h4⟩ := cnot _ _ _ _ _ _ (hg a (by simp [gateQubits])) (hg b (by simp [gateQubits])) h1 hfit
    refine ⟨_, [], (List.append_nil _).symm, ?_, Or.inl rfl, ?_, h4⟩
    · intro i hi
      simp only [List.mem_append, List.mem_singleton] at hi
      rcases hi with (rfl | hi) | rfl
      · simp [NoS, plain]
      · exact (makeCnot_ids h1).1 i hi
      · simp [NoS, plain]
    · have hH : ∀ c, lifeRun (canon n c) [plain (.sq b .H false)] = some (canon n c) := by
        intro c; simp [lifeRun, lifeStep, plain, uses, canon_alive (hg b (by simp [gateQubits]))]
      rw [lifeRun_append, lifeRun_append, hH, Option.bind_some, h3, Option.bind_some, hH]
  | .reset r q, h =>
    rw [compileGate] at h
    split at h
    · cases h
    · cases h
      refine ⟨[plain (.reset q)], [], rfl, by simp [NoS, plain], Or.inl rfl, ?_, rfl⟩
      simp [lifeRun, lifeStep, plain, uses, canon_alive (hg q (by simp [gateQubits])), introduced, introduces]

/-- What the lifetime argument needs to know about a stage. -/
structure LifeOk (n : Nat) {τ : Type} (e : τ → Nat → Instr → Outcome (List Instr × τ × Nat)) : Prop where
  noS : ∀ t c i l t' c' st st', NoS i → e t c i = .ok (l, t', c') → lifeStep st i = some st' → lifeRun st l = some st'
  s : ∀ t c q d l t' c', n ≤ c → q < n → c + (introduced l).length < 2 ^ 32 → e t c (plain (.sq q .S d)) = .ok (l, t', c') →
    lifeRun (canon n c) l = some (canon n (c + (introduced l).length)) ∧ c' = c + (introduced l).length

theorem life_expandList {n : Nat} {τ : Type} {e : τ → Nat → Instr → Outcome (List Instr × τ × Nat)} (he : LifeOk n e) {is : List Instr}
    (hs : ∀ i ∈ is, NoS i) {t : τ} {c : Nat} {l : List Instr} {t' : τ} {c' : Nat} (h : expandList e t c is = .ok (l, t', c'))
    {st st' : Nat → Life} (hr : lifeRun st is = some st') : lifeRun st l = some st' := by
  induction is generalizing t c l st with
  | nil => cases h; exact hr
  | cons i is ih =>
    simp only [expandList, Outcome.bind_eq_ok] at h
    obtain ⟨⟨l1, t1, c1⟩, h1, ⟨l2, t2, c2⟩, h2, h3⟩ := h
    cases h3
    simp only [lifeRun, Option.bind_eq_some_iff] at hr
    obtain ⟨st1, hr1, hr2⟩ := hr
    rw [lifeRun_append, he.noS _ _ _ _ _ _ _ _ (hs i (by simp)) h1 hr1, Option.bind_some]
    exact ih (fun j hj => hs j (by simp [hj])) h2 hr2

theorem life_stage {n : Nat} {τ : Type} {e : τ → Nat → Instr → Outcome (List Instr × τ × Nat)} (hne : NonemptyExp e) (hi : IdsOk e) (he : LifeOk n e)
    {m : Mode} {gs : List Gate} (hgs : InRegister n gs) {t : τ} {out : List Instr} {c c' : Nat} (hc : n ≤ c) (hfit : c + (introduced out).length < 2 ^ 32)
    (h : Delivers (stage e (gateMachine m)) ((gs, []), t, []) c out c') : lifeRun (canon n c) out = some (canon n (c + (introduced out).length)) := by
  induction gs generalizing t c out with
  | nil =>
    rw [delivers_stage_gates_nil hne] at h
    obtain ⟨rfl, rfl⟩ := h
    rfl
  | cons g gs ih =>
    rw [delivers_stage_gates_cons hne] at h
    obtain ⟨is, c1, l, t', c2, o, h1, h2, rfl, h3⟩ := h
    rw [introduced_append, List.length_append] at hfit
    obtain ⟨pre0, suf0, hps, hpre, hsuf, k, hk, hc1⟩ := compile_shape (by omega) h1
    have hislen : (introduced is).length = (introduced pre0).length := by
      rw [hps, introduced_append]
      rcases hsuf with rfl | ⟨q, d, _, rfl⟩ <;> simp [introduced, introduces, plain]
    have hlen : (introduced pre0).length ≤ (introduced l).length := by
      rw [hps] at h2
      obtain ⟨la, ta, ca, lb, h4, -, rfl⟩ := expandList_append.1 h2
      rw [introduced_append, (expandList_noS hi hpre h4).1]; simp
    obtain ⟨pre, suf, rfl, hns, h5, h6, h7⟩ := life_compile hc h1 (hgs g (by simp)) (by omega)
    obtain ⟨l1, t1, c3, l2, h8, h9, rfl⟩ := expandList_append.1 h2
    obtain ⟨h10, rfl⟩ := expandList_noS hi hns h8
    have h11 := life_expandList he hns h8 h6
    have hIntro : introduced (pre ++ suf) = introduced pre := by
      rw [introduced_append]
      rcases h5 with rfl | ⟨q, d, _, rfl⟩ <;> simp [introduced, introduces, plain]
    rw [hIntro, ← h10] at h11 h7
    subst h7
    rw [introduced_append, List.length_append] at hfit
    have hsuf' : lifeRun (canon n (c + (introduced l1).length)) l2 = some (canon n (c + (introduced l1).length + (introduced l2).length)) ∧
        c2 = c + (introduced l1).length + (introduced l2).length := by
      rcases h5 with rfl | ⟨q, d, hq, rfl⟩
      · cases h9; exact ⟨rfl, rfl⟩
      · exact he.s _ _ _ _ _ _ _ (by omega) hq (by omega) (expandList_single.1 h9)
    obtain ⟨h12, rfl⟩ := hsuf'
    have h13 := ih (fun g hg => hgs g (by simp [hg])) (by omega) (by omega) h3
    rw [lifeRun_append, lifeRun_append, h11, Option.bind_some, h12, Option.bind_some, h13, introduced_append, introduced_append]
    simp only [List.length_append]
    congr 2
    omega

theorem life_rotate {st st' : Nat → Life} {i : Instr} {p : Nat} (h : lifeStep st i = some st') (hp : p ∈ uses i) :
    lifeStep st (plain (.rotate p)) = some st := by
  unfold lifeStep at h
  split at h
  · rename_i hall
    rw [List.all_eq_true] at hall
    have := hall p hp
    simp [lifeStep, plain, uses] at *
    exact this
  · cases h

theorem life_sq {st st' : Nat → Life} {i : Instr} {q : Nat} {o : SqOp} {d : Bool} (hop : i.op = .sq q o d) (h : lifeStep st i = some st') :
    st' = st ∧ st q = .alive := by
  unfold lifeStep at h
  split at h
  · rename_i hall
    rw [hop] at h
    rw [List.all_eq_true] at hall
    have := hall q (by simp [uses, hop])
    simp at this h
    exact ⟨h.symm, this⟩
  · cases h

theorem life_h_rotate {st st' : Nat → Life} {i : Instr} {q : Nat} {o : SqOp} {d : Bool} (hop : i.op = .sq q o d) (h : lifeStep st i = some st') :
    lifeRun st [i, plain (.rotate q)] = some st' := by
  obtain ⟨h1, h2⟩ := life_sq hop h
  simp [lifeRun, h]
  simp [lifeStep, plain, uses, h1, h2]

theorem life_id (n : Nat) : LifeOk n idExpand where
  noS := by intro t c i l t' c' st st' _ h hl; cases h; simp [lifeRun, hl]
  s := by
    intro t c q d l t' c' hc hq _ h; cases h
    simp [lifeRun, lifeStep, plain, uses, canon_alive hq, introduced, introduces]

theorem canon_die {n c k : Nat} (hn : n ≤ c) : upd (fun x => if c + 1 ≤ x ∧ x < c + 1 + k then Life.dead else upd (canon n c) c .alive x) c .dead = canon n (c + (1 + k)) := by
  rw [← canon_grow hn]
  funext x
  by_cases hx : x = c
  · subst hx; rw [upd_same, if_pos (by omega)]
  · rw [upd_other _ _ hx, upd_other _ _ hx]
    by_cases h7 : c ≤ x ∧ x < c + (1 + k)
    · rw [if_pos h7, if_pos (by omega)]
    · rw [if_neg h7, if_neg (by omega)]

theorem life_ystate {st : Nat → Life} {c q : Nat} (hq : st q = .alive) (hc : st c = .unborn) :
    lifeStep st { op := .ystate c q none, clients := [q] } = some (upd st c .alive) := by
  simp [lifeStep, uses, hq, create, hc]

theorem life_teleported (n : Nat) (rot : Bool) : LifeOk n (teleportedExpand (coreQubits n) rot) where
  noS := by
    intro t c i l t' c' st st' hi h hl
    obtain ⟨_, rfl | ⟨q, d, hop, _, _, rfl⟩⟩ := teleported_noS hi h
    · simp [lifeRun, hl]
    · exact life_h_rotate hop hl
  s := by
    intro t c q d l t' c' hc hq hfit h
    simp only [teleportedExpand, plain, newId] at h
    rw [if_pos (by simp [coreQubits, hq])] at h
    cases h
    have hlen : (introduced [({ op := .ystate c q none, clients := [q] } : Instr), { op := .multi [(c, .Z), (q, .Z)] false none },
      { op := .measure c .X false }, { op := .sq q .Z false }]).length = 1 := rfl
    rw [hlen] at hfit ⊢
    refine ⟨?_, Nat.mod_eq_of_lt hfit⟩
    have hqa := canon_alive (c := c) hq
    simp only [lifeRun, life_ystate hqa (canon_unborn hc (Nat.le_refl c)), Option.bind_some]
    have e : upd (canon n c) c .alive q = .alive := by rw [upd_other _ _ (by omega), hqa]
    have e2 : upd (upd (canon n c) c .alive) c .dead q = .alive := by rw [upd_other _ _ (by omega), e]
    simp only [lifeStep, uses, List.nil_append, List.map, List.all_cons, List.all_nil, e, e2, upd_same, decide_true, Bool.and_self, if_pos, Option.bind_some]
    congr 1
    rw [← canon_die (k := 0) hc]
    congr 1
    funext x
    rw [if_neg (by omega)]

theorem life_catalytic (n : Nat) (loc rot : Bool) : LifeOk n (catalyticExpand (coreQubits n) loc rot) where
  noS := by
    intro t c i l t' c' st st' hi h hl
    obtain ⟨_, rfl | ⟨q, d, hop, _, _, rfl⟩⟩ := catalytic_noS hi h
    · simp [lifeRun, hl]
    · exact life_h_rotate hop hl
  s := by
    intro t c q d l t' c' hc hq hfit h
    simp only [catalyticExpand, plain, newId] at h
    rw [if_pos (by simp [coreQubits, hq])] at h
    simp only [Outcome.bind_eq_ok] at h
    obtain ⟨⟨l1, c1⟩, h1, ⟨l2, c2⟩, h2, h3⟩ := h
    simp only [Outcome.ok.injEq, Prod.mk.injEq] at h3
    obtain ⟨rfl, -, rfl⟩ := h3
    dsimp only at h2
    have hlen : (introduced ([({ op := .ystate c q none, clients := [q] } : Instr)] ++ l1 ++ [{ op := .sq c .H false }, { op := .rotate c }] ++ l2 ++
        [{ op := .sq c .H false }, { op := .rotate c }, { op := .ystate c q none }])).length = 1 + (introduced l1).length + (introduced l2).length := by
      simp only [introduced_append, List.length_append]
      simp [introduced, introduces]
    rw [hlen] at hfit ⊢
    rw [Nat.mod_eq_of_lt (by omega : c + 1 < 2 ^ 32)] at h1
    have hqa := canon_alive (c := c) hq
    obtain ⟨k1, h4, h5, h6⟩ := life_cnot h1 (by omega) (st := upd (canon n c) c .alive) (by rw [upd_other _ _ (by omega), hqa]) (upd_same ..)
      (fun x hx => by rw [upd_other _ _ (by omega)]; exact canon_unborn hc (by omega))
    subst h4
    obtain ⟨k2, h7, h8, h9⟩ := life_cnot h2 (by omega) (st := fun x => if c + 1 ≤ x ∧ x < c + 1 + k1 then Life.dead else upd (canon n c) c .alive x)
      (by rw [if_neg (by omega), upd_other _ _ (by omega), hqa]) (by rw [if_neg (by omega), upd_same])
      (fun x hx => by rw [if_neg (by omega), upd_other _ _ (by omega)]; exact canon_unborn hc (by omega))
    rw [h5, h8]
    refine ⟨?_, by omega⟩
    have hy : ∀ st : Nat → Life, st c = .alive → lifeRun st [{ op := .sq c .H false }, { op := .rotate c }] = some st := by
      intro st h; simp [lifeRun, lifeStep, uses, h]
    have hend : ∀ st : Nat → Life, st c = .alive → st q = .alive →
        lifeRun st [{ op := .sq c .H false }, { op := .rotate c }, { op := .ystate c q none }] = some (upd st c .dead) := by
      intro st h h'; simp [lifeRun, lifeStep, uses, h, h']
    simp only [lifeRun_append]
    rw [show lifeRun (canon n c) [{ op := .ystate c q none, clients := [q] }] = some (upd (canon n c) c .alive) by
      simp [lifeRun, life_ystate hqa (canon_unborn hc (Nat.le_refl c))]]
    simp only [Option.bind_some, h6]
    rw [hy _ (by rw [if_neg (by omega), upd_same]), Option.bind_some, h9, Option.bind_some, hend]
    · congr 1
      rw [Nat.add_assoc 1 k1 k2, ← canon_die hc]
      congr 1
      funext x
      by_cases h10 : c + 1 ≤ x ∧ x < c + 1 + (k1 + k2)
      · rw [if_pos h10]; by_cases h11 : x < c + 1 + k1
        · rw [if_neg (by omega), if_pos (by omega)]
        · rw [if_pos (by omega)]
      · rw [if_neg h10, if_neg (by omega), if_neg (by omega)]
    · rw [if_neg (by omega), if_neg (by omega), upd_same]
    · rw [if_neg (by omega), if_neg (by omega), upd_other _ _ (by omega), hqa]

theorem lifeRun_rotations {st st' : Nat → Life} {i : Instr} (h : lifeStep st i = some st') {r : List Instr}
    (hr : ∀ j ∈ r, ∃ p ∈ uses i, j = plain (.rotate p)) : lifeRun st r = some st := by
  induction r with
  | nil => rfl
  | cons j r ih =>
    obtain ⟨p, hp, rfl⟩ := hr j (by simp)
    rw [lifeRun, life_rotate h hp, Option.bind_some]
    exact ih (fun j hj => hr j (by simp [hj]))

theorem rotations_noS {i : Instr} {r : List Instr} (hr : ∀ j ∈ r, ∃ p ∈ uses i, j = plain (.rotate p)) : ∀ j ∈ r, NoS j := by
  intro j hj; obtain ⟨p, _, rfl⟩ := hr j hj; exact noS_rotate p

theorem life_compact (n : Nat) (rot : Bool) : LifeOk n (thenExpand boundaryExpand (teleportedExpand (coreQubits n) rot)) where
  noS := by
    intro t c i l t' c' st st' hi h hl
    simp only [thenExpand, Outcome.bind_eq_ok] at h
    obtain ⟨⟨l1, t1, c1⟩, h1, ⟨l2, t2, c2⟩, h2, h3⟩ := h
    cases h3
    obtain ⟨rfl, r, rfl, hr⟩ := boundary_shape h1
    refine life_expandList (life_teleported n rot) ?_ h2 ?_
    · intro j hj
      rcases List.mem_append.1 hj with hj | hj
      · exact rotations_noS hr j hj
      · simp at hj; subst hj; exact hi
    · rw [lifeRun_append, lifeRun_rotations hl hr, Option.bind_some]; simp [lifeRun, hl]
  s := by
    intro t c q d l t' c' hc hq hfit h
    simp only [thenExpand, Outcome.bind_eq_ok] at h
    obtain ⟨⟨l1, t1, c1⟩, h1, ⟨l2, t2, c2⟩, h2, h3⟩ := h
    simp only [Outcome.ok.injEq, Prod.mk.injEq] at h3
    obtain ⟨rfl, -, rfl⟩ := h3
    obtain ⟨hc1, r, hl, hr⟩ := boundary_shape h1
    dsimp only at h2 hc1 hl
    subst hc1 hl
    obtain ⟨la, ta, ca, lb, h4, h5, rfl⟩ := expandList_append.1 h2
    obtain ⟨h7, rfl⟩ := expandList_noS (ids_teleported (coreQubits n) rot) (rotations_noS hr) h4
    have h8 : introduced r = [] := by
      unfold introduced
      rw [List.flatMap_eq_nil_iff]
      intro j hj
      obtain ⟨p, _, rfl⟩ := hr j hj; rfl
    rw [h8] at h7
    have hS : lifeStep (canon n ca) (plain (.sq q .S d)) = some (canon n ca) := by
      simp [lifeStep, plain, uses, canon_alive hq]
    have h9 := life_expandList (life_teleported n rot) (rotations_noS hr) h4 (lifeRun_rotations hS hr)
    have hI : introduced (la ++ lb) = introduced lb := by rw [introduced_append, h7]; rfl
    rw [hI] at hfit ⊢
    obtain ⟨h10, h11⟩ := (life_teleported n rot).s _ _ _ _ _ _ _ hc hq hfit (expandList_single.1 h5)
    rw [lifeRun_append, h9, Option.bind_some]
    exact ⟨h10, h11⟩

namespace Spec

/-- **C13.** For every gate program within its register, every mode and stage composition, and as long as ids
fit in 32 bits: replaying the compiled instructions, every instruction uses only patches that are alive at that
point, every id is brought to life at most once, and at the end exactly the core patches are alive while all
generated patches are gone. -/
theorem c13_lifetimes (m : Mode) (n : Nat) (ex : ExposedMap) (prog : List Gate) (out : List Instr) (h : Compiles m n ex prog out)
    (hreg : InRegister n prog) (hfit : n + (introduced out).length < 2 ^ 32) :
    ∃ st, lifeRun (coreAlive n) out = some st ∧ ∀ x, st x = if x < n then .alive else if x ∈ introduced out then .dead else .unborn := by
  have hn : n < 2 ^ 32 := by omega
  have key : lifeRun (canon n n) out = some (canon n (n + (introduced out).length)) := by
    obtain ⟨c', h | h | h | h⟩ := compiles_cases h
    · exact life_stage id_ne ids_id (life_id n) hreg (Nat.le_refl n) hfit h
    · exact life_stage (teleported_ne _ _) (ids_teleported _ _) (life_teleported n _) hreg (Nat.le_refl n) hfit h
    · exact life_stage (catalytic_ne _ _ _) (ids_catalytic _ _ _) (life_catalytic n _ _) hreg (Nat.le_refl n) hfit h
    · exact life_stage (nonempty_then boundary_ne (teleported_ne _ _)) (ids_compact _ _) (life_compact n _) hreg (Nat.le_refl n) hfit h
  rw [canon_start] at key
  refine ⟨_, key, ?_⟩
  intro x
  have h1 := c11_ids m n hn ex prog out h
  have hmem : x ∈ introduced out ↔ n ≤ x ∧ x < n + (introduced out).length := by
    generalize (introduced out).length = k at *
    rw [h1, List.mem_map]
    constructor
    · rintro ⟨j, hj, rfl⟩
      simp at hj
      rw [Nat.mod_eq_of_lt (by omega)]; omega
    · rintro ⟨h2, h3⟩
      exact ⟨x - n, by simp; omega, by rw [Nat.mod_eq_of_lt (by omega)]; omega⟩
  unfold canon
  by_cases h2 : x < n
  · rw [if_pos h2, if_pos h2]
  · rw [if_neg h2, if_neg h2]
    by_cases h3 : x < n + (introduced out).length
    · rw [if_pos h3, if_pos (hmem.2 ⟨by omega, h3⟩)]
    · rw [if_neg h3, if_neg (fun h => h3 (hmem.1 h).2)]

example : ∃ out, Compiles ⟨"q".toList, false, true⟩ 2 (fun _ => none)
    [.ctrl 0 (.basic 1 .Z) .controlFirst .dedicated, .basic 1 .T, .basic 0 .S] out ∧
    InRegister 2 [.ctrl 0 (.basic 1 .Z) .controlFirst .dedicated, .basic 1 .T, .basic 0 .S] ∧ 2 + (introduced out).length < 2 ^ 32 :=
  ⟨_, .catalytic 60 17 rfl, by unfold InRegister; decide, by decide⟩

/-- C13: the register hypothesis is needed, and nothing in the pipeline establishes it (C49). A CNOT whose
target index is the register size uses a patch that does not exist. -/
theorem c13_needs_register : ∃ out, Compiles ⟨"q".toList, false, false⟩ 2 (fun _ => none)
    [.ctrl 0 (.basic 2 .X) .controlFirst .nextToControl] out ∧ lifeRun (coreAlive 2) out = none :=
  ⟨_, .plain 40 3 rfl, by simp [lifeRun, lifeStep, uses, coreAlive, osetAll, oset]⟩

end Spec
end Verif.Stream
