import Verif.Play

/-! # Records made in a wave that are not immediate wait for the next wave: lemmas -/

namespace Verif.Pipe

open Verif.Wave

section
variable {σ : Type} {env : Env σ}

/-- `is_immediate` says yes. -/
def Imm (i : Instr) : Prop := isImmediate i = .ok true

/-- Attempting an instruction does not change whether it is immediate. -/
def KeepsKind (env : Env σ) : Prop := ∀ s i r, env.apply s i = .ok r → isImmediate r.instr = isImmediate i

/-- May be attempted in the wave that began with `n` records. -/
def May (n : Nat) (st : St σ) (id : Nat) : Prop := id < n ∨ (id < st.size ∧ Imm (st.instr id))

/-- From one state to another within the wave that began with `n` records. -/
structure Within (n : Nat) (st st' : St σ) : Prop where
  size : st.size ≤ st'.size
  keep : ∀ id, id < st.size → isImmediate (st'.instr id) = isImmediate (st.instr id)
  prox : st'.cur.prox = st.cur.prox ∧ st'.nxt.deferred = st.nxt.deferred
  heads : ∃ l, st'.cur.heads = st.cur.heads ++ l ∧ ∀ x ∈ l, May n st' x
  deferred : ∃ l, st'.cur.deferred = st.cur.deferred ++ l ∧ ∀ x ∈ l, May n st' x
  nheads : ∃ l, st'.nxt.heads = st.nxt.heads ++ l ∧ ∀ x ∈ l, x < st'.size
  nprox : ∃ l, st'.nxt.prox = st.nxt.prox ++ l ∧ ∀ x ∈ l, x < st'.size
  log : ∃ es, st'.log = st.log ++ es ∧ ∀ e ∈ es, e.id < n ∨ Imm e.instr

theorem Within.may {n : Nat} {st st' : St σ} (h : Within n st st') {id : Nat} (hm : May n st id) : May n st' id := by
  rcases hm with hm | ⟨h1, h2⟩
  · exact .inl hm
  · refine .inr ⟨by have := h.size; omega, ?_⟩
    unfold Imm at h2 ⊢
    rw [h.keep id h1, h2]

theorem Within.refl {n : Nat} (st : St σ) : Within n st st :=
  ⟨Nat.le_refl _, fun _ _ => rfl, ⟨rfl, rfl⟩, ⟨[], by simp, by simp⟩, ⟨[], by simp, by simp⟩, ⟨[], by simp, by simp⟩, ⟨[], by simp, by simp⟩, ⟨[], by simp, by simp⟩⟩

theorem Within.trans {n : Nat} {a b c : St σ} (h1 : Within n a b) (h2 : Within n b c) : Within n a c := by
  have hs := h2.size
  refine ⟨by have := h1.size; omega, ?_, ⟨h2.prox.1.trans h1.prox.1, h2.prox.2.trans h1.prox.2⟩, ?_, ?_, ?_, ?_, ?_⟩
  · intro id hid
    rw [h2.keep id (by have := h1.size; omega), h1.keep id hid]
  · obtain ⟨l, e, hl⟩ := h1.heads
    obtain ⟨l', e', hl'⟩ := h2.heads
    refine ⟨l ++ l', by rw [e', e, List.append_assoc], ?_⟩
    intro x hx
    rcases List.mem_append.1 hx with hx | hx
    · exact h2.may (hl x hx)
    · exact hl' x hx
  · obtain ⟨l, e, hl⟩ := h1.deferred
    obtain ⟨l', e', hl'⟩ := h2.deferred
    refine ⟨l ++ l', by rw [e', e, List.append_assoc], ?_⟩
    intro x hx
    rcases List.mem_append.1 hx with hx | hx
    · exact h2.may (hl x hx)
    · exact hl' x hx
  · obtain ⟨l, e, hl⟩ := h1.nheads
    obtain ⟨l', e', hl'⟩ := h2.nheads
    refine ⟨l ++ l', by rw [e', e, List.append_assoc], ?_⟩
    intro x hx
    rcases List.mem_append.1 hx with hx | hx
    · have := hl x hx; omega
    · exact hl' x hx
  · obtain ⟨l, e, hl⟩ := h1.nprox
    obtain ⟨l', e', hl'⟩ := h2.nprox
    refine ⟨l ++ l', by rw [e', e, List.append_assoc], ?_⟩
    intro x hx
    rcases List.mem_append.1 hx with hx | hx
    · have := hl x hx; omega
    · exact hl' x hx
  · obtain ⟨l, e, hl⟩ := h1.log
    obtain ⟨l', e', hl'⟩ := h2.log
    refine ⟨l ++ l', by rw [e', e, List.append_assoc], ?_⟩
    intro x hx
    rcases List.mem_append.1 hx with hx | hx
    · exact hl x hx
    · exact hl' x hx

/-- Only slice and counts change. -/
theorem Within.same {n : Nat} {st st' : St σ} (h1 : st'.size = st.size) (h2 : st'.instr = st.instr) (h3 : st'.cur = st.cur) (h4 : st'.nxt = st.nxt) (h5 : st'.log = st.log) : Within n st st' :=
  ⟨by omega, fun _ _ => by rw [h2], ⟨by rw [h3], by rw [h4]⟩, ⟨[], by simp [h3], by simp⟩, ⟨[], by simp [h3], by simp⟩, ⟨[], by simp [h4], by simp⟩, ⟨[], by simp [h4], by simp⟩, ⟨[], by simp [h5], by simp⟩⟩

theorem within_nextHead {n : Nat} (st : St σ) {j : Nat} (hj : j < st.size) : Within n st (pushNextHead st j) :=
  ⟨Nat.le_refl _, fun _ _ => rfl, ⟨rfl, rfl⟩, ⟨[], by simp [pushNextHead], by simp⟩, ⟨[], by simp [pushNextHead], by simp⟩, ⟨[j], rfl, by simpa [pushNextHead] using hj⟩, ⟨[], by simp [pushNextHead], by simp⟩, ⟨[], by simp [pushNextHead], by simp⟩⟩

theorem within_nextProx {n : Nat} (st : St σ) {j : Nat} (hj : j < st.size) : Within n st (pushNextProx st j) :=
  ⟨Nat.le_refl _, fun _ _ => rfl, ⟨rfl, rfl⟩, ⟨[], by simp [pushNextProx], by simp⟩, ⟨[], by simp [pushNextProx], by simp⟩, ⟨[], by simp [pushNextProx], by simp⟩, ⟨[j], rfl, by simpa [pushNextProx] using hj⟩, ⟨[], by simp [pushNextProx], by simp⟩⟩

theorem within_head {n : Nat} (st : St σ) {j : Nat} (hj : May n st j) : Within n st (pushHead st j) :=
  ⟨Nat.le_refl _, fun _ _ => rfl, ⟨rfl, rfl⟩, ⟨[j], rfl, fun x hx => by rw [List.mem_singleton.1 hx]; exact hj⟩, ⟨[], by simp [pushHead], by simp⟩, ⟨[], by simp [pushHead], by simp⟩, ⟨[], by simp [pushHead], by simp⟩, ⟨[], by simp [pushHead], by simp⟩⟩

theorem within_deferred {n : Nat} (st : St σ) {j : Nat} (hj : May n st j) : Within n st (pushDeferred st j) :=
  ⟨Nat.le_refl _, fun _ _ => rfl, ⟨rfl, rfl⟩, ⟨[], by simp [pushDeferred], by simp⟩, ⟨[j], rfl, fun x hx => by rw [List.mem_singleton.1 hx]; exact hj⟩, ⟨[], by simp [pushDeferred], by simp⟩, ⟨[], by simp [pushDeferred], by simp⟩, ⟨[], by simp [pushDeferred], by simp⟩⟩

/-- The attempt: what it leaves is within, and the record may still be attempted. -/
theorem applyTo_within (hk : KeepsKind env) {n : Nat} {st st' : St σ} {id : Nat} {r : Res σ} (h : applyTo env st id = .ok (r, st')) (hm : May n st id) :
    id < st.size ∧ Within n st st' ∧ Within n st (visit st' id r) ∧ May n st' id ∧ (id < n ∨ Imm r.instr) := by
  unfold applyTo at h
  split at h
  · rename_i hlt
    obtain ⟨x, h1, h⟩ := Outcome.bind_eq_ok.1 h
    cases h
    have hi := hk _ _ _ h1
    have keep : ∀ k, isImmediate (upd st.instr id r.instr k) = isImmediate (st.instr k) := by
      intro k
      by_cases e : k = id
      · subst e; rw [upd_same, hi]
      · rw [upd_other _ _ e]
    have hor : id < n ∨ Imm r.instr := by
      rcases hm with hm | ⟨-, hm⟩
      · exact .inl hm
      · exact .inr (by unfold Imm at hm ⊢; rw [hi, hm])
    have hw : Within n st { st with slice := r.slice, instr := upd st.instr id r.instr } :=
      ⟨Nat.le_refl _, fun k _ => keep k, ⟨rfl, rfl⟩, ⟨[], by simp, by simp⟩, ⟨[], by simp, by simp⟩, ⟨[], by simp, by simp⟩, ⟨[], by simp, by simp⟩, ⟨[], by simp, by simp⟩⟩
    refine ⟨hlt, hw, ?_, hw.may hm, hor⟩
    refine ⟨Nat.le_refl _, fun k _ => keep k, ⟨rfl, rfl⟩, ⟨[], by simp [visit], by simp⟩, ⟨[], by simp [visit], by simp⟩, ⟨[], by simp [visit], by simp⟩, ⟨[], by simp [visit], by simp⟩, ⟨[⟨id, r.instr, r.followups⟩], rfl, ?_⟩⟩
    intro e he
    rw [List.mem_singleton.1 he]
    exact hor
  · cases h

def RecWithin (n : Nat) (f : Rec σ) : Prop := ∀ st id prox b st', f st id prox = .ok (b, st') → Within n st st' ∧ id < st.size

theorem release_within {n : Nat} {f : Rec σ} (hf : RecWithin n f) {st st' : St σ} {j : Nat} {prox : Bool} (hj : j < st.size) (h : release f st j prox = .ok st') : Within n st st' := by
  unfold release at h
  split at h
  · obtain ⟨imm, h1, h⟩ := Outcome.bind_eq_ok.1 h
    cases h
    cases imm with
    | true => exact within_head st (.inr ⟨hj, h1⟩)
    | false => exact within_nextHead st hj
  · obtain ⟨⟨b, s⟩, h1, h⟩ := Outcome.bind_eq_ok.1 h
    cases h
    obtain ⟨hw, -⟩ := hf _ _ _ _ _ h1
    cases b
    · exact hw.trans (within_nextHead s (by have := hw.size; omega))
    · exact hw

theorem depLoop_within {n : Nat} {f : Rec σ} (hf : RecWithin n f) {prox : Bool} {n0 : Nat} : ∀ {js : List Nat} {st st' : St σ}, depLoop env f prox n0 st js = .ok st' → Within n st st'
  | [], _, _, h => by cases h; exact .refl _
  | j :: js, st, st', h => by
    rw [depLoop] at h
    split at h
    · cases h
    · split at h
      · cases h
      · rename_i hj
        obtain ⟨s, h3, h⟩ := Outcome.bind_eq_ok.1 h
        refine Within.trans ?_ (depLoop_within hf h)
        unfold oneDep at h3
        dsimp only at h3
        split at h3
        · refine Within.trans ?_ (release_within hf (by dsimp only; omega) h3)
          exact .same rfl rfl rfl rfl rfl
        · cases h3; exact .same rfl rfl rfl rfl rfl

theorem followLoop_within {n : Nat} {f : Rec σ} (hf : RecWithin n f) {prox : Bool} {n0 : Nat} {deps : List Nat} {o : Nat} :
    ∀ {fs : List Instr} {st st' : St σ}, followLoop env f prox n0 deps o st fs = .ok st' → Within n st st'
  | [], _, _, h => by cases h; exact .refl _
  | i :: fs, st, st', h => by
    rw [followLoop] at h
    split at h
    · cases h
    · obtain ⟨⟨b, s⟩, h3, h⟩ := Outcome.bind_eq_ok.1 h
      refine Within.trans ?_ (followLoop_within hf h)
      obtain ⟨hw, hlt⟩ := hf _ _ _ _ _ h3
      have h0 : Within n st { st with size := st.size + 1, instr := upd st.instr st.size i, deps := upd st.deps st.size deps, count := upd st.count st.size 0, origin := upd st.origin st.size o } := by
        refine ⟨by dsimp only; omega, ?_, ⟨rfl, rfl⟩, ⟨[], by simp, by simp⟩, ⟨[], by simp, by simp⟩, ⟨[], by simp, by simp⟩, ⟨[], by simp, by simp⟩, ⟨[], by simp, by simp⟩⟩
        intro k hk
        dsimp only
        rw [upd_other _ _ (by omega)]
      have hs := hw.size
      cases b
      · exact h0.trans (hw.trans (within_nextProx s (by omega)))
      · exact h0.trans hw

theorem addDelta_rest (delta : Nat) : ∀ (js : List Nat) (st : St σ), (addDelta st delta js).size = st.size ∧ (addDelta st delta js).instr = st.instr ∧
    (addDelta st delta js).cur = st.cur ∧ (addDelta st delta js).nxt = st.nxt
  | [], _ => ⟨rfl, rfl, rfl, rfl⟩
  | j :: js, st => by
    rw [addDelta]
    exact addDelta_rest delta js _

theorem notify_within {n : Nat} {f : Rec σ} (hf : RecWithin n f) {st st' : St σ} {id : Nat} {fs : List Instr} {prox : Bool} (h : notify env f st id fs prox = .ok st') : Within n st st' := by
  unfold notify at h
  cases fs with
  | nil => exact depLoop_within hf h
  | cons a fs =>
    dsimp only at h
    refine Within.trans ?_ (followLoop_within hf h)
    split
    · obtain ⟨h1, h2, h3, h4⟩ := addDelta_rest fs.length (st.deps id) st
      exact .same h1 h2 h3 h4 (addDelta_same _ _ _).1
    · exact .refl _

theorem tryImm_within (hk : KeepsKind env) (n : Nat) : ∀ d, RecWithin n (tryImm env d)
  | 0, _, _, _, _, _, h => by cases h
  | d + 1, st, id, prox, b, st', h => by
    rw [tryImm] at h
    split at h
    · cases h
    · rename_i hlt
      refine ⟨?_, by omega⟩
      obtain ⟨imm, h2, h⟩ := Outcome.bind_eq_ok.1 h
      split at h
      · cases h; exact .refl _
      · rename_i him
        have hm : May n st id := .inr ⟨by omega, by unfold Imm; rw [h2]; simpa using him⟩
        obtain ⟨⟨r, s⟩, h4, h⟩ := Outcome.bind_eq_ok.1 h
        obtain ⟨-, w1, w2, w3, -⟩ := applyTo_within hk h4 hm
        have hs := w2.size
        dsimp only at h
        split at h
        · split at h
          · cases h; exact w1.trans (within_deferred _ w3)
          · cases h; exact w1
        · split at h
          · cases h; exact w2.trans (within_nextProx _ (by omega))
          · obtain ⟨z, h7, h⟩ := Outcome.bind_eq_ok.1 h
            cases h
            exact w2.trans (notify_within (tryImm_within hk n d) h7)

theorem schedOne_within (hk : KeepsKind env) {n : Nat} {f : Rec σ} (hf : RecWithin n f) {prox df : Bool} {st st' : St σ} {id : Nat} (hm : May n st id)
    (h : schedOne env f prox df st id = .ok st') : Within n st st' := by
  unfold schedOne at h
  obtain ⟨⟨r, s⟩, h4, h⟩ := Outcome.bind_eq_ok.1 h
  obtain ⟨hlt, w1, w2, w3, -⟩ := applyTo_within hk h4 hm
  have hs := w2.size
  have hs1 := w1.size
  dsimp only at h
  split at h
  · split at h
    · cases h; exact w2.trans (within_nextProx _ (by omega))
    · exact w2.trans (notify_within hf h)
  · split at h
    · cases h; exact w1.trans (within_deferred _ w3)
    · split at h
      · cases h; exact w1
      · split at h
        · cases h
        · split at h
          · cases h
          · cases h
            refine w1.trans (Within.trans (b := { s with instr := upd s.instr id { r.instr with wait := r.instr.wait - 1 } }) ?_ (within_nextHead _ (by dsimp only; omega)))
            refine ⟨Nat.le_refl _, ?_, ⟨rfl, rfl⟩, ⟨[], by simp, by simp⟩, ⟨[], by simp, by simp⟩, ⟨[], by simp, by simp⟩, ⟨[], by simp, by simp⟩, ⟨[], by simp, by simp⟩⟩
            intro k hk
            by_cases e : k = id
            · subst e
              have : s.instr k = r.instr := by
                unfold applyTo at h4
                rw [if_pos hlt] at h4
                obtain ⟨x, -, h4⟩ := Outcome.bind_eq_ok.1 h4
                cases h4
                exact upd_same _ _ _
              dsimp only
              rw [upd_same, this]
              rfl
            · dsimp only; rw [upd_other _ _ e]

theorem schedList_within (hk : KeepsKind env) {n : Nat} {f : Rec σ} (hf : RecWithin n f) {prox df : Bool} : ∀ {ids : List Nat} {st st' : St σ}, (∀ x ∈ ids, May n st x) →
    schedList env f prox df st ids = .ok st' → Within n st st'
  | [], _, _, _, h => by cases h; exact .refl _
  | id :: ids, st, st', hm, h => by
    rw [schedList] at h
    obtain ⟨s, h1, h⟩ := Outcome.bind_eq_ok.1 h
    have w := schedOne_within hk hf (hm id (by simp)) h1
    exact w.trans (schedList_within hk hf (fun x hx => w.may (hm x (by simp [hx]))) h)

/-- What is queued exists. -/
def Queued (st : St σ) : Prop := (∀ x ∈ st.cur.prox ++ st.cur.heads, x < st.size) ∧ st.cur.deferred = [] ∧ st.nxt.prox = [] ∧ st.nxt.heads = [] ∧ st.nxt.deferred = []

/-- One wave: only records that were there before, and immediate ones, are shown. -/
theorem scheduleWave_within (hk : KeepsKind env) {depth : Nat} {st st' : St σ} (hq : Queued st) (h : scheduleWave env depth st = .ok st') :
    Queued st' ∧ st.size ≤ st'.size ∧ ∃ es, st'.log = st.log ++ es ∧ ∀ e ∈ es, e.id < st.size ∨ Imm e.instr := by
  have hf := tryImm_within hk st.size depth
  unfold scheduleWave at h
  obtain ⟨s1, h1, h⟩ := Outcome.bind_eq_ok.1 h
  obtain ⟨s2, h2, h⟩ := Outcome.bind_eq_ok.1 h
  obtain ⟨s3, h3, h⟩ := Outcome.bind_eq_ok.1 h
  cases h
  obtain ⟨hq1, hq2, hq3, hq4, hq5⟩ := hq
  have w1 := schedList_within hk hf (fun x hx => .inl (hq1 x (by simp [hx]))) h1
  have w2 : Within st.size s1 s2 := by
    refine schedList_within hk hf ?_ h2
    obtain ⟨l, e, hl⟩ := w1.heads
    rw [e]
    intro x hx
    rcases List.mem_append.1 hx with hx | hx
    · exact .inl (hq1 x (by simp [hx]))
    · exact hl x hx
  have w12 := w1.trans w2
  have hdef : ∀ x ∈ s2.cur.deferred, May st.size s2 x := by
    obtain ⟨l, e, hl⟩ := w12.deferred
    rw [e, hq2]
    simpa using hl
  have w3 : Within st.size s2 s3 := by
    unfold rounds at h3
    split at h3
    · obtain ⟨s4, h5, h3⟩ := Outcome.bind_eq_ok.1 h3
      obtain ⟨sl, h6, h3⟩ := Outcome.bind_eq_ok.1 h3
      have w4 := schedList_within hk hf hdef h5
      have w5 : Within st.size s2 { s4 with slice := sl } := w4.trans (.same rfl rfl rfl rfl rfl)
      refine w5.trans (schedList_within hk hf ?_ h3)
      obtain ⟨l, e, hl⟩ := w4.deferred
      intro x hx
      rw [e] at hx
      rcases List.mem_append.1 hx with hx | hx
      · exact w5.may (hdef x hx)
      · exact hl x hx
    · cases h3; exact .refl _
  have w := w12.trans w3
  refine ⟨⟨?_, w.prox.2.trans hq5, rfl, rfl, rfl⟩, w.size, w.log⟩
  obtain ⟨l, e, hl⟩ := w.nheads
  obtain ⟨l', e', hl'⟩ := w.nprox
  dsimp only
  rw [e, e', hq3, hq4]
  intro x hx
  rcases List.mem_append.1 hx with hx | hx
  · exact hl' x (by simpa using hx)
  · exact hl x (by simpa using hx)

end

end Verif.Pipe
