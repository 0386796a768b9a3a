import Verif.Pipeline

/-! # Streamed pipeline: invariant and properties (C25, C26, C27) -/

namespace Verif.Pipe.Spec

open Verif.Pipe Verif.Wave

/-! ### Specification -/

/-- An attempt to apply an instruction. -/
structure Att where
  it : Item
  err : Bool
  followups : List Instr
  deriving Repr, DecidableEq

/-- The attempts, in order. -/
def attempts {σ : Type} : List (Ev σ) → List Att
  | [] => []
  | .attempt it e f :: l => ⟨it, e, f⟩ :: attempts l
  | _ :: l => attempts l

/-- Source indices of the instructions shown to the visitor, in order. -/
def shownTags {σ : Type} : List (Ev σ) → List Nat
  | [] => []
  | .instr t _ :: l => t :: shownTags l
  | _ :: l => shownTags l

/-- The number of slices shown. -/
def slicesShown {σ : Type} : List (Ev σ) → Nat
  | [] => 0
  | .slice _ :: l => slicesShown l + 1
  | _ :: l => slicesShown l

/-- The attempt failed and the instruction has to wait. -/
def Att.waits (a : Att) : Bool := a.err && a.followups.isEmpty

/-- Where an attempt comes from, given the earlier attempts: it is the first attempt for a source instruction; or for a
follow-up of an earlier attempt for the same source instruction; or a repetition of the attempt just before. -/
inductive Origin (prog : List Instr) (pre : List Att) (e : Att) : Prop
  | source (h1 : prog[e.it.tag]? = some e.it.instr) (h2 : e.it.tries = 0) (h3 : e.it.budget = e.it.instr.wait) (h4 : ∀ a ∈ pre, a.it.tag < e.it.tag)
  | followup (a : Att) (h1 : a ∈ pre) (h2 : a.it.tag = e.it.tag) (h3 : e.it.instr ∈ a.followups) (h4 : e.it.tries = 0) (h5 : e.it.budget = e.it.instr.wait)
  | again (pre' : List Att) (a : Att) (h1 : pre = pre' ++ [a]) (h2 : a.waits = true) (h3 : a.it.tag = e.it.tag)
      (h4 : e.it.tries = a.it.tries + 1) (h5 : e.it.budget = a.it.budget) (h6 : e.it.instr.wait + 1 = a.it.instr.wait)

/-- Attempts for source instruction `k` that did not end in waiting. -/
def settled (l : List Att) (k : Nat) : Nat := (l.filter (fun a => decide (a.it.tag = k) && !a.waits)).length

/-- Follow-ups produced for source instruction `k`. -/
def produced (l : List Att) (k : Nat) : Nat := ((l.filter (fun a => decide (a.it.tag = k))).map (fun a => a.followups.length)).sum

/-- A failed attempt leaves the waiting budget of the instruction alone. -/
def KeepsBudget {σ : Type} (env : Env σ) : Prop := ∀ s i r, env.apply s i = .ok r → r.err = true → r.followups = [] → r.instr.wait = i.wait

/-! ### Lemmas -/

section
variable {σ : Type}

theorem attempts_append (a b : List (Ev σ)) : attempts (a ++ b) = attempts a ++ attempts b := by
  induction a with
  | nil => rfl
  | cons e a ih => cases e <;> simp [attempts, ih]

theorem shownTags_append (a b : List (Ev σ)) : shownTags (a ++ b) = shownTags a ++ shownTags b := by
  induction a with
  | nil => rfl
  | cons e a ih => cases e <;> simp [shownTags, ih]

theorem slicesShown_append (a b : List (Ev σ)) : slicesShown (a ++ b) = slicesShown a + slicesShown b := by
  induction a with
  | nil => simp [slicesShown]
  | cons e a ih => cases e <;> simp [slicesShown, ih] <;> omega

theorem settled_append (l : List Att) (a : Att) (k : Nat) : settled (l ++ [a]) k = settled l k + (if a.it.tag = k ∧ a.waits = false then 1 else 0) := by
  unfold settled
  rw [List.filter_append, List.length_append]
  congr 1
  by_cases h1 : a.it.tag = k <;> cases h2 : a.waits <;> simp [h1, h2]

theorem produced_append (l : List Att) (a : Att) (k : Nat) : produced (l ++ [a]) k = produced l k + (if a.it.tag = k then a.followups.length else 0) := by
  unfold produced
  rw [List.filter_append, List.map_append, List.sum_append]
  congr 1
  by_cases h1 : a.it.tag = k <;> simp [h1]

/-- What an item in the queue comes from. -/
inductive QOrigin (prog : List Instr) (pre : List Att) (first : Bool) (q : Item) : Prop
  | followup (a : Att) (h1 : a ∈ pre) (h2 : a.it.tag = q.tag) (h3 : q.instr ∈ a.followups) (h4 : q.tries = 0) (h5 : q.budget = q.instr.wait)
  | again (pre' : List Att) (a : Att) (h0 : first = true) (h1 : pre = pre' ++ [a]) (h2 : a.waits = true) (h3 : a.it.tag = q.tag)
      (h4 : q.tries = a.it.tries + 1) (h5 : q.budget = a.it.budget) (h6 : q.instr.wait + 1 = a.it.instr.wait)

structure SInv (prog : List Instr) (st : SSt σ) : Prop where
  read : st.read ≤ prog.length
  stream : st.stream = prog.drop st.read
  ftag : ∀ q ∈ st.future, q.tag + 1 = st.read
  fbudget : ∀ q ∈ st.future, q.instr.wait + q.tries = q.budget
  forigin : ∀ q qs, st.future = q :: qs → QOrigin prog (attempts st.events) true q ∧ ∀ q' ∈ qs, QOrigin prog (attempts st.events) false q'
  atag : ∀ a ∈ attempts st.events, a.it.tag < st.read
  sorted : (attempts st.events).Pairwise (fun a b => a.it.tag ≤ b.it.tag)
  stag : ∀ t ∈ shownTags st.events, t < st.read
  ssorted : (shownTags st.events).Pairwise (· ≤ ·)
  abudget : ∀ a ∈ attempts st.events, a.it.instr.wait + a.it.tries = a.it.budget
  awaits : ∀ a ∈ attempts st.events, a.waits = true → a.it.tries < a.it.budget
  origin : ∀ pre e post, attempts st.events = pre ++ e :: post → Origin prog pre e
  conserve : ∀ k, k < st.read → settled (attempts st.events) k + (st.future.filter (fun q => decide (q.tag = k))).length = 1 + produced (attempts st.events) k
  slices : slicesShown st.events + 1 = st.count + ((attempts st.events).filter Att.waits).length

theorem sinv_start (slice : σ) (prog : List Instr) : SInv prog (sstart slice prog) := by
  refine ⟨by simp [sstart], rfl, ?_, ?_, ?_, ?_, ?_, ?_, ?_, ?_, ?_, ?_, ?_, ?_⟩ <;> simp [sstart, attempts, shownTags, slicesShown]

/-- The state after an item has been taken: it is no longer in the queue. -/
structure Taken (prog : List Instr) (it : Item) (st : SSt σ) : Prop where
  read : st.read ≤ prog.length
  stream : st.stream = prog.drop st.read
  tag : it.tag + 1 = st.read
  budget : it.instr.wait + it.tries = it.budget
  ftag : ∀ q ∈ st.future, q.tag + 1 = st.read
  fbudget : ∀ q ∈ st.future, q.instr.wait + q.tries = q.budget
  forigin : ∀ q ∈ st.future, QOrigin prog (attempts st.events) false q
  atag : ∀ a ∈ attempts st.events, a.it.tag < st.read
  sorted : (attempts st.events).Pairwise (fun a b => a.it.tag ≤ b.it.tag)
  stag : ∀ t ∈ shownTags st.events, t < st.read
  ssorted : (shownTags st.events).Pairwise (· ≤ ·)
  abudget : ∀ a ∈ attempts st.events, a.it.instr.wait + a.it.tries = a.it.budget
  awaits : ∀ a ∈ attempts st.events, a.waits = true → a.it.tries < a.it.budget
  origin : ∀ pre e post, attempts st.events = pre ++ e :: post → Origin prog pre e
  itOrigin : ∀ err fs, Origin prog (attempts st.events) ⟨it, err, fs⟩
  conserve : ∀ k, k < st.read → settled (attempts st.events) k + (st.future.filter (fun q => decide (q.tag = k))).length + (if it.tag = k then 1 else 0) = 1 + produced (attempts st.events) k
  slices : slicesShown st.events + 1 = st.count + ((attempts st.events).filter Att.waits).length

theorem QOrigin.toOrigin {prog : List Instr} {pre : List Att} {b : Bool} {q : Item} (h : QOrigin prog pre b q) (err : Bool) (fs : List Instr) : Origin prog pre ⟨q, err, fs⟩ := by
  cases h with
  | followup a h1 h2 h3 h4 h5 => exact .followup a h1 h2 h3 h4 h5
  | again pre' a h0 h1 h2 h3 h4 h5 h6 => exact .again pre' a h1 h2 h3 h4 h5 h6

theorem QOrigin.weaken {prog : List Instr} {pre : List Att} {q : Item} (h : QOrigin prog pre false q) (a : Att) (b : Bool) : QOrigin prog (pre ++ [a]) b q := by
  cases h with
  | followup a h1 h2 h3 h4 h5 => exact .followup a (by simp [h1]) h2 h3 h4 h5
  | again pre' a h0 => cases h0

theorem take_taken {prog : List Instr} {st st' : SSt σ} {it : Item} (h : SInv prog st) (ht : takeNext st = some (it, st')) : Taken prog it st' := by
  unfold takeNext at ht
  split at ht
  · rename_i q qs hf
    simp only [Option.some.injEq, Prod.mk.injEq] at ht
    obtain ⟨rfl, rfl⟩ := ht
    have ho := h.forigin q qs hf
    refine ⟨h.read, h.stream, h.ftag _ (by simp [hf]), h.fbudget _ (by simp [hf]), fun x hx => h.ftag x (by simp [hf, hx]), fun x hx => h.fbudget x (by simp [hf, hx]),
      ho.2, h.atag, h.sorted, h.stag, h.ssorted, h.abudget, h.awaits, h.origin, fun err fs => ho.1.toOrigin err fs, ?_, h.slices⟩
    intro k hk
    have := h.conserve k hk
    rw [hf, List.filter_cons] at this
    by_cases e : q.tag = k
    · simp only [e, decide_true, if_true, List.length_cons] at this ⊢; omega
    · simp only [e, decide_false, if_false, Bool.false_eq_true] at this ⊢; omega
  · rename_i hf
    split at ht
    · rename_i i is hs
      simp only [Option.some.injEq, Prod.mk.injEq] at ht
      obtain ⟨rfl, rfl⟩ := ht
      have hstream := h.stream
      rw [hs] at hstream
      have hlt : st.read < prog.length := by
        by_cases hl : st.read < prog.length
        · exact hl
        · rw [List.drop_eq_nil_of_le (by omega)] at hstream; cases hstream
      have hd := List.drop_eq_getElem_cons hlt
      rw [hd] at hstream
      simp only [List.cons.injEq] at hstream
      obtain ⟨e1, e2⟩ := hstream
      refine ⟨by simp only; omega, e2, rfl, by simp, by simp [hf], by simp [hf], by simp [hf], ?_, h.sorted, ?_, h.ssorted, h.abudget, h.awaits, h.origin, ?_, ?_, h.slices⟩
      · intro a ha; have := h.atag a ha; simp only; omega
      · intro t ht; have := h.stag t ht; simp only; omega
      · intro err fs
        refine .source ?_ rfl rfl (fun a ha => h.atag a ha)
        simp only
        rw [List.getElem?_eq_getElem hlt, e1]
      · intro k hk
        simp only at hk ⊢
        rw [hf]
        by_cases e : st.read = k
        · subst e
          have z1 : settled (attempts st.events) st.read = 0 := by
            unfold settled
            rw [List.length_eq_zero_iff, List.filter_eq_nil_iff]
            intro a ha hc
            have := h.atag a ha
            simp at hc; omega
          have z2 : produced (attempts st.events) st.read = 0 := by
            unfold produced
            rw [List.filter_eq_nil_iff.2]
            · rfl
            · intro a ha hc
              have := h.atag a ha
              simp at hc; omega
          simp [z1, z2]
        · have := h.conserve k (by omega)
          rw [hf] at this
          simp only [e, if_false]; simpa using this
    · cases ht

theorem snoc_split {α : Type} {l : List α} {x : α} {pre post : List α} {e : α} (h : l ++ [x] = pre ++ e :: post) :
    (pre = l ∧ e = x ∧ post = []) ∨ ∃ post', post = post' ++ [x] ∧ l = pre ++ e :: post' := by
  rcases List.eq_nil_or_concat post with rfl | ⟨p, z, rfl⟩
  · left
    obtain ⟨h1, h2⟩ := List.append_inj' h rfl
    simp only [List.cons.injEq, and_true] at h2
    exact ⟨h1.symm, h2.symm, rfl⟩
  · right
    have h' : l ++ [x] = (pre ++ e :: p) ++ [z] := by simpa using h
    obtain ⟨h1, h2⟩ := List.append_inj' h' rfl
    simp only [List.cons.injEq, and_true] at h2
    exact ⟨p, by rw [h2, List.concat_eq_append], h1⟩

/-- What is common to all reactions: the attempt has been recorded. -/
theorem react_common {prog : List Instr} {it : Item} {st : SSt σ} (h : Taken prog it st) (a : Att) (ha : a.it = it) (sl : List (Ev σ)) (tags : List Nat) (evs : List (Ev σ))
    (he : attempts evs = [a]) (hs : shownTags evs = tags) (ht : ∀ t ∈ tags, t = it.tag) (_ : sl = []) :
    (∀ x ∈ attempts (st.events ++ evs), x.it.tag < st.read) ∧ (attempts (st.events ++ evs)).Pairwise (fun a b => a.it.tag ≤ b.it.tag) ∧
    (∀ t ∈ shownTags (st.events ++ evs), t < st.read) ∧ (tags.Pairwise (· ≤ ·) → (shownTags (st.events ++ evs)).Pairwise (· ≤ ·)) ∧
    (∀ x ∈ attempts (st.events ++ evs), x.it.instr.wait + x.it.tries = x.it.budget) ∧
    (∀ pre e post, attempts (st.events ++ evs) = pre ++ e :: post → Origin prog pre e) := by
  have htag := h.tag
  rw [attempts_append, he, shownTags_append, hs]
  refine ⟨?_, ?_, ?_, ?_, ?_, ?_⟩
  · intro x hx
    rw [List.mem_append, List.mem_singleton] at hx
    rcases hx with hx | rfl
    · exact h.atag x hx
    · rw [ha]; omega
  · rw [List.pairwise_append]
    refine ⟨h.sorted, by simp, ?_⟩
    intro x hx y hy
    rw [List.mem_singleton] at hy
    subst hy
    have := h.atag x hx
    rw [ha]; omega
  · intro t hx
    rw [List.mem_append] at hx
    rcases hx with hx | hx
    · exact h.stag t hx
    · have := ht t hx; omega
  · intro hp
    rw [List.pairwise_append]
    refine ⟨h.ssorted, hp, ?_⟩
    intro x hx y hy
    have := h.stag x hx
    have := ht y hy
    omega
  · intro x hx
    rw [List.mem_append, List.mem_singleton] at hx
    rcases hx with hx | rfl
    · exact h.abudget x hx
    · rw [ha]; exact h.budget
  · intro pre e post hsplit
    rcases snoc_split hsplit with ⟨rfl, rfl, rfl⟩ | ⟨post', rfl, h2⟩
    · have := h.itOrigin e.err e.followups
      rw [← ha] at this
      exact this
    · exact h.origin pre e post' h2

theorem react_inv {env : Env σ} (hk : KeepsBudget env) {prog : List Instr} {it : Item} {st : SSt σ} {s : σ} (h : Taken prog it st) {r : Res σ}
    (hr : env.apply s it.instr = .ok r) :
    (∀ st', react env st it r = .ok (.go, st') → SInv prog st') ∧
    (∀ st', react env st it r = .ok (.failed, st') → ∃ pre, attempts st'.events = pre ++ [⟨it, true, []⟩] ∧ it.tries = it.budget ∧
      (∀ a ∈ attempts st'.events, a.it.instr.wait + a.it.tries = a.it.budget) ∧ (∀ a ∈ pre, a.waits = true → a.it.tries < a.it.budget) ∧
      (attempts st'.events).Pairwise (fun a b => a.it.tag ≤ b.it.tag) ∧ (shownTags st'.events).Pairwise (· ≤ ·) ∧
      (∀ pre e post, attempts st'.events = pre ++ e :: post → Origin prog pre e)) ∧
    (∀ st', react env st it r ≠ .ok (.finished, st')) := by
  have htag := h.tag
  have hb := h.budget
  have hev : ∀ (sl : List (Ev σ)), attempts sl = [] → attempts ([Ev.attempt it r.err r.followups] ++ (if r.err then [] else [Ev.instr it.tag r.instr]) ++ sl) = [⟨it, r.err, r.followups⟩] := by
    intro sl hsl
    rw [attempts_append, hsl]
    cases r.err <;> simp [attempts]
  have hsh : ∀ (sl : List (Ev σ)), shownTags sl = [] → shownTags ([Ev.attempt it r.err r.followups] ++ (if r.err then [] else [Ev.instr it.tag r.instr]) ++ sl) = if r.err then [] else [it.tag] := by
    intro sl hsl
    rw [shownTags_append, hsl]
    cases r.err <;> simp [shownTags]
  have hslc : ∀ (sl : List (Ev σ)), slicesShown ([Ev.attempt it r.err r.followups] ++ (if r.err then [] else [Ev.instr it.tag r.instr]) ++ sl) = slicesShown sl := by
    intro sl
    rw [slicesShown_append]
    cases r.err <;> simp [slicesShown]
  have htags : ∀ t ∈ (if r.err then [] else [it.tag]), t = it.tag := by cases r.err <;> simp
  have hpw : (if r.err then [] else [it.tag]).Pairwise (· ≤ ·) := by cases r.err <;> simp
  unfold react
  by_cases hf : r.followups = []
  · -- no follow-ups
    rw [if_neg (by simp [hf])]
    cases herr : r.err with
    | false =>
      rw [if_neg (by simp)]
      refine ⟨?_, fun st' e => by simp at e, fun st' e => by simp at e⟩
      intro st' e
      simp only [Outcome.ok.injEq, Prod.mk.injEq, true_and] at e
      subst e
      have hev' := hev [] rfl
      have hsh' := hsh [] rfl
      have hsl' := hslc []
      simp only [herr, List.append_nil] at hev' hsh' hsl'
      obtain ⟨c1, c2, c3, c4, c5, c6⟩ := react_common h ⟨it, false, r.followups⟩ rfl [] _ _ hev' hsh' (by simp) rfl
      have hw : (Att.mk it false r.followups).waits = false := by simp [Att.waits]
      refine ⟨h.read, h.stream, h.ftag, h.fbudget, ?_, c1, c2, c3, c4 (by simp), c5, ?_, c6, ?_, ?_⟩
      · intro q qs hq
        simp only at hq ⊢
        rw [attempts_append, hev']
        exact ⟨(h.forigin q (by simp [hq])).weaken _ _, fun q' hq' => (h.forigin q' (by simp [hq, hq'])).weaken _ _⟩
      · intro a ha hw'
        simp only at ha
        rw [attempts_append, hev', List.mem_append, List.mem_singleton] at ha
        rcases ha with ha | rfl
        · exact h.awaits a ha hw'
        · rw [hw] at hw'; cases hw'
      · intro k hk
        simp only at hk ⊢
        rw [attempts_append, hev', settled_append, produced_append]
        have := h.conserve k hk
        rw [hw]
        simp only [hf, List.length_nil, and_true, ite_self, Nat.add_zero]
        omega
      · simp only
        rw [attempts_append, hev', slicesShown_append, hsl', List.filter_append]
        have := h.slices
        simp [hw, slicesShown]; omega
    | true =>
      rw [if_pos rfl]
      have hkeep := hk _ _ _ hr herr hf
      have hev' := hev [.slice r.slice] rfl
      have hsh' := hsh [.slice r.slice] rfl
      have hsl' := hslc [.slice r.slice]
      simp only [herr, if_true, List.append_nil] at hev' hsh' hsl'
      obtain ⟨c1, c2, c3, c4, c5, c6⟩ := react_common h ⟨it, true, r.followups⟩ rfl [] _ _ hev' hsh' (by simp) rfl
      have hw : (Att.mk it true r.followups).waits = true := by simp [Att.waits, hf]
      by_cases hz : r.instr.wait = 0
      · rw [if_pos hz]
        refine ⟨fun st' e => by simp at e, ?_, fun st' e => by simp at e⟩
        intro st' e
        simp only [Outcome.ok.injEq, Prod.mk.injEq, true_and] at e
        subst e
        simp only [if_true, List.append_nil, List.append_assoc]
        refine ⟨attempts st.events, ?_, by omega, c5, h.awaits, c2, c4 (by simp), c6⟩
        rw [attempts_append, hev', hf]
      · rw [if_neg hz]
        refine ⟨?_, fun st' e => ?_, fun st' e => ?_⟩
        rotate_left
        · obtain ⟨sl, -, e⟩ := Outcome.bind_eq_ok.1 e
          simp at e
        · obtain ⟨sl, -, e⟩ := Outcome.bind_eq_ok.1 e
          simp at e
        intro st' e
        obtain ⟨sl, -, e⟩ := Outcome.bind_eq_ok.1 e
        simp only [Outcome.ok.injEq, Prod.mk.injEq, true_and] at e
        subst e
        simp only [if_true, List.append_nil, List.append_assoc]
        refine ⟨h.read, h.stream, ?_, ?_, ?_, c1, c2, c3, c4 (by simp), c5, ?_, c6, ?_, ?_⟩
        · intro q hq
          simp only [List.mem_cons] at hq
          rcases hq with rfl | hq
          · exact htag
          · exact h.ftag q hq
        · intro q hq
          simp only [List.mem_cons] at hq
          rcases hq with rfl | hq
          · simp only; omega
          · exact h.fbudget q hq
        · intro q qs hq
          simp only [List.cons.injEq] at hq
          obtain ⟨rfl, rfl⟩ := hq
          simp only
          rw [attempts_append, hev']
          refine ⟨.again _ _ rfl rfl hw rfl rfl rfl (by simp only; omega), fun q' hq' => (h.forigin q' hq').weaken _ _⟩
        · intro a ha hw'
          simp only at ha
          rw [attempts_append, hev', List.mem_append, List.mem_singleton] at ha
          rcases ha with ha | rfl
          · exact h.awaits a ha hw'
          · simp only; omega
        · intro k hk'
          simp only at hk' ⊢
          rw [attempts_append, hev', settled_append, produced_append]
          have := h.conserve k hk'
          rw [hw]
          simp only [hf, List.length_nil, ite_self, Nat.add_zero, List.filter_cons, Bool.true_eq_false, and_false, if_false]
          by_cases e : it.tag = k
          · simp only [e, decide_true, if_true, List.length_cons] at this ⊢; omega
          · simp only [e, decide_false, if_false, Bool.false_eq_true] at this ⊢; omega
        · simp only
          rw [attempts_append, hev', slicesShown_append, hsl', List.filter_append]
          have := h.slices
          simp [hw, slicesShown]; omega
  · rw [if_pos hf]
    refine ⟨?_, fun st' e => ?_, fun st' e => ?_⟩
    rotate_left
    · obtain ⟨sl, -, e⟩ := Outcome.bind_eq_ok.1 e
      simp at e
    · obtain ⟨sl, -, e⟩ := Outcome.bind_eq_ok.1 e
      simp at e
    intro st' e
    obtain ⟨sl, -, e⟩ := Outcome.bind_eq_ok.1 e
    simp only [Outcome.ok.injEq, Prod.mk.injEq, true_and] at e
    subst e
    have hev' := hev [.slice r.slice] rfl
    have hsh' := hsh [.slice r.slice] rfl
    have hsl' := hslc [.slice r.slice]
    obtain ⟨c1, c2, c3, c4, c5, c6⟩ := react_common h ⟨it, r.err, r.followups⟩ rfl [] _ _ hev' hsh' htags rfl
    have hw : (Att.mk it r.err r.followups).waits = false := by
      unfold Att.waits
      cases hfu : r.followups with
      | nil => exact absurd hfu hf
      | cons x l => simp
    have hqo : ∀ q ∈ st.future ++ r.followups.map (fun f => (⟨f, it.tag, 0, f.wait⟩ : Item)), ∀ b, QOrigin prog (attempts st.events ++ [⟨it, r.err, r.followups⟩]) b q := by
      intro q hq b
      rw [List.mem_append, List.mem_map] at hq
      rcases hq with hq | ⟨f, hf', rfl⟩
      · exact (h.forigin q hq).weaken _ _
      · exact .followup ⟨it, r.err, r.followups⟩ (by simp) rfl hf' rfl rfl
    simp only [List.append_assoc] at hev' hsh' hsl' c1 c2 c3 c4 c5 c6 ⊢
    refine ⟨h.read, h.stream, ?_, ?_, ?_, c1, c2, c3, c4 hpw, c5, ?_, c6, ?_, ?_⟩
    · intro q hq
      simp only [List.mem_append, List.mem_map] at hq
      rcases hq with hq | ⟨f, _, rfl⟩
      · exact h.ftag q hq
      · exact htag
    · intro q hq
      simp only [List.mem_append, List.mem_map] at hq
      rcases hq with hq | ⟨f, _, rfl⟩
      · exact h.fbudget q hq
      · rfl
    · intro q qs hq
      simp only at hq ⊢
      rw [attempts_append, hev']
      exact ⟨hqo q (by rw [hq]; simp) _, fun q' hq' => hqo q' (by rw [hq]; simp [hq']) _⟩
    · intro a ha hw'
      simp only at ha
      rw [attempts_append, hev', List.mem_append, List.mem_singleton] at ha
      rcases ha with ha | rfl
      · exact h.awaits a ha hw'
      · rw [hw] at hw'; cases hw'
    · intro k hk'
      simp only at hk' ⊢
      rw [attempts_append, hev', settled_append, produced_append, List.filter_append, List.length_append]
      have := h.conserve k hk'
      have hm : ((r.followups.map (fun f => (⟨f, it.tag, 0, f.wait⟩ : Item))).filter (fun q => decide (q.tag = k))).length = if it.tag = k then r.followups.length else 0 := by
        by_cases e : it.tag = k
        · rw [List.filter_eq_self.2]
          · simp [e]
          · intro q hq
            rw [List.mem_map] at hq
            obtain ⟨f, _, rfl⟩ := hq
            simp [e]
        · rw [List.filter_eq_nil_iff.2]
          · simp [e]
          · intro q hq
            rw [List.mem_map] at hq
            obtain ⟨f, _, rfl⟩ := hq
            simp [e]
      rw [hm]
      simp only [hw, and_true]
      by_cases e : it.tag = k
      · simp only [e, if_true] at this ⊢; omega
      · simp only [e, if_false] at this ⊢; omega
    · simp only
      rw [attempts_append, hev', slicesShown_append, hsl', List.filter_append]
      have := h.slices
      simp [hw, slicesShown]; omega

/-- What holds at the end of a run, depending on how it ended. -/
def Ended (prog : List Instr) : Ctl → SSt σ → Prop
  | .go, st => SInv prog st
  | .finished, st => ∃ st0, SInv prog st0 ∧ st0.future = [] ∧ st0.stream = [] ∧ st = { st0 with events := st0.events ++ [.slice st0.slice] }
  | .failed, st => ∃ it pre, attempts st.events = pre ++ [⟨it, true, []⟩] ∧ it.tries = it.budget ∧
      (∀ a ∈ attempts st.events, a.it.instr.wait + a.it.tries = a.it.budget) ∧ (∀ a ∈ pre, a.waits = true → a.it.tries < a.it.budget) ∧
      (attempts st.events).Pairwise (fun a b => a.it.tag ≤ b.it.tag) ∧ (shownTags st.events).Pairwise (· ≤ ·) ∧
      (∀ pre e post, attempts st.events = pre ++ e :: post → Origin prog pre e)

theorem srun_ended {env : Env σ} (hk : KeepsBudget env) {prog : List Instr} (n : Nat) : ∀ {st st' : SSt σ} {c : Ctl}, SInv prog st → srun env n st = .ok (c, st') → Ended prog c st' := by
  induction n with
  | zero =>
    intro st st' c hi h
    simp only [srun, Outcome.ok.injEq, Prod.mk.injEq] at h
    obtain ⟨rfl, rfl⟩ := h
    exact hi
  | succ n ih =>
    intro st st' c hi h
    rw [srun] at h
    obtain ⟨⟨c1, s1⟩, h1, h⟩ := Outcome.bind_eq_ok.1 h
    simp only at h
    unfold sstep at h1
    split at h1
    · rename_i hn
      simp only [Outcome.ok.injEq, Prod.mk.injEq] at h1
      obtain ⟨rfl, rfl⟩ := h1
      simp only [reduceCtorEq, if_false, Outcome.ok.injEq, Prod.mk.injEq] at h
      obtain ⟨rfl, rfl⟩ := h
      unfold takeNext at hn
      split at hn
      · cases hn
      · rename_i hf
        split at hn
        · cases hn
        · rename_i hs
          exact ⟨st, hi, hf, hs, rfl⟩
    · rename_i it s0 ht
      obtain ⟨r, hr, h1⟩ := Outcome.bind_eq_ok.1 h1
      have hT := take_taken hi ht
      obtain ⟨r1, r2, r3⟩ := react_inv hk hT hr
      cases c1 with
      | go =>
        simp only [if_true] at h
        exact ih (r1 _ h1) h
      | finished => exact absurd h1 (r3 _)
      | failed =>
        simp only [reduceCtorEq, if_false, Outcome.ok.injEq, Prod.mk.injEq] at h
        obtain ⟨rfl, rfl⟩ := h
        obtain ⟨pre, hp⟩ := r2 _ h1
        exact ⟨it, pre, hp⟩

end

/-! ### Properties -/

section
variable {σ : Type} {env : Env σ}

/-- C26: for every program and every behaviour of the slices, after any number of rounds: attempts go through the source
instructions in order; so do the instructions shown; every attempt is the first one for the next source
instruction, or for a follow-up of an attempt for the same source instruction, or repeats the attempt before it;
and when the run ends, for each source instruction exactly as many attempts went through as there are
follow-ups for it, plus one. -/
theorem c26_order (hk : KeepsBudget env) (prog : List Instr) (slice : σ) (n : Nat) (c : Ctl) (st : SSt σ) (h : srun env n (sstart slice prog) = .ok (c, st)) :
    (attempts st.events).Pairwise (fun a b => a.it.tag ≤ b.it.tag) ∧ (shownTags st.events).Pairwise (· ≤ ·) ∧
    (∀ pre e post, attempts st.events = pre ++ e :: post → Origin prog pre e) ∧
    (c = .finished → ∀ k, k < prog.length → settled (attempts st.events) k = 1 + produced (attempts st.events) k) := by
  have := srun_ended hk n (sinv_start slice prog) h
  cases c with
  | go => exact ⟨this.sorted, this.ssorted, this.origin, (fun e => nomatch e)⟩
  | failed =>
    obtain ⟨it, pre, h1, h2, h3, h4, h5, h6, h7⟩ := this
    exact ⟨h5, h6, h7, (fun e => nomatch e)⟩
  | finished =>
    obtain ⟨st0, hi, hf, hs, rfl⟩ := this
    have e1 : attempts (st0.events ++ [Ev.slice st0.slice]) = attempts st0.events := by rw [attempts_append]; simp [attempts]
    have e2 : shownTags (st0.events ++ [Ev.slice st0.slice]) = shownTags st0.events := by rw [shownTags_append]; simp [shownTags]
    simp only
    rw [e1, e2]
    refine ⟨hi.sorted, hi.ssorted, hi.origin, ?_⟩
    intro _ k hk'
    have hread : st0.read = prog.length := by
      have := hi.stream
      rw [hs] at this
      have h2 := List.drop_eq_nil_iff.1 this.symm
      have := hi.read
      omega
    have := hi.conserve k (by omega)
    rw [hf] at this
    simpa using this

/-- C27 (streamed pipeline): no attempt comes after its budget of failed attempts is used up (the failed attempts
before it, `tries`, are at most its budget); the pipeline stops with an error only right after an attempt with
the budget used up failed, and as soon as such an attempt fails. -/
theorem c27_streamed (hk : KeepsBudget env) (prog : List Instr) (slice : σ) (n : Nat) (c : Ctl) (st : SSt σ) (h : srun env n (sstart slice prog) = .ok (c, st)) :
    (∀ a ∈ attempts st.events, a.it.tries ≤ a.it.budget) ∧
    (c = .failed → ∃ pre a, attempts st.events = pre ++ [a] ∧ a.waits = true ∧ a.it.tries = a.it.budget) ∧
    (∀ pre a post, attempts st.events = pre ++ a :: post → a.waits = true → a.it.tries = a.it.budget → c = .failed ∧ post = []) := by
  have := srun_ended hk n (sinv_start slice prog) h
  have go : ∀ {s : SSt σ}, SInv prog s → (∀ a ∈ attempts s.events, a.it.tries ≤ a.it.budget) ∧
      (∀ pre a post, attempts s.events = pre ++ a :: post → a.waits = true → a.it.tries = a.it.budget → False) := by
    intro s hi
    refine ⟨fun a ha => by have := hi.abudget a ha; omega, ?_⟩
    intro pre a post hs hw ht
    have := hi.awaits a (by rw [hs]; simp) hw
    omega
  cases c with
  | go => exact ⟨(go this).1, (fun e => nomatch e), fun pre a post hs hw ht => ((go this).2 pre a post hs hw ht).elim⟩
  | failed =>
    obtain ⟨it, pre, h1, h2, h3, h4, h5, h6, h7⟩ := this
    refine ⟨fun a ha => by have := h3 a ha; omega, fun _ => ⟨pre, _, h1, rfl, h2⟩, ?_⟩
    intro pre' a post hs hw ht
    refine ⟨rfl, ?_⟩
    rw [h1] at hs
    rcases snoc_split hs with ⟨_, _, hp⟩ | ⟨post', _, hp⟩
    · exact hp
    · have := h4 a (by rw [hp]; simp) hw
      omega
  | finished =>
    obtain ⟨st0, hi, hf, hs, rfl⟩ := this
    have e1 : attempts (st0.events ++ [Ev.slice st0.slice]) = attempts st0.events := by rw [attempts_append]; simp [attempts]
    simp only
    rw [e1]
    exact ⟨(go hi).1, (fun e => nomatch e), fun pre a post hs hw ht => ((go hi).2 pre a post hs hw ht).elim⟩

/-- C25 (streamed pipeline), what holds: the slices shown are the reported slices plus the attempts after which an
instruction had to wait; so the two agree exactly for runs in which nothing had to wait. Missing: the other runs,
for which the claim is false (`c25_streamed_wrong`). -/
theorem c25_streamed_partial (hk : KeepsBudget env) (prog : List Instr) (slice : σ) (n : Nat) (st : SSt σ) (h : srun env n (sstart slice prog) = .ok (.finished, st)) :
    slicesShown st.events = st.count + ((attempts st.events).filter Att.waits).length := by
  obtain ⟨st0, hi, hf, hs, rfl⟩ := srun_ended hk n (sinv_start slice prog) h
  have e1 : attempts (st0.events ++ [Ev.slice st0.slice]) = attempts st0.events := by rw [attempts_append]; simp [attempts]
  simp only
  rw [e1, slicesShown_append]
  have := hi.slices
  simp [slicesShown]; omega

end

/-! ### Examples -/

/-- A machine whose state counts advanced slices: `Y` measurements work from slice 2 on, rotations are followed by a busy
region of the given number of steps. -/
def demoApply (t : Nat) (i : Instr) : Outcome (Res Nat) :=
  match i.op with
  | .measure _ .Y _ => .ok ⟨t, i, decide (t < 2), []⟩
  | .rotate _ => .ok ⟨t, i, false, [{ op := .busy { cells := [] } 2 [] }]⟩
  | .busy r n ps => if n = 0 then .ok ⟨t, i, false, []⟩ else .ok ⟨t, i, false, [{ op := .busy r (n - 1) ps }]⟩
  | _ => .ok ⟨t, i, false, []⟩

def demo : Env Nat := { apply := demoApply, advance := fun s => .ok (s + 1), reset := .ok, edpc := false, realloc := fun _ => false }

theorem demo_keeps : KeepsBudget demo := by
  intro s i r h he hf
  obtain ⟨op, w, cl⟩ := i
  cases op with
  | busy rg n ps => simp only [demo, demoApply] at h; split at h <;> (simp only [Outcome.ok.injEq] at h; subst h; rfl)
  | measure t o ng => cases o <;> (simp only [demo, demoApply, Outcome.ok.injEq] at h; subst h; rfl)
  | _ => simp only [demo, demoApply, Outcome.ok.injEq] at h; subst h; rfl

def demoProg : List Instr := [{ op := .measure 3 .Y false, wait := 5 }, { op := .rotate 1 }, { op := .sq 2 .X false }]

/-- A run in which the first instruction waits twice and the second has three follow-ups. -/
example : (match srun demo 20 (sstart 0 demoProg) with
    | .ok (c, st) => (c, st.count, slicesShown st.events, (attempts st.events).map (fun a => (a.it.tag, a.it.tries)), shownTags st.events)
    | _ => (.go, 0, 0, [], [])) =
    (.finished, 4, 6, [(0, 0), (0, 1), (0, 2), (1, 0), (1, 0), (1, 0), (1, 0), (2, 0)], [0, 1, 1, 1, 1, 2]) := by decide

/-- With a budget of one the run fails at the second attempt. -/
example : (match srun demo 20 (sstart 0 [{ op := .measure 3 .Y false, wait := 1 }]) with
    | .ok (c, st) => (c, (attempts st.events).map (fun a => (a.it.tries, a.it.budget)))
    | _ => (.go, [])) = (.failed, [(0, 1), (1, 1)]) := by decide

/-- C25, negation for the streamed pipeline: each time an instruction waits a slice is shown that is not counted. -/
theorem c25_streamed_wrong : ∃ st, srun demo 20 (sstart 0 demoProg) = .ok (.finished, st) ∧ st.count = 4 ∧ slicesShown st.events = 6 :=
  ⟨_, rfl, rfl, rfl⟩

end Verif.Pipe.Spec
