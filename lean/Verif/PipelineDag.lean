import Verif.Pipeline
import Verif.DagProps

/-! # DAG pipeline: invariant -/

namespace Verif.Pipe

open Verif.Wave Verif.Dag

variable {σ : Type}

/-- No application yields more than one follow-up. -/
def OneFollowup (env : Env σ) : Prop := ∀ s i r, env.apply s i = .ok r → r.followups.length ≤ 1

theorem mem_oset_iff {α : Type} [DecidableEq α] {x a : α} {l : List α} : x ∈ oset l a ↔ x ∈ l ∨ x = a := by
  unfold oset
  split
  · rename_i h; exact ⟨Or.inl, fun e => e.elim (fun e => e) (fun e => e ▸ h)⟩
  · simp

theorem nodup_oset {α : Type} [DecidableEq α] {a : α} {l : List α} (h : l.Nodup) : (oset l a).Nodup := by
  unfold oset
  split
  · exact h
  · rename_i hn
    rw [List.nodup_append]
    exact ⟨h, by simp, fun x hx y hy => by simp at hy; subst hy; intro e; subst e; exact hn hx⟩

structure DInv (P : List Instr) (st : DSt σ) : Prop where
  inv : RunInv Instr.canCommute P st.run
  deps : st.run.dag.proxDeps = []
  heads : ∀ l ∈ st.run.dag.proxHeads, l ∈ st.run.dag.graph.heads
  hnodup : st.run.dag.proxHeads.Nodup
  sbound : ∀ e ∈ st.shown, e.1 < st.run.dag.next
  live : ∀ e ∈ st.shown, ∀ y ∈ st.run.dag.graph.nodes, ¬ Conf Instr.canCommute P (st.run.origin y) (st.run.origin e.1)
  order : st.shown.Pairwise (fun e f => ¬ Conf Instr.canCommute P (st.run.origin f.1) (st.run.origin e.1))
  once : ((st.run.dag.graph.nodes ++ st.run.popped).map st.run.origin).Perm (List.range P.length)
  pshown : ∀ l ∈ st.run.popped, ∃ e ∈ st.shown, e.1 = l
  fails : ∀ l, st.fails l ≤ maxRetries
  count : st.count = st.slices + 1

theorem dinv_start {slice : σ} {P : List Instr} : ∃ st, dstart slice P = .ok st ∧ DInv P st := by
  obtain ⟨d, h1, h2⟩ := built_pushAll Instr.canCommute P (built_empty Instr.canCommute)
  simp only [List.nil_append] at h2
  refine ⟨{ slice := slice, run := DRun.start d }, by simp [dstart, h1], ?_⟩
  refine ⟨runInv_start h2, h2.prox.1, by simp [DRun.start, h2.prox.2], by simp [DRun.start, h2.prox.2], by simp, by simp, by simp, ?_, by simp [DRun.start], by simp, rfl⟩
  simp only [DRun.start, List.append_nil, List.map_id_fun, id]
  rw [List.perm_ext_iff_of_nodup h2.wf.nodup List.nodup_range]
  intro a
  rw [h2.nodes, List.mem_range]

theorem runInv_setInstr {P : List Instr} {s : DRun Instr} (h : RunInv Instr.canCommute P s) (l : Nat) (i : Instr) :
    RunInv Instr.canCommute P { s with dag := { s.dag with instr := upd s.dag.instr l (some i) } } := by
  refine ⟨h.wf, h.acyclic, h.bound, h.pbound, ?_, h.disjoint, h.pnodup, h.order, h.live, h.hist⟩
  intro x hx
  simp only
  by_cases e : x = l
  · subst e; rw [upd_same]; rfl
  · rw [upd_other _ _ e]; exact h.instr x hx

theorem popProx_nil (l : Nat) (heads : List Nat) (ps : List Nat) : DDag.popProx l ([], heads) ps = ([], heads) := by
  induction ps with
  | nil => rfl
  | cons p ps ih => simp [DDag.popProx, ih]

theorem popHead_prox {d d' : DDag Instr} {l : Nat} (h : d.popHead l = .ok d') (hd : d.proxDeps = []) : d'.proxDeps = [] ∧ d'.proxHeads = d.proxHeads.erase l := by
  unfold DDag.popHead at h
  split at h
  · cases h
  · obtain ⟨ps, h1, h⟩ := Outcome.bind_eq_ok.1 h
    rw [hd, popProx_nil] at h
    simp only at h
    obtain ⟨g, h2, h⟩ := Outcome.bind_eq_ok.1 h
    simp only [Outcome.ok.injEq] at h
    subst h
    exact ⟨rfl, rfl⟩

/-- An instruction that is ready can be executed, and the others that are ready stay so. -/
theorem handle_good {P : List Instr} {st : DSt σ} (h : DInv P st) {l : Nat} (hl : l ∈ st.run.dag.graph.heads) {fs : List Instr} (hfs : fs.length ≤ 1) (i : Instr) :
    ∃ run, handle st.run l fs = .ok run ∧ DInv P { st with run := run, shown := st.shown ++ [(l, i, st.slices)], obs := st.obs ++ [.instr i] } ∧
      ∀ x ∈ st.run.dag.graph.heads, x ≠ l → x ∈ run.dag.graph.heads := by
  have hR := h.inv
  have hhead := (mem_heads hR.wf).1 hl
  have hlive : ∀ y ∈ st.run.dag.graph.nodes, ¬ Conf Instr.canCommute P (st.run.origin y) (st.run.origin l) := by
    intro y hy hc
    have hr := hR.order y hy l hhead.1 hc
    cases hr with
    | single e => exact hhead.2 _ e
    | tail _ e => exact hhead.2 _ e
  have hlb := hR.bound l hhead.1
  cases fs with
  | nil =>
    obtain ⟨d', h1, h2, h3, h4, h5, h6⟩ := popHead_spec hR.wf hR.instr hl
    have hp := popHead_prox h1 h.deps
    have hm : ∀ x, x ∈ d'.graph.nodes ↔ x ≠ l ∧ x ∈ st.run.dag.graph.nodes := by
      intro x; rw [h3, hR.wf.nodup.mem_erase_iff]
    have hkeep : ∀ x ∈ st.run.dag.graph.heads, x ≠ l → x ∈ d'.graph.heads := by
      intro x hx hne
      rw [mem_heads hR.wf] at hx
      rw [mem_heads h2]
      exact ⟨(hm x).2 ⟨hne, hx.1⟩, fun a e => hx.2 a ((h4 a x).1 e).1⟩
    refine ⟨{ st.run with dag := d', popped := st.run.popped ++ [l] }, by simp [handle, h1], ?_, hkeep⟩
    have hR' : RunInv Instr.canCommute P { st.run with dag := d', popped := st.run.popped ++ [l] } :=
      runInv_act hR (a := .pop l) (by simp [DRun.act, DDag.applicable, hl, h1])
    refine ⟨hR', hp.1, ?_, ?_, ?_, ?_, ?_, ?_, ?_, h.fails, h.count⟩
    · intro x hx
      simp only [hp.2, h.hnodup.mem_erase_iff] at hx
      exact hkeep x (h.heads x hx.2) hx.1
    · simp only [hp.2]; exact h.hnodup.erase l
    · intro e he
      simp only [h6]
      simp only [List.mem_append, List.mem_singleton] at he
      rcases he with he | rfl
      · exact h.sbound e he
      · exact hlb
    · intro e he y hy
      simp only at hy ⊢
      have hy' := ((hm y).1 hy).2
      simp only [List.mem_append, List.mem_singleton] at he
      rcases he with he | rfl
      · exact h.live e he y hy'
      · exact hlive y hy'
    · simp only
      rw [List.pairwise_append]
      refine ⟨h.order, by simp, ?_⟩
      intro e he f hf
      rw [List.mem_singleton] at hf
      subst hf
      exact h.live e he l hhead.1
    · simp only [h3]
      refine List.Perm.trans ?_ h.once
      refine List.Perm.map _ ?_
      rw [← List.append_assoc]
      refine (List.perm_append_comm).trans ?_
      rw [← List.append_assoc, List.singleton_append]
      exact List.Perm.append_right _ (List.perm_cons_erase hhead.1).symm
    · intro x hx
      simp only [List.mem_append, List.mem_singleton] at hx ⊢
      rcases hx with hx | rfl
      · obtain ⟨e, he, h'⟩ := h.pshown x hx
        exact ⟨e, Or.inl he, h'⟩
      · exact ⟨_, Or.inr rfl, rfl⟩
  | cons f fs =>
    have hfs' : fs = [] := by
      cases fs with
      | nil => rfl
      | cons a b => simp at hfs
    subst hfs'
    have hfl : st.run.dag.freshLabels [f] = [st.run.dag.next] := by simp [DDag.freshLabels]
    have hfresh : st.run.dag.next ∉ st.run.dag.graph.nodes := fun hc => Nat.lt_irrefl _ (hR.bound _ hc)
    obtain ⟨g', h1, h2, h3, h4⟩ := expand_spec hR.wf (r0 := st.run.dag.next) (rs := []) hhead.1 (by simpa using hfresh)
    simp only [List.mem_singleton, List.getLast_singleton] at h3 h4
    have hcons : ∀ a b, ¬ Consec [st.run.dag.next] a b := by
      rintro a b ⟨l1, l2, e⟩
      have := congrArg List.length e
      simp at this; omega
    have hdep : st.run.dag.expandDeps [st.run.dag.next] true = [] := by simp [DDag.expandDeps, pairs, h.deps]
    have hex : st.run.dag.expand l [f] true = .ok ({ graph := g', instr := DDag.storeFrom st.run.dag.instr st.run.dag.next [f], proxDeps := [], proxHeads := st.run.dag.expandHeads l, next := st.run.dag.next + 1 }, st.run.dag.next) := by
      simp [DDag.expand, hfl, h1, hdep]
    have hkeep : ∀ x ∈ st.run.dag.graph.heads, x ≠ l → x ∈ g'.heads := by
      intro x hx hne
      rw [mem_heads hR.wf] at hx
      rw [mem_heads h2]
      refine ⟨(h3 x).2 (Or.inl ⟨hx.1, hne⟩), fun a e => ?_⟩
      rcases (h4 a x).1 e with e | ⟨u, v, e, _, hv⟩
      · exact hcons _ _ e
      · unfold frontOf at hv
        split at hv
        · exact hfresh (hv ▸ hx.1)
        · subst hv; exact hx.2 _ e
    have hnewHead : st.run.dag.next ∈ g'.heads := by
      rw [mem_heads h2]
      refine ⟨(h3 _).2 (Or.inr rfl), fun a e => ?_⟩
      rcases (h4 a _).1 e with e | ⟨u, v, e, _, hv⟩
      · exact hcons _ _ e
      · unfold frontOf at hv
        split at hv
        · rename_i hvl; exact hhead.2 u (hvl ▸ e)
        · exact hfresh (hv ▸ (WF_iff.1 hR.wf).2.2.2.1 _ _ e)
    have hact : st.run.act (.expand l [f] true) = .ok { st.run with
        dag := { graph := g', instr := DDag.storeFrom st.run.dag.instr st.run.dag.next [f], proxDeps := [], proxHeads := st.run.dag.expandHeads l, next := st.run.dag.next + 1 },
        origin := fun x => if st.run.dag.next ≤ x ∧ x < st.run.dag.next + 1 then st.run.origin l else st.run.origin x } := by
      simp [DRun.act, hex]
    have hR1 := runInv_act hR hact
    have hR' := runInv_act hR1 (a := .makeProximate st.run.dag.next) rfl
    simp only at hR'
    have horig : ∀ x, x < st.run.dag.next → (if st.run.dag.next ≤ x ∧ x < st.run.dag.next + 1 then st.run.origin l else st.run.origin x) = st.run.origin x := by
      intro x hx; rw [if_neg (by omega)]
    have hnew : (if st.run.dag.next ≤ st.run.dag.next ∧ st.run.dag.next < st.run.dag.next + 1 then st.run.origin l else st.run.origin st.run.dag.next) = st.run.origin l := by
      rw [if_pos (by omega)]
    have hh : handle st.run l [f] = .ok { st.run with
        dag := (DDag.mk g' (DDag.storeFrom st.run.dag.instr st.run.dag.next [f]) [] (st.run.dag.expandHeads l) (st.run.dag.next + 1)).makeProximate st.run.dag.next,
        origin := fun x => if st.run.dag.next ≤ x ∧ x < st.run.dag.next + 1 then st.run.origin l else st.run.origin x } := by
      simp only [handle, hex, Outcome.bind_ok, List.length_cons, List.length_nil, Nat.zero_add]
    refine ⟨_, hh, ?_, hkeep⟩
    have hph : ∀ x, x ∈ st.run.dag.expandHeads l → (x ∈ st.run.dag.proxHeads ∧ x ≠ l) ∨ x = st.run.dag.next := by
      intro x hx
      unfold DDag.expandHeads at hx
      split at hx
      · rw [mem_oset_iff, h.hnodup.mem_erase_iff] at hx
        exact hx.imp (fun e => ⟨e.2, e.1⟩) (fun e => e)
      · rename_i hn
        exact Or.inl ⟨hx, fun e => hn (e ▸ hx)⟩
    refine ⟨hR', rfl, ?_, ?_, ?_, ?_, ?_, ?_, ?_, h.fails, h.count⟩
    · intro x hx
      simp only [DDag.makeProximate, mem_oset_iff] at hx
      rcases hx with hx | rfl
      · rcases hph x hx with ⟨h5, h6⟩ | rfl
        · exact hkeep x (h.heads x h5) h6
        · exact hnewHead
      · exact hnewHead
    · simp only [DDag.makeProximate]
      apply nodup_oset
      unfold DDag.expandHeads
      split
      · exact nodup_oset (h.hnodup.erase l)
      · exact h.hnodup
    · intro e he
      simp only [DDag.makeProximate]
      simp only [List.mem_append, List.mem_singleton] at he
      rcases he with he | rfl
      · have := h.sbound e he; omega
      · simp only; omega
    · intro e he y hy
      simp only [DDag.makeProximate] at hy ⊢
      have hy' : ∃ y0 ∈ st.run.dag.graph.nodes, (if st.run.dag.next ≤ y ∧ y < st.run.dag.next + 1 then st.run.origin l else st.run.origin y) = st.run.origin y0 := by
        rcases (h3 y).1 hy with ⟨h5, h6⟩ | rfl
        · exact ⟨y, h5, horig y (hR.bound y h5)⟩
        · exact ⟨l, hhead.1, hnew⟩
      obtain ⟨y0, hy0, ey⟩ := hy'
      rw [ey]
      simp only [List.mem_append, List.mem_singleton] at he
      rcases he with he | rfl
      · rw [horig e.1 (h.sbound e he)]
        exact h.live e he y0 hy0
      · simp only
        rw [horig l hlb]
        exact hlive y0 hy0
    · simp only
      rw [List.pairwise_append]
      refine ⟨?_, by simp, ?_⟩
      · refine List.Pairwise.imp_of_mem ?_ h.order
        intro e f he hf hn
        rw [horig e.1 (h.sbound e he), horig f.1 (h.sbound f hf)]
        exact hn
      · intro e he f hf
        rw [List.mem_singleton] at hf
        subst hf
        simp only
        rw [horig e.1 (h.sbound e he), horig l hlb]
        exact h.live e he l hhead.1
    · simp only [DDag.makeProximate]
      refine List.Perm.trans ?_ h.once
      have hperm : g'.nodes.Perm (st.run.dag.next :: st.run.dag.graph.nodes.erase l) := by
        rw [List.perm_ext_iff_of_nodup h2.nodup]
        · intro a
          rw [h3, List.mem_cons, hR.wf.nodup.mem_erase_iff]
          constructor
          · rintro (⟨h5, h6⟩ | h5)
            · exact Or.inr ⟨h6, h5⟩
            · exact Or.inl h5
          · rintro (h5 | ⟨h5, h6⟩)
            · exact Or.inr h5
            · exact Or.inl ⟨h6, h5⟩
        · rw [List.nodup_cons]
          exact ⟨fun hc => hfresh (List.mem_of_mem_erase hc), hR.wf.nodup.erase l⟩
      refine (List.Perm.map _ (hperm.append_right _)).trans ?_
      rw [List.cons_append, List.map_cons, hnew]
      refine List.Perm.trans ?_ ((List.Perm.map _ ((List.perm_cons_erase hhead.1).append_right _)).symm)
      rw [List.cons_append, List.map_cons]
      refine List.Perm.cons _ (List.Perm.of_eq ?_)
      apply List.map_congr_left
      intro x hx
      rw [List.mem_append] at hx
      rcases hx with hx | hx
      · exact horig x (hR.bound x (List.mem_of_mem_erase hx))
      · exact horig x (hR.pbound x hx)
    · intro x hx
      obtain ⟨e, he, h'⟩ := h.pshown x hx
      exact ⟨e, List.mem_append_left _ he, h'⟩

/-- Fields an application does not touch. -/
theorem dapply_good {env : Env σ} {P : List Instr} {st : DSt σ} (h : DInv P st) {l : Nat} (hl : l ∈ st.run.dag.graph.heads) :
    (∃ i, st.run.dag.instr l = some i ∧ ∀ o, dapply env st l = o → ((env.apply st.slice i = .ub ∧ o = .ub) ∨ (env.apply st.slice i = .throws ∧ o = .throws) ∨
      ∃ r st', o = .ok (r, st') ∧ env.apply st.slice i = .ok r ∧ DInv P st' ∧ st'.run.dag.graph = st.run.dag.graph ∧ st'.slices = st.slices ∧ st'.shown = st.shown)) := by
  have hn := ((mem_heads h.inv.wf).1 hl).1
  obtain ⟨i, hi⟩ := Option.isSome_iff_exists.1 (h.inv.instr l hn)
  refine ⟨i, hi, ?_⟩
  intro o ho
  subst ho
  unfold dapply
  rw [hi]
  simp only
  cases hr : env.apply st.slice i with
  | ub => left; exact ⟨rfl, rfl⟩
  | throws => right; left; exact ⟨rfl, rfl⟩
  | ok r =>
    right; right
    refine ⟨r, _, rfl, rfl, ?_, rfl, rfl, rfl⟩
    exact ⟨runInv_setInstr h.inv l r.instr, h.deps, h.heads, h.hnodup, h.sbound, h.live, h.order, h.once, h.pshown, h.fails, h.count⟩

/-- Either the slices themselves misbehave, or the step throws, or the invariant holds afterwards. -/
def Fine (P : List Instr) (env : Env σ) (o : Outcome (DSt σ)) : Prop :=
  match o with
  | .ok st => DInv P st
  | .throws => True
  | .ub => (∃ s i, env.apply s i = .ub) ∨ ∃ s, env.advance s = .ub

theorem proxLoop_fine {env : Env σ} (ho : OneFollowup env) {P : List Instr} (ls : List Nat) : ∀ {st : DSt σ}, DInv P st → ls.Nodup → (∀ x ∈ ls, x ∈ st.run.dag.graph.heads) →
    Fine P env (proxLoop env st ls) := by
  induction ls with
  | nil => intro st h _ _; exact h
  | cons l ls ih =>
    intro st h hnd hls
    rw [List.nodup_cons] at hnd
    obtain ⟨i, hi, hd⟩ := dapply_good (env := env) h (hls l (by simp))
    unfold proxLoop
    rcases hd _ rfl with ⟨h1, h2⟩ | ⟨h1, h2⟩ | ⟨r, st', h1, h2, h3, h4, h5, h6⟩
    · rw [h2]; exact .inl ⟨_, _, h1⟩
    · rw [h2]; trivial
    · rw [h1, Outcome.bind_ok]
      simp only
      split
      · trivial
      · obtain ⟨run, h7, h8, h9⟩ := handle_good h3 (l := l) (by rw [h4]; exact hls l (by simp)) (ho _ _ _ h2) r.instr
        rw [h7, Outcome.bind_ok]
        refine ih h8 hnd.2 ?_
        intro x hx
        exact h9 x (by rw [h4]; exact hls x (by simp [hx])) (fun e => hnd.1 (e ▸ hx))

theorem headLoop_fine {env : Env σ} (ho : OneFollowup env) {P : List Instr} (ls : List Nat) : ∀ {st : DSt σ}, DInv P st → ls.Nodup → (∀ x ∈ ls, x ∈ st.run.dag.graph.heads) →
    Fine P env (headLoop env st ls) := by
  induction ls with
  | nil => intro st h _ _; exact h
  | cons l ls ih =>
    intro st h hnd hls
    rw [List.nodup_cons] at hnd
    obtain ⟨i, hi, hd⟩ := dapply_good (env := env) h (hls l (by simp))
    unfold headLoop
    rcases hd _ rfl with ⟨h1, h2⟩ | ⟨h1, h2⟩ | ⟨r, st', h1, h2, h3, h4, h5, h6⟩
    · rw [h2]; exact .inl ⟨_, _, h1⟩
    · rw [h2]; trivial
    · rw [h1, Outcome.bind_ok]
      simp only
      split
      · unfold noteFailure
        split
        · trivial
        · rename_i hle
          rw [Outcome.bind_ok]
          refine ih ?_ hnd.2 ?_
          · refine ⟨h3.inv, h3.deps, h3.heads, h3.hnodup, h3.sbound, h3.live, h3.order, h3.once, h3.pshown, ?_, h3.count⟩
            intro x
            simp only
            by_cases e : x = l
            · subst e; rw [upd_same]; omega
            · rw [upd_other _ _ e]; exact h3.fails x
          · intro x hx
            rw [h4]; exact hls x (by simp [hx])
      · obtain ⟨run, h7, h8, h9⟩ := handle_good h3 (l := l) (by rw [h4]; exact hls l (by simp)) (ho _ _ _ h2) r.instr
        rw [h7, Outcome.bind_ok]
        refine ih h8 hnd.2 ?_
        intro x hx
        exact h9 x (by rw [h4]; exact hls x (by simp [hx])) (fun e => hnd.1 (e ▸ hx))

theorem nodup_heads {g : Graph} (hw : g.WF) : g.heads.Nodup := by
  unfold Graph.heads
  exact hw.nodup.filter _

theorem dround_fine {env : Env σ} (ho : OneFollowup env) {P : List Instr} {st : DSt σ} (h : DInv P st) : Fine P env (dround env st) := by
  unfold dround
  have h1 := proxLoop_fine ho st.run.dag.proxHeads h h.hnodup h.heads
  cases e1 : proxLoop env st st.run.dag.proxHeads with
  | ub => rw [e1] at h1; exact h1
  | throws => trivial
  | ok st1 =>
    rw [e1] at h1
    rw [Outcome.bind_ok]
    simp only [Fine] at h1
    have h2 := headLoop_fine ho st1.run.dag.applicable h1 (nodup_heads h1.inv.wf) (fun x hx => hx)
    cases e2 : headLoop env st1 st1.run.dag.applicable with
    | ub => rw [e2] at h2; exact h2
    | throws => trivial
    | ok st2 =>
      rw [e2] at h2
      rw [Outcome.bind_ok]
      simp only [Fine] at h2
      cases e3 : env.advance st2.slice with
      | ub => exact .inr ⟨_, e3⟩
      | throws => trivial
      | ok sl =>
      simp only [Fine, Outcome.bind_ok]
      exact ⟨h2.inv, h2.deps, h2.heads, h2.hnodup, h2.sbound, h2.live, h2.order, h2.once, h2.pshown, h2.fails, by simp only; rw [h2.count]⟩

/-- Outcome of a run. -/
def RunFine (P : List Instr) (env : Env σ) (o : Outcome (Bool × DSt σ)) : Prop :=
  match o with
  | .ok (b, st) => DInv P st ∧ (b = true → st.run.dag.graph.nodes = [])
  | .throws => True
  | .ub => (∃ s i, env.apply s i = .ub) ∨ ∃ s, env.advance s = .ub

theorem drun_fine {env : Env σ} (ho : OneFollowup env) {P : List Instr} (n : Nat) : ∀ {st : DSt σ}, DInv P st → RunFine P env (drun env n st) := by
  induction n with
  | zero =>
    intro st h
    rw [drun]
    exact ⟨h, fun e => by simpa using e⟩
  | succ n ih =>
    intro st h
    rw [drun]
    split
    · rename_i e
      exact ⟨h, fun _ => by simpa using e⟩
    · have h1 := dround_fine ho h
      cases e1 : dround env st with
      | ub => rw [e1] at h1; exact h1
      | throws => trivial
      | ok st1 =>
        rw [e1] at h1
        exact ih h1

end Verif.Pipe
