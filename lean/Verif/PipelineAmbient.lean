import Verif.WaveStart
import Verif.PipelineDag
import Verif.PipelineStream

/-! # What a pipeline keeps up, it keeps up for every slice shown -/

namespace Verif.Pipe

open Verif.Wave Verif.Dag

variable {σ : Type} {env : Env σ} {P : List Instr} {Φ : σ → List (Nat × Instr) → Prop}

/-- An attempt that fails has no follow-up other than itself. -/
def FailsAlone (env : Env σ) : Prop := ∀ s i r, env.apply s i = .ok r → r.err = true → r.followups = [] ∨ r.followups = [r.instr]

/-! ### Streamed -/

/-- What is unfinished. -/
def sleft (P : List Instr) (st : SSt σ) : List (Nat × Instr) := st.future.map (fun it => (it.tag, it.instr)) ++ (indexed P).drop st.read

structure SAmb (P : List Instr) (Φ : σ → List (Nat × Instr) → Prop) (st : SSt σ) : Prop where
  one : st.future.length ≤ 1
  stream : st.stream = P.drop st.read
  amb : Φ st.slice (sleft P st)

theorem drop_indexed (P : List Instr) {k : Nat} {i : Instr} {is : List Instr} (h : P.drop k = i :: is) :
    (indexed P).drop k = (k, i) :: (indexed P).drop (k + 1) ∧ is = P.drop (k + 1) := by
  have hk : k < P.length := by
    have := congrArg List.length h
    simp at this; omega
  rw [List.drop_eq_getElem_cons hk] at h
  simp only [List.cons.injEq] at h
  refine ⟨?_, h.2.symm⟩
  rw [List.drop_eq_getElem_cons (by simpa [indexed] using hk)]
  congr 1
  simp [indexed, h.1]

theorem drop_later (P : List Instr) (k : Nat) {x : Nat × Instr} (h : x ∈ (indexed P).drop k) : k ≤ x.1 := by
  obtain ⟨j, hj, rfl⟩ := List.mem_iff_getElem.1 h
  simp [indexed]

theorem react_amb (hA : Ambient env P Φ) (ho : OneFollowup env) (hf : FailsAlone env) {st : SSt σ} {it : Item} {r : Res σ} {c : Ctl} {st' : SSt σ}
    (hr : env.apply st.slice it.instr = .ok r) (h : react env st it r = .ok (c, st')) (hfut : st.future = []) (hs : st.stream = P.drop st.read)
    (hlt : it.tag < st.read) (hamb : Φ st.slice ((it.tag, it.instr) :: (indexed P).drop st.read)) (hseen : ∀ s, Ev.slice s ∈ st.events → ∃ w, Φ s w) :
    (c = .go → SAmb P Φ st') ∧ ∀ s, Ev.slice s ∈ st'.events → ∃ w, Φ s w := by
  have h1 := hA.apply hamb (by
    intro x hx hlt'
    have := drop_later P _ hx
    omega) hr
  have hev : ∀ s, Ev.slice s ∈ st.events ++ ([Ev.attempt it r.err r.followups] ++ (if r.err then [] else [Ev.instr it.tag r.instr])) → ∃ w, Φ s w := by
    intro s hs
    rcases List.mem_append.1 hs with hs | hs
    · exact hseen s hs
    · split at hs <;> simp at hs
  have hev' : ∀ s, Ev.slice s ∈ st.events ++ ([Ev.attempt it r.err r.followups] ++ (if r.err then [] else [Ev.instr it.tag r.instr])) ++ [Ev.slice r.slice] → ∃ w, Φ s w := by
    intro s hs
    rcases List.mem_append.1 hs with hs | hs
    · exact hev s hs
    · simp only [List.mem_singleton, Ev.slice.injEq] at hs
      subst hs
      exact ⟨_, h1⟩
  unfold react at h
  dsimp only at h
  split at h
  · rename_i hne
    obtain ⟨s, h2, h⟩ := Outcome.bind_eq_ok.1 h
    cases h
    have hl : left r = r.followups := by
      unfold left
      split
      · rename_i he
        rcases hf _ _ _ hr he with h3 | h3
        · exact absurd h3 hne
        · exact h3.symm
      · rfl
    rw [hl] at h1
    refine ⟨fun _ => ⟨by simpa [hfut] using ho _ _ _ hr, hs, ?_⟩, hev'⟩
    have := hA.advance h1 h2
    simp only [sleft, hfut, List.nil_append, List.map_map]
    exact this
  · rename_i hne
    have hne : r.followups = [] := by simpa using hne
    split at h
    · rename_i he
      have hl : left r = [r.instr] := by simp [left, he]
      rw [hl] at h1
      split at h
      · cases h
        exact ⟨fun e => (nomatch e), by simpa [he] using hev'⟩
      · obtain ⟨s, h2, h⟩ := Outcome.bind_eq_ok.1 h
        cases h
        refine ⟨fun _ => ⟨by simp [hfut], hs, ?_⟩, by simpa [he] using hev'⟩
        have := hA.waits (r.instr.wait - 1) (hA.advance h1 h2)
        simpa [sleft, hfut] using this
    · rename_i he
      cases h
      have hl : left r = [] := by simp [left, he, hne]
      rw [hl] at h1
      refine ⟨fun _ => ⟨by simp [hfut], hs, ?_⟩, by simpa [he] using hev⟩
      simpa [sleft, hfut] using h1

theorem sstep_amb (hA : Ambient env P Φ) (ho : OneFollowup env) (hf : FailsAlone env) {st st' : SSt σ} {c : Ctl} (h : sstep env st = .ok (c, st'))
    (hi : SAmb P Φ st) (hlt : ∀ it ∈ st.future, it.tag < st.read) (hseen : ∀ s, Ev.slice s ∈ st.events → ∃ w, Φ s w) :
    (c = .go → SAmb P Φ st' ∧ ∀ it ∈ st'.future, it.tag < st'.read) ∧ ∀ s, Ev.slice s ∈ st'.events → ∃ w, Φ s w := by
  have htag : ∀ {s : SSt σ} {it : Item} {r : Res σ}, s.future = [] → it.tag < s.read → react env s it r = .ok (c, st') → ∀ x ∈ st'.future, x.tag < st'.read := by
    intro s it r h1 h2 h3
    unfold react at h3
    dsimp only at h3
    split at h3
    · obtain ⟨sl, -, h3⟩ := Outcome.bind_eq_ok.1 h3
      cases h3
      intro x hx
      simp only [h1, List.nil_append, List.mem_map] at hx
      obtain ⟨f, -, rfl⟩ := hx
      exact h2
    · split at h3
      · split at h3
        · cases h3; simp [h1]
        · obtain ⟨sl, -, h3⟩ := Outcome.bind_eq_ok.1 h3
          cases h3; simpa [h1] using h2
      · cases h3; simp [h1]
  unfold sstep at h
  split at h
  · cases h
    refine ⟨fun e => (nomatch e), ?_⟩
    intro s hs
    rcases List.mem_append.1 hs with hs | hs
    · exact hseen s hs
    · simp only [List.mem_singleton, Ev.slice.injEq] at hs
      subst hs
      exact ⟨_, hi.amb⟩
  · rename_i it s0 ht
    obtain ⟨r, hr, h⟩ := Outcome.bind_eq_ok.1 h
    have hone := hi.one
    have hamb := hi.amb
    have hstream := hi.stream
    unfold takeNext at ht
    split at ht
    · rename_i it' fut hfut
      cases ht
      rw [hfut] at hone hlt
      have hnil : fut = [] := by
        cases fut with
        | nil => rfl
        | cons a b => simp at hone
      subst hnil
      unfold sleft at hamb
      rw [hfut] at hamb
      obtain ⟨h1, h2⟩ := react_amb hA ho hf hr h rfl hstream (hlt it (by simp)) (by simpa using hamb) hseen
      exact ⟨fun e => ⟨h1 e, htag (s := { st with future := [] }) rfl (hlt it (by simp)) h⟩, h2⟩
    · rename_i hfut
      split at ht
      · rename_i i is hst
        cases ht
        unfold sleft at hamb
        rw [hfut] at hamb
        rw [hst] at hstream
        obtain ⟨h3, h4⟩ := drop_indexed P hstream.symm
        rw [h3] at hamb
        obtain ⟨h1, h2⟩ := react_amb hA ho hf hr h hfut h4 (by simp) (by simpa using hamb) hseen
        exact ⟨fun e => ⟨h1 e, htag (s := { st with stream := is, read := st.read + 1 }) hfut (by simp) h⟩, h2⟩
      · cases ht

theorem srun_amb (hA : Ambient env P Φ) (ho : OneFollowup env) (hf : FailsAlone env) (n : Nat) : ∀ {st st' : SSt σ} {c : Ctl}, srun env n st = .ok (c, st') →
    SAmb P Φ st → (∀ it ∈ st.future, it.tag < st.read) → (∀ s, Ev.slice s ∈ st.events → ∃ w, Φ s w) → ∀ s, Ev.slice s ∈ st'.events → ∃ w, Φ s w := by
  induction n with
  | zero =>
    intro st st' c h _ _ hs
    cases h; exact hs
  | succ n ih =>
    intro st st' c h hi hlt hs
    rw [srun] at h
    obtain ⟨⟨c1, s1⟩, h1, h⟩ := Outcome.bind_eq_ok.1 h
    obtain ⟨h2, h3⟩ := sstep_amb hA ho hf h1 hi hlt hs
    dsimp only at h
    split at h
    · rename_i e
      exact ih h (h2 e).1 (h2 e).2 h3
    · cases h; exact h3

theorem sstart_amb {slice : σ} (h : Φ slice (indexed P)) : SAmb P Φ (sstart slice P) := ⟨by simp [sstart], rfl, by simpa [sleft, sstart] using h⟩

/-! ### DAG -/

/-- The unfinished instructions among the given nodes. -/
def liveOn (run : DRun Instr) (ns : List Nat) : List (Nat × Instr) := ns.filterMap fun l => (run.dag.instr l).map fun i => (run.origin l, i)

theorem filterMap_congr' {α β : Type} {f g : α → Option β} {l : List α} (h : ∀ x ∈ l, f x = g x) : l.filterMap f = l.filterMap g := by
  induction l with
  | nil => rfl
  | cons a l ih => simp only [List.filterMap_cons, h a (by simp), ih (fun x hx => h x (by simp [hx]))]

theorem filterMap_all {α β : Type} {f : α → Option β} {g : α → β} {l : List α} (h : ∀ x ∈ l, f x = some (g x)) : l.filterMap f = l.map g := by
  induction l with
  | nil => rfl
  | cons a l ih => simp only [List.filterMap_cons, h a (by simp), ih (fun x hx => h x (by simp [hx])), List.map_cons]

theorem liveOn_congr {run run' : DRun Instr} {ns : List Nat} (h : ∀ l ∈ ns, run'.dag.instr l = run.dag.instr l ∧ run'.origin l = run.origin l) :
    liveOn run' ns = liveOn run ns := by
  unfold liveOn
  refine filterMap_congr' ?_
  intro l hl
  rw [(h l hl).1, (h l hl).2]

theorem liveOn_erase (run : DRun Instr) {ns : List Nat} {l : Nat} {i : Instr} (hl : l ∈ ns) (hi : run.dag.instr l = some i) :
    (liveOn run ns).Perm ((run.origin l, i) :: liveOn run (ns.erase l)) := by
  have := (List.perm_cons_erase hl).filterMap (fun l => (run.dag.instr l).map fun i => (run.origin l, i))
  simpa [liveOn, hi] using this

theorem handle_live {st : DSt σ} (h : DInv P st) {l : Nat} (hl : l ∈ st.run.dag.graph.heads) {fs : List Instr} (hfs : fs.length ≤ 1) {run : DRun Instr}
    (hh : handle st.run l fs = .ok run) :
    (liveOn run run.dag.graph.nodes).Perm (fs.map (fun f => (st.run.origin l, f)) ++ liveOn st.run (st.run.dag.graph.nodes.erase l)) := by
  have hR := h.inv
  have hhead := (mem_heads hR.wf).1 hl
  have hne : ∀ x ∈ st.run.dag.graph.nodes.erase l, x ≠ l ∧ x ∈ st.run.dag.graph.nodes := fun x hx => hR.wf.nodup.mem_erase_iff.1 hx
  cases fs with
  | nil =>
    obtain ⟨d', h1, h2, h3, h4, h5, h6⟩ := popHead_spec hR.wf hR.instr hl
    simp only [handle, h1, Outcome.bind_ok, Outcome.ok.injEq] at hh
    subst hh
    simp only [h3, List.map_nil, List.nil_append]
    refine List.Perm.of_eq (liveOn_congr ?_)
    intro x hx
    exact ⟨by simp only [h5]; rw [upd_other _ _ (hne x hx).1], rfl⟩
  | cons f fs =>
    have hfs' : fs = [] := by
      cases fs with
      | nil => rfl
      | cons a b => simp at hfs
    subst hfs'
    unfold handle at hh
    obtain ⟨⟨d, new⟩, h1, hh⟩ := Outcome.bind_eq_ok.1 hh
    dsimp only at hh
    simp only [Outcome.ok.injEq] at hh
    subst hh
    obtain ⟨-, h2, h3, h4, h5⟩ := dexpand_ok h1
    have hfl : st.run.dag.freshLabels [f] = [st.run.dag.next] := by simp [DDag.freshLabels]
    have hfresh : st.run.dag.next ∉ st.run.dag.graph.nodes := fun hc => Nat.lt_irrefl _ (hR.bound _ hc)
    obtain ⟨g', e1, e2, e3, -⟩ := expand_spec hR.wf (r0 := st.run.dag.next) (rs := []) hhead.1 (by simpa using hfresh)
    rw [hfl, e1] at h2
    cases h2
    have hperm : d.graph.nodes.Perm (st.run.dag.next :: st.run.dag.graph.nodes.erase l) := by
      rw [List.perm_ext_iff_of_nodup e2.nodup]
      · intro a
        rw [e3, List.mem_singleton, List.mem_cons, hR.wf.nodup.mem_erase_iff]
        constructor
        · rintro (⟨h5, h6⟩ | h5)
          · exact Or.inr ⟨h6, h5⟩
          · exact Or.inl h5
        · rintro (h5 | ⟨h5, h6⟩)
          · exact Or.inr h5
          · exact Or.inl ⟨h6, h5⟩
      · rw [List.nodup_cons]
        exact ⟨fun hc => hfresh (List.mem_of_mem_erase hc), hR.wf.nodup.erase l⟩
    refine (List.Perm.filterMap _ hperm).trans ?_
    have hnew : d.instr st.run.dag.next = some f := by
      rw [h3]
      have := storeFrom_new st.run.dag.instr st.run.dag.next [f] 0 (by simp)
      simpa using this
    simp only [DDag.makeProximate, List.filterMap_cons, hnew, Option.map_some, List.length_cons, List.length_nil, Nat.zero_add, List.map_cons, List.map_nil, List.cons_append, List.nil_append]
    rw [if_pos (by omega)]
    refine List.Perm.cons _ (List.Perm.of_eq (filterMap_congr' ?_))
    intro x hx
    have hb := hR.bound x (hne x hx).2
    rw [h3, storeFrom_other _ _ _ (by simp; omega), if_neg (by omega)]

structure DAmb (P : List Instr) (Φ : σ → List (Nat × Instr) → Prop) (st : DSt σ) : Prop extends DInv P st where
  amb : Φ st.slice (liveOn st.run st.run.dag.graph.nodes)
  seen : ∀ s ∈ st.seen, ∃ w, Φ s w

/-- An attempt on a node that is ready. -/
theorem dapply_amb (hA : Ambient env P Φ) {st st' : DSt σ} {r : Res σ} (h : DAmb P Φ st) {l : Nat} (hl : l ∈ st.run.dag.graph.heads) (hd : dapply env st l = .ok (r, st')) :
    DInv P st' ∧ st'.run.dag.graph = st.run.dag.graph ∧ st'.seen = st.seen ∧ (∃ s i, env.apply s i = .ok r) ∧ st'.run.dag.instr l = some r.instr ∧
    Φ st'.slice ((left r).map (fun j => (st'.run.origin l, j)) ++ liveOn st'.run (st'.run.dag.graph.nodes.erase l)) := by
  have hR := h.inv
  have hhead := (mem_heads hR.wf).1 hl
  obtain ⟨i, hi, hgood⟩ := dapply_good (env := env) h.toDInv hl
  rcases hgood _ rfl with ⟨-, h1⟩ | ⟨-, h1⟩ | ⟨r', s', h1, h2, h3, h4, -, -⟩
  · rw [h1] at hd; cases hd
  · rw [h1] at hd; cases hd
  · rw [h1] at hd
    cases hd
    unfold dapply at h1
    simp only [hi, h2, Outcome.bind_ok, Outcome.ok.injEq, Prod.mk.injEq, true_and] at h1
    have hlive : ∀ y ∈ st.run.dag.graph.nodes, ¬ Conf Instr.canCommute P (st.run.origin y) (st.run.origin l) := by
      intro y hy hc
      have hr := hR.order y hy l hhead.1 hc
      cases hr with
      | single e => exact hhead.2 _ e
      | tail _ e => exact hhead.2 _ e
    have h5 := hA.apply (hA.perm h.amb (liveOn_erase st.run hhead.1 hi)) (by
      intro x hx hlt a b ha hb p hpa hpb
      unfold liveOn at hx
      obtain ⟨y, hy, hx⟩ := List.mem_filterMap.1 hx
      obtain ⟨j, -, rfl⟩ := Option.map_eq_some_iff.1 hx
      refine hlive y (List.mem_of_mem_erase hy) ⟨hlt, a, b, ha, hb, ?_⟩
      cases hc : a.canCommute b with
      | false => rfl
      | true =>
        exact absurd (mem_operating.2 (mem_deps.1 hpb)) (canCommute_iff.1 hc p (mem_operating.2 (mem_deps.1 hpa)))) h2
    subst h1
    refine ⟨h3, rfl, rfl, ⟨_, _, h2⟩, by simp [upd_same], ?_⟩
    have e : liveOn { st.run with dag := { st.run.dag with instr := upd st.run.dag.instr l (some r.instr) } } (st.run.dag.graph.nodes.erase l) = liveOn st.run (st.run.dag.graph.nodes.erase l) := by
      refine liveOn_congr ?_
      intro x hx
      exact ⟨upd_other _ _ (hR.wf.nodup.mem_erase_iff.1 hx).1, rfl⟩
    simp only
    rw [e]
    exact h5

theorem handle_amb (hA : Ambient env P Φ) (ho : OneFollowup env) {st : DSt σ} {r : Res σ} (hseen : ∀ s ∈ st.seen, ∃ w, Φ s w) (hi : DInv P st) {l : Nat} (hl : l ∈ st.run.dag.graph.heads)
    (hr : ∃ s i, env.apply s i = .ok r) (he : r.err = false) (hamb : Φ st.slice ((left r).map (fun j => (st.run.origin l, j)) ++ liveOn st.run (st.run.dag.graph.nodes.erase l)))
    {run : DRun Instr} (hh : handle st.run l r.followups = .ok run) :
    DAmb P Φ { st with run := run, shown := st.shown ++ [(l, r.instr, st.slices)], obs := st.obs ++ [.instr r.instr] } ∧ ∀ x ∈ st.run.dag.graph.heads, x ≠ l → x ∈ run.dag.graph.heads := by
  obtain ⟨s, i, hr⟩ := hr
  have hone := ho _ _ _ hr
  obtain ⟨run', h1, h2, h3⟩ := handle_good hi hl hone r.instr
  rw [hh] at h1
  cases h1
  have e : left r = r.followups := by simp [left, he]
  rw [e] at hamb
  exact ⟨⟨h2, hA.perm hamb (handle_live hi hl hone hh).symm, hseen⟩, h3⟩

theorem proxLoop_amb (hA : Ambient env P Φ) (ho : OneFollowup env) (ls : List Nat) : ∀ {st st' : DSt σ}, DAmb P Φ st → ls.Nodup → (∀ x ∈ ls, x ∈ st.run.dag.graph.heads) →
    proxLoop env st ls = .ok st' → DAmb P Φ st' := by
  induction ls with
  | nil => intro st st' h _ _ e; cases e; exact h
  | cons l ls ih =>
    intro st st' h hnd hls e
    rw [List.nodup_cons] at hnd
    unfold proxLoop at e
    obtain ⟨⟨r, s1⟩, h1, e⟩ := Outcome.bind_eq_ok.1 e
    obtain ⟨a1, a2, a3, a4, a5, a6⟩ := dapply_amb hA h (hls l (by simp)) h1
    dsimp only at e
    split at e
    · cases e
    · rename_i he
      obtain ⟨run, h7, e⟩ := Outcome.bind_eq_ok.1 e
      obtain ⟨b1, b2⟩ := handle_amb hA ho (by rw [a3]; exact h.seen) a1 (by rw [a2]; exact hls l (by simp)) a4 (by simpa using he) a6 h7
      refine ih b1 hnd.2 ?_ e
      intro x hx
      exact b2 x (by rw [a2]; exact hls x (by simp [hx])) (fun e => hnd.1 (e ▸ hx))

theorem headLoop_amb (hA : Ambient env P Φ) (ho : OneFollowup env) (ls : List Nat) : ∀ {st st' : DSt σ}, DAmb P Φ st → ls.Nodup → (∀ x ∈ ls, x ∈ st.run.dag.graph.heads) →
    headLoop env st ls = .ok st' → DAmb P Φ st' := by
  induction ls with
  | nil => intro st st' h _ _ e; cases e; exact h
  | cons l ls ih =>
    intro st st' h hnd hls e
    rw [List.nodup_cons] at hnd
    unfold headLoop at e
    obtain ⟨⟨r, s1⟩, h1, e⟩ := Outcome.bind_eq_ok.1 e
    obtain ⟨a1, a2, a3, a4, a5, a6⟩ := dapply_amb hA h (hls l (by simp)) h1
    dsimp only at e
    split at e
    · rename_i he
      obtain ⟨s2, h2, e⟩ := Outcome.bind_eq_ok.1 e
      unfold noteFailure at h2
      split at h2
      · cases h2
      · rename_i hle
        cases h2
        refine ih ⟨?_, ?_, by simpa [a3] using h.seen⟩ hnd.2 ?_ e
        · refine ⟨a1.inv, a1.deps, a1.heads, a1.hnodup, a1.sbound, a1.live, a1.order, a1.once, a1.pshown, ?_, a1.count⟩
          intro x
          simp only
          by_cases e : x = l
          · subst e; rw [upd_same]; omega
          · rw [upd_other _ _ e]; exact a1.fails x
        · have e : left r = [r.instr] := by simp [left, he]
          rw [e] at a6
          refine hA.perm a6 (List.Perm.symm ?_)
          refine liveOn_erase s1.run ?_ a5
          rw [a2]
          exact ((mem_heads h.inv.wf).1 (hls l (by simp))).1
        · intro x hx
          simp only [a2]; exact hls x (by simp [hx])
    · rename_i he
      obtain ⟨run, h7, e⟩ := Outcome.bind_eq_ok.1 e
      obtain ⟨b1, b2⟩ := handle_amb hA ho (by rw [a3]; exact h.seen) a1 (by rw [a2]; exact hls l (by simp)) a4 (by simpa using he) a6 h7
      refine ih b1 hnd.2 ?_ e
      intro x hx
      exact b2 x (by rw [a2]; exact hls x (by simp [hx])) (fun e => hnd.1 (e ▸ hx))

theorem dround_amb (hA : Ambient env P Φ) (ho : OneFollowup env) {st st' : DSt σ} (h : DAmb P Φ st) (e : dround env st = .ok st') : DAmb P Φ st' := by
  unfold dround at e
  obtain ⟨s1, h1, e⟩ := Outcome.bind_eq_ok.1 e
  obtain ⟨s2, h2, e⟩ := Outcome.bind_eq_ok.1 e
  obtain ⟨sl, h3, e⟩ := Outcome.bind_eq_ok.1 e
  have b1 := proxLoop_amb hA ho _ h h.hnodup h.heads h1
  have b2 := headLoop_amb hA ho _ b1 (nodup_heads b1.inv.wf) (fun x hx => hx) h2
  cases e
  refine ⟨⟨b2.inv, b2.deps, b2.heads, b2.hnodup, b2.sbound, b2.live, b2.order, b2.once, b2.pshown, b2.fails, by simp only; rw [b2.count]⟩, hA.advance b2.amb h3, ?_⟩
  intro s hs
  rcases List.mem_append.1 hs with hs | hs
  · exact b2.seen s hs
  · rw [List.mem_singleton.1 hs]; exact ⟨_, b2.amb⟩

theorem drun_amb (hA : Ambient env P Φ) (ho : OneFollowup env) (n : Nat) : ∀ {st st' : DSt σ} {b : Bool}, DAmb P Φ st → drun env n st = .ok (b, st') → DAmb P Φ st' := by
  induction n with
  | zero => intro st st' b h e; cases e; exact h
  | succ n ih =>
    intro st st' b h e
    rw [drun] at e
    split at e
    · cases e; exact h
    · obtain ⟨s1, h1, e⟩ := Outcome.bind_eq_ok.1 e
      exact ih (dround_amb hA ho h h1) e

theorem dstart_amb {slice : σ} {st : DSt σ} (h : Φ slice (indexed P)) (hperm : ∀ {w w'}, Φ slice w → w.Perm w' → Φ slice w') (e : dstart slice P = .ok st) : DAmb P Φ st := by
  obtain ⟨st', h1, h2⟩ := dinv_start (slice := slice) (P := P)
  rw [e] at h1
  cases h1
  obtain ⟨d, h1, h3⟩ := built_pushAll Instr.canCommute P (built_empty Instr.canCommute)
  simp only [List.nil_append] at h3
  unfold dstart at e
  simp only [h1, Outcome.bind_ok, Outcome.ok.injEq] at e
  subst e
  refine ⟨h2, hperm h ?_, by simp⟩
  have hn : d.graph.nodes.Perm (List.range P.length) := by
    rw [List.perm_ext_iff_of_nodup h3.wf.nodup List.nodup_range]
    intro a
    rw [h3.nodes, List.mem_range]
  refine List.Perm.trans ?_ (List.Perm.filterMap _ hn).symm
  refine List.Perm.of_eq ?_
  simp only [DRun.start, id, h3.instr, indexed]
  rw [filterMap_all (g := fun l => (l, P[l]?.getD { op := .declare [] }))]
  · refine List.ext_getElem (by simp) ?_
    intro k h4 h5
    have : k < P.length := by simpa using h4
    simp [this]
  · intro l hl
    have : l < P.length := by simpa using hl
    simp [this]

/-! ### Waves -/

theorem wrun_amb (hA : Ambient env P Φ) {stage : Operation → Stage} {N : Nat} {D : Nat → List Nat} (hC : Chained P N D) (hD : Static N D) (hP : Protocol env stage) {depth : Nat} (n : Nat) :
    ∀ {w w' : WSt σ} {b : Bool}, Between Φ stage N D w.st → (∀ s ∈ w.shown, ∃ l, Φ s l) → wrun env depth n w = .ok (b, w') → ∀ s ∈ w'.shown, ∃ l, Φ s l := by
  induction n with
  | zero => intro w w' b _ h e; cases e; exact h
  | succ n ih =>
    intro w w' b hb h e
    rw [wrun] at e
    split at e
    · cases e; exact h
    · obtain ⟨s1, h1, e⟩ := Outcome.bind_eq_ok.1 e
      obtain ⟨sl, h2, e⟩ := Outcome.bind_eq_ok.1 e
      obtain ⟨⟨L, hi⟩, hd, hn⟩ := scheduleWave_between hA hC hD hP h1 hb
      refine ih ⟨⟨L, hi.toInv.queues sl s1.cur s1.nxt, hA.advance hi.amb h2⟩, hd, hn⟩ ?_ e
      intro s hs
      rcases List.mem_append.1 hs with hs | hs
      · exact h s hs
      · rw [List.mem_singleton.1 hs]; exact ⟨_, hi.amb⟩

end Verif.Pipe
