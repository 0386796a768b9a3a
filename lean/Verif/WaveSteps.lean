import Verif.WaveLemmas

/-! # Wave scheduler: preservation of the invariant -/

namespace Verif.Wave

/-- What is assumed of the function that applies instructions: at most one follow-up, and the deferral protocol of
`BellBasedCNOT` in EDPC mode (dense_patch_computation.cpp:946-1181): routed and deferred at the first attempt,
compiled in the first deferred round, going on with its first phase in the second. -/
structure Protocol {σ : Type} (env : Env σ) (stage : Operation → Stage) : Prop where
  one : ∀ s i r, env.apply s i = .ok r → r.followups.length ≤ 1
  defer : ∀ s i r, env.apply s i = .ok r → stage i.op = .plain → r.err = true → selfResult r = true → env.edpc = true ∧ stage r.instr.op = .routed
  plain : ∀ s i r, env.apply s i = .ok r → stage i.op = .plain → ¬ (r.err = true ∧ selfResult r = true) → stage r.instr.op ≠ .routed
  follow : ∀ s i r, env.apply s i = .ok r → stage i.op = .plain → ∀ f ∈ r.followups, selfResult r = false → stage f.op ≠ .routed
  routed : ∀ s i r, env.apply s i = .ok r → stage i.op = .routed → r.err = true ∧ selfResult r = false ∧ stage r.instr.op = .compiled
  compiled : ∀ s i r, env.apply s i = .ok r → stage i.op = .compiled → r.err = false ∧ selfResult r = true ∧ stage r.instr.op ≠ .routed

/-- What a step appends to `current_wave_.heads`, `current_wave_.deferred_to_end`, `next_wave_.heads`,
`next_wave_.proximate_heads_`. -/
structure Add where
  a : List Nat := []
  d : List Nat := []
  h : List Nat := []
  p : List Nat := []

def Add.all (g : Add) : List Nat := g.a ++ g.d ++ g.h ++ g.p
def Add.app (g g' : Add) : Add := ⟨g.a ++ g'.a, g.d ++ g'.d, g.h ++ g'.h, g.p ++ g'.p⟩

structure Grow {σ : Type} (st st' : St σ) (g : Add) : Prop where
  prox : st'.cur.prox = st.cur.prox
  heads : st'.cur.heads = st.cur.heads ++ g.a
  deferred : st'.cur.deferred = st.cur.deferred ++ g.d
  nheads : st'.nxt.heads = st.nxt.heads ++ g.h
  nprox : st'.nxt.prox = st.nxt.prox ++ g.p
  ndeferred : st'.nxt.deferred = st.nxt.deferred

theorem Grow.trans {σ : Type} {s1 s2 s3 : St σ} {g g' : Add} (h : Grow s1 s2 g) (h' : Grow s2 s3 g') : Grow s1 s3 (g.app g') := by
  refine ⟨h'.prox.trans h.prox, ?_, ?_, ?_, ?_, h'.ndeferred.trans h.ndeferred⟩
  · rw [h'.heads, h.heads, List.append_assoc]; rfl
  · rw [h'.deferred, h.deferred, List.append_assoc]; rfl
  · rw [h'.nheads, h.nheads, List.append_assoc]; rfl
  · rw [h'.nprox, h.nprox, List.append_assoc]; rfl

theorem Add.app_all (K : List Nat) (g g' : Add) : (K ++ g.all ++ g'.all).Perm (K ++ (g.app g').all) := by
  rw [List.perm_iff_count]
  intro x
  simp only [Add.all, Add.app, List.count_append]
  omega

section
variable {σ : Type} {env : Env σ} {Φ : σ → List (Nat × Instr) → Prop} {stage : Operation → Stage} {N : Nat} {D : Nat → List Nat}

/-- The dependents stand for the order of the program. -/
def Chained (P : List Instr) (N : Nat) (D : Nat → List Nat) : Prop := ∀ a b, a < b → b < N → ¬ Before D a b → Apart P a b

/-- The state can go from `st` to `st'` with tokens `K` becoming `K` and the added ones. -/
def Step (env : Env σ) (Φ : σ → List (Nat × Instr) → Prop) (stage : Operation → Stage) (N : Nat) (D : Nat → List Nat) (prox : Bool) (R E K : List Nat) (st st' : St σ) : Prop :=
  ∃ L g, Grow st st' g ∧ (prox = false → g.a = []) ∧ (env.edpc = false → g.d = []) ∧ InvA Φ stage N D L (R ++ g.d) E (K ++ g.all) st'

theorem Step.refl {prox : Bool} {L R E K : List Nat} {st : St σ} (h : InvA Φ stage N D L R E K st) : Step env Φ stage N D prox R E K st st :=
  ⟨L, {}, ⟨rfl, by simp, by simp, by simp, by simp, rfl⟩, fun _ => rfl, fun _ => rfl, by simpa [Add.all] using h⟩

/-- Continue after a step. -/
theorem Step.andThen {prox : Bool} {R E E' K K' : List Nat} {s1 s2 s3 : St σ} {g : Add} (hg : Grow s1 s2 g)
    (ha : prox = false → g.a = []) (hd : env.edpc = false → g.d = [])
    (h : Step env Φ stage N D prox (R ++ g.d) E K' s2 s3) (hp : K'.Perm (K ++ g.all)) (_ : E' = E) : Step env Φ stage N D prox R E K s1 s3 := by
  obtain ⟨L, g', hg', ha', hd', hi⟩ := h
  refine ⟨L, g.app g', hg.trans hg', ?_, ?_, ?_⟩
  · intro hp; simp [Add.app, ha hp, ha' hp]
  · intro hp; simp [Add.app, hd hp, hd' hp]
  · have h1 := hi.perm ((hp.append_right g'.all).trans (Add.app_all K g g'))
    simpa [Add.app, List.append_assoc] using h1

/-- `try_schedule_immediately` as assumed by its callers. -/
def Good (env : Env σ) (Φ : σ → List (Nat × Instr) → Prop) (stage : Operation → Stage) (N : Nat) (D : Nat → List Nat) (f : Rec σ) : Prop :=
  ∀ st id prox b st' L R E K, f st id prox = .ok (b, st') → InvA Φ stage N D L R E (id :: K) st → id ∉ R →
    Step env Φ stage N D prox R E (if b then K else id :: K) st st' ∧ (b = false → Grow st st' {} ∧ ∃ L', InvA Φ stage N D L' R E (id :: K) st')

theorem grow_nextHead (st : St σ) (j : Nat) : Grow st (pushNextHead st j) { h := [j] } :=
  ⟨rfl, by simp [pushNextHead], by simp [pushNextHead], rfl, by simp [pushNextHead], rfl⟩
theorem grow_nextProx (st : St σ) (j : Nat) : Grow st (pushNextProx st j) { p := [j] } :=
  ⟨rfl, by simp [pushNextProx], by simp [pushNextProx], by simp [pushNextProx], rfl, rfl⟩
theorem grow_head (st : St σ) (j : Nat) : Grow st (pushHead st j) { a := [j] } :=
  ⟨rfl, rfl, by simp [pushHead], by simp [pushHead], by simp [pushHead], rfl⟩
theorem grow_deferred (st : St σ) (j : Nat) : Grow st (pushDeferred st j) { d := [j] } :=
  ⟨rfl, by simp [pushDeferred], rfl, by simp [pushDeferred], by simp [pushDeferred], rfl⟩

theorem perm_last (K : List Nat) (j : Nat) : (j :: K).Perm (K ++ [j]) := List.perm_append_comm (l₁ := [j]) (l₂ := K)

theorem step_nextHead {prox : Bool} {L R E K : List Nat} {st : St σ} {j : Nat} (h : InvA Φ stage N D L R E (j :: K) st) :
    Step env Φ stage N D prox R E K st (pushNextHead st j) :=
  ⟨L, { h := [j] }, grow_nextHead st j, fun _ => rfl, fun _ => rfl, by have := (h.perm (perm_last K j)).queues (pushNextHead st j).cur (pushNextHead st j).nxt; simp only [Add.all, List.append_nil, List.nil_append]; exact this⟩

theorem step_nextProx {prox : Bool} {L R E K : List Nat} {st : St σ} {j : Nat} (h : InvA Φ stage N D L R E (j :: K) st) :
    Step env Φ stage N D prox R E K st (pushNextProx st j) :=
  ⟨L, { p := [j] }, grow_nextProx st j, fun _ => rfl, fun _ => rfl, by have := (h.perm (perm_last K j)).queues (pushNextProx st j).cur (pushNextProx st j).nxt; simp only [Add.all, List.append_nil, List.nil_append]; exact this⟩

theorem step_head {L R E K : List Nat} {st : St σ} {j : Nat} (h : InvA Φ stage N D L R E (j :: K) st) :
    Step env Φ stage N D true R E K st (pushHead st j) :=
  ⟨L, { a := [j] }, grow_head st j, fun e => (nomatch e), fun _ => rfl, by have := (h.perm (perm_last K j)).queues (pushHead st j).cur (pushHead st j).nxt; simp only [Add.all, List.append_nil, List.nil_append]; exact this⟩

theorem step_deferred {prox : Bool} {L R E K : List Nat} {st : St σ} {j : Nat} (he : env.edpc = true) (h : InvA Φ stage N D L (R ++ [j]) E (j :: K) st) :
    Step env Φ stage N D prox R E K st (pushDeferred st j) :=
  ⟨L, { d := [j] }, grow_deferred st j, fun _ => rfl, fun e => (by rw [he] at e; nomatch e), by have := (h.perm (perm_last K j)).queues (pushDeferred st j).cur (pushDeferred st j).nxt; simp only [Add.all, List.append_nil, List.nil_append]; exact this⟩

/-- Steps compose. -/
theorem Step.trans' {prox : Bool} {R E K : List Nat} {s1 s2 s3 : St σ} (h1 : Step env Φ stage N D prox R E K s1 s2)
    (h2 : ∀ L R' K', InvA Φ stage N D L R' E K' s2 → (∀ i, i ∈ K → i ∈ K') → (∀ i, i ∈ R' → i ∈ R ∨ i ∉ K) → Step env Φ stage N D prox R' E K' s2 s3) : Step env Φ stage N D prox R E K s1 s3 := by
  obtain ⟨L, g, hg, ha, hd, hi⟩ := h1
  have hnd := hi.nodupK
  refine Step.andThen (E' := E) hg ha hd (h2 L _ _ hi (fun i h => List.mem_append_left _ h) ?_) (List.Perm.refl _) rfl
  intro i h
  rcases List.mem_append.1 h with h | h
  · exact .inl h
  · right
    intro hK
    have := (List.nodup_append.1 hnd).2.2 i hK i (by simp [Add.all, h])
    exact this rfl

theorem release_step {f : Rec σ} (hf : Good env Φ stage N D f) {st st' : St σ} {j : Nat} {prox : Bool} (h : release f st j prox = .ok st')
    {L R E K : List Nat} (hi : InvA Φ stage N D L R E (j :: K) st) (hR : j ∉ R) : Step env Φ stage N D prox R E K st st' := by
  unfold release at h
  cases prox with
  | true =>
    rw [if_pos rfl] at h
    obtain ⟨imm, -, h⟩ := Outcome.bind_eq_ok.1 h
    cases imm with
    | true => simp only [if_true, Outcome.ok.injEq] at h; subst h; exact step_head hi
    | false => simp only [Outcome.ok.injEq] at h; subst h; exact step_nextHead hi
  | false =>
    rw [if_neg (by simp)] at h
    obtain ⟨⟨b, s⟩, h1, h⟩ := Outcome.bind_eq_ok.1 h
    have := hf st j false b s L R E K h1 hi hR
    cases b with
    | true => simp only [if_true, Outcome.ok.injEq] at h; subst h; exact this.1
    | false =>
      simp only [Outcome.ok.injEq] at h
      subst h
      obtain ⟨hg, L', hi'⟩ := this.2 rfl
      exact Step.andThen (E' := E) hg (fun _ => rfl) (fun _ => rfl) (step_nextHead (L := L') (by simpa using hi')) (by simp [Add.all]) rfl

theorem depLoop_step {f : Rec σ} (hf : Good env Φ stage N D f) {prox : Bool} {n0 : Nat} (js : List Nat) :
    ∀ {st st' : St σ}, depLoop env f prox n0 st js = .ok st' → (∀ j ∈ js, j < N) →
    ∀ {L R E K : List Nat}, InvA Φ stage N D L R (js ++ E) K st → Step env Φ stage N D prox R E K st st' := by
  induction js with
  | nil =>
    intro st st' h _ L R E K hi
    simp only [depLoop, Outcome.ok.injEq] at h
    subst h
    exact Step.refl hi
  | cons j js ih =>
    intro st st' h hjs L R E K hi
    rw [depLoop] at h
    split at h
    · cases h
    · split at h
      · cases h
      · obtain ⟨hm, hpos, hjL, hjK, hd⟩ := hi.decrement (hjs j (by simp))
        have hjR : j ∉ R := fun hc => hjK (hi.subR j hc)
        obtain ⟨s, h1, h2⟩ := Outcome.bind_eq_ok.1 h
        unfold oneDep at h1
        simp only [hm, upd_same] at h1
        have hstep : Step env Φ stage N D prox R (js ++ E) K st s := by
          by_cases hz : st.count j - 1 = 0
          · rw [if_pos hz] at h1 hd
            obtain ⟨L', g, hg, ha, hdd, hi'⟩ := release_step hf h1 hd hjR
            exact ⟨L', g, ⟨hg.prox, hg.heads, hg.deferred, hg.nheads, hg.nprox, hg.ndeferred⟩, ha, hdd, hi'⟩
          · rw [if_neg hz] at h1 hd
            cases h1
            obtain ⟨L', g, hg, ha, hdd, hi'⟩ := Step.refl (env := env) (prox := prox) hd
            exact ⟨L', g, ⟨hg.prox, hg.heads, hg.deferred, hg.nheads, hg.nprox, hg.ndeferred⟩, ha, hdd, hi'⟩
        obtain ⟨L', g, hg, ha, hdd, hi'⟩ := hstep
        exact Step.andThen (E' := E) hg ha hdd (ih h2 (fun k hk => hjs k (by simp [hk])) hi') (List.Perm.refl _) rfl

theorem notify_step (hD : Static N D) {f : Rec σ} (hf : Good env Φ stage N D f) {prox : Bool} {st st' : St σ} {id : Nat} {r : Res σ}
    (h : notify env f (visit st id r) id r.followups prox = .ok st') (h1 : r.followups.length ≤ 1) (hself : selfResult r = false)
    (hfol : ∀ f ∈ r.followups, stage f.op ≠ .routed)
    {L R E K : List Nat} (hi : Inv stage N D L R E (id :: K) st) (hR : id ∉ R) (hamb : ∀ w, w.Perm (r.followups.map (fun j => (st.origin id, j)) ++ live (L.erase id) st) → Φ st.slice w) :
    Step env Φ stage N D prox R E K st st' := by
  unfold notify at h
  have hlt := hi.ltL id (hi.subK id (by simp))
  have fix : ∀ {s2 : St σ} {R E K}, Step env Φ stage N D prox R E K s2 st' → s2.cur = st.cur → s2.nxt = st.nxt → Step env Φ stage N D prox R E K st st' := by
    rintro s2 R E K ⟨L', g, hg, ha, hdd, hi'⟩ e1 e2
    exact ⟨L', g, ⟨by rw [hg.prox, e1], by rw [hg.heads, e1], by rw [hg.deferred, e1], by rw [hg.nheads, e2], by rw [hg.nprox, e2], by rw [hg.ndeferred, e2]⟩, ha, hdd, hi'⟩
  cases hfs : r.followups with
  | nil =>
    rw [hfs] at h
    simp only at h
    have hfin : InvA Φ stage N D _ _ _ _ _ := ⟨hi.finish hD hR hfs, hamb _ (by rw [hfs]; exact List.Perm.refl _)⟩
    refine fix (depLoop_step hf _ h ?_ hfin) rfl rfl
    intro j hj
    simp only [visit] at hj
    rw [hi.deps id hlt] at hj
    exact (hD _ (hi.originLt id hlt) j hj).2
  | cons fi fs =>
    have : fs = [] := by rw [hfs] at h1; simp at h1; exact h1
    subst this
    rw [hfs] at h
    simp only [List.length_nil, ne_eq, not_true_eq_false, if_false] at h
    have hsp : InvA Φ stage N D _ _ _ _ _ := ⟨hi.spawn hD hR hfs hself (hfol fi (by simp [hfs])), by
      have h4 := hamb _ (List.Perm.refl _)
      have e1 : live (st.size :: L.erase id) (addRecord (visit st id r) fi (st.deps id) (st.origin id)) = (st.origin id, fi) :: live (L.erase id) st := by
        unfold live
        rw [List.map_cons]
        refine congr (congrArg _ ?_) (List.map_congr_left ?_)
        · simp [addRecord, visit, upd_same]
        · intro x hx
          have hx' : x ≠ st.size := fun e => Nat.lt_irrefl _ (e ▸ hi.ltL x (List.mem_of_mem_erase hx))
          simp only [addRecord, visit]
          rw [upd_other _ _ hx', upd_other _ _ hx']
      rw [e1]
      rw [hfs] at h4
      exact h4⟩
    rw [followLoop] at h
    split at h
    · cases h
    · obtain ⟨⟨b, s⟩, h2, h⟩ := Outcome.bind_eq_ok.1 h
      simp only [followLoop, Outcome.ok.injEq] at h
      have hszR : st.size ∉ R := fun hc => Nat.lt_irrefl _ (hi.ltL _ (hi.subK _ (hi.subR _ hc)))
      have h3 := hf _ _ _ _ _ _ _ _ _ h2 hsp hszR
      cases b with
      | true =>
        simp only [if_true] at h
        subst h
        exact fix h3.1 rfl rfl
      | false =>
        simp only [Bool.false_eq_true, if_false] at h
        subst h
        obtain ⟨hg, L', hi'⟩ := h3.2 rfl
        exact fix (Step.andThen (E' := E) hg (fun _ => rfl) (fun _ => rfl) (step_nextProx (L := L') (by simpa using hi')) (by simp [Add.all]) rfl) rfl rfl

/-- An attempt on a token. -/
theorem apply_amb {P : List Instr} (hA : Ambient env P Φ) (hC : Chained P N D) (hD : Static N D) {st : St σ} {id : Nat} {r : Res σ}
    (h : env.apply st.slice (st.instr id) = .ok r) {L R E K : List Nat} (hi : InvA Φ stage N D L R E K st) (hid : id ∈ K) :
    Φ r.slice ((left r).map (fun j => (st.origin id, j)) ++ live (L.erase id) st) := by
  have hL := hi.subK id hid
  refine hA.apply (hA.perm hi.amb (live_erase hL)) ?_ h
  intro x hx hlt
  obtain ⟨j, hj, rfl⟩ := List.mem_map.1 hx
  refine hC _ _ hlt (hi.originLt id (hi.ltL id hL)) fun hb => ?_
  have h1 := (hi.blocks hD (List.mem_of_mem_erase hj) hb).2
  have h2 := hi.released hid
  omega

/-- An attempt on a token that stays with its record. -/
theorem amb_kept {P : List Instr} (hA : Ambient env P Φ) {st : St σ} {id : Nat} {r : Res σ} {L : List Nat} (hn : L.Nodup) (hid : id ∈ L)
    (h : Φ r.slice ((left r).map (fun j => (st.origin id, j)) ++ live (L.erase id) st)) (hl : left r = [r.instr]) :
    Φ r.slice (live L { st with slice := r.slice, instr := upd st.instr id r.instr }) := by
  refine hA.perm h ?_
  refine List.Perm.trans ?_ (live_erase hid).symm
  rw [live_upd hn, hl]
  simp [upd_same]

/-- An attempt on a token that is not routed. -/
theorem apply_cases {P : List Instr} (hA : Ambient env P Φ) (hC : Chained P N D) (hD : Static N D) (hP : Protocol env stage) {st s : St σ} {id : Nat} {r : Res σ} (h : applyTo env st id = .ok (r, s))
    {L R E K : List Nat} (hi : InvA Φ stage N D L R E (id :: K) st) (hR : id ∉ R) :
    r.followups.length ≤ 1 ∧ s.cur = st.cur ∧ s.nxt = st.nxt ∧ s = { st with slice := r.slice, instr := upd st.instr id r.instr } ∧
    (r.err = true → selfResult r = true → env.edpc = true ∧ InvA Φ stage N D L (R ++ [id]) E (id :: K) s) ∧
    (¬ (r.err = true ∧ selfResult r = true) → stage r.instr.op ≠ .routed ∧ Inv stage N D L R E (id :: K) s) ∧
    (left r = [r.instr] → Φ s.slice (live L s)) ∧
    (r.err = false → ∀ w, w.Perm (r.followups.map (fun j => (s.origin id, j)) ++ live (L.erase id) s) → Φ s.slice w) ∧
    (selfResult r = false → ∀ f ∈ r.followups, stage f.op ≠ .routed) := by
  unfold applyTo at h
  have hlt := hi.ltL id (hi.subK id (by simp))
  rw [if_pos hlt] at h
  obtain ⟨r', h1, h⟩ := Outcome.bind_eq_ok.1 h
  simp only [Outcome.ok.injEq, Prod.mk.injEq] at h
  obtain ⟨rfl, rfl⟩ := h
  have hstage : stage (st.instr id).op ≠ .routed := fun hc => hR ((hi.routed id hlt).1 hc)
  have hamb := apply_amb hA hC hD h1 hi (by simp)
  have hkeep := amb_kept hA hi.nodupL (hi.subK id (by simp)) hamb
  refine ⟨hP.one _ _ _ h1, rfl, rfl, rfl, ?_, ?_, hkeep, ?_, ?_⟩
  · intro he hs
    cases hst : stage (st.instr id).op with
    | plain =>
      have := hP.defer _ _ _ h1 hst he hs
      exact ⟨this.1, hi.setRouted id _ _ (by simp) this.2, hkeep (by simp [left, he])⟩
    | routed => exact absurd hst hstage
    | compiled =>
      have := hP.compiled _ _ _ h1 hst
      rw [this.1] at he; cases he
  · intro hn
    cases hst : stage (st.instr id).op with
    | plain =>
      have := hP.plain _ _ _ h1 hst hn
      exact ⟨this, hi.setInstr id _ _ hR this⟩
    | routed => exact absurd hst hstage
    | compiled =>
      have := (hP.compiled _ _ _ h1 hst).2.2
      exact ⟨this, hi.setInstr id _ _ hR this⟩
  · intro he w hw
    refine hA.perm hamb ?_
    rw [live_upd hi.nodupL] at hw
    simp only [left, he]
    exact hw.symm
  · intro hs f hf
    cases hst : stage (st.instr id).op with
    | plain => exact hP.follow _ _ _ h1 hst f hf hs
    | routed => exact absurd hst hstage
    | compiled =>
      have := (hP.compiled _ _ _ h1 hst).2.1
      rw [hs] at this; cases this

theorem Step.fix {prox : Bool} {R E K : List Nat} {st s2 st' : St σ} (h : Step env Φ stage N D prox R E K s2 st') (e1 : s2.cur = st.cur) (e2 : s2.nxt = st.nxt) :
    Step env Φ stage N D prox R E K st st' := by
  obtain ⟨L', g, hg, ha, hdd, hi'⟩ := h
  exact ⟨L', g, ⟨by rw [hg.prox, e1], by rw [hg.heads, e1], by rw [hg.deferred, e1], by rw [hg.nheads, e2], by rw [hg.nprox, e2], by rw [hg.ndeferred, e2]⟩, ha, hdd, hi'⟩

theorem tryImm_good {P : List Instr} (hA : Ambient env P Φ) (hC : Chained P N D) (hD : Static N D) (hP : Protocol env stage) : ∀ d, Good env Φ stage N D (tryImm env d) := by
  intro d
  induction d with
  | zero => intro st id prox b st' L R E K h; simp [tryImm] at h
  | succ d ih =>
    intro st id prox b st' L R E K h hi hR
    rw [tryImm] at h
    split at h
    · cases h
    · obtain ⟨imm, h0, h⟩ := Outcome.bind_eq_ok.1 h
      cases imm with
      | false =>
        simp only [Bool.not_false, if_true, Outcome.ok.injEq, Prod.mk.injEq] at h
        obtain ⟨rfl, rfl⟩ := h
        refine ⟨by simpa using Step.refl hi, fun _ => ⟨⟨rfl, by simp, by simp, by simp, by simp, rfl⟩, L, hi⟩⟩
      | true =>
        simp only [Bool.not_true, Bool.false_eq_true, if_false] at h
        obtain ⟨⟨r, s⟩, h1, h⟩ := Outcome.bind_eq_ok.1 h
        simp only at h
        obtain ⟨hone, hcur, hnxt, hs, hdef, hnd, hkeep, hamb, hfol⟩ := apply_cases hA hC hD hP h1 hi hR
        cases herr : r.err with
        | true =>
          rw [herr] at h
          simp only [if_true] at h
          cases hself : selfResult r with
          | true =>
            rw [hself] at h
            simp only [if_true, Outcome.ok.injEq, Prod.mk.injEq] at h
            obtain ⟨rfl, rfl⟩ := h
            have := hdef herr hself
            exact ⟨(step_deferred this.1 this.2).fix hcur hnxt, (fun e => nomatch e)⟩
          | false =>
            rw [hself] at h
            simp only [Bool.false_eq_true, if_false, Outcome.ok.injEq, Prod.mk.injEq] at h
            obtain ⟨rfl, rfl⟩ := h
            have h2 : InvA Φ stage N D L R E (id :: K) s := ⟨(hnd (by simp [hself])).2, hkeep (by simp [left, herr])⟩
            refine ⟨(Step.refl h2).fix hcur hnxt, fun _ => ⟨⟨by rw [hcur], by simp [hcur], by simp [hcur], by simp [hnxt], by simp [hnxt], by rw [hnxt]⟩, L, h2⟩⟩
        | false =>
          rw [herr] at h
          simp only [Bool.false_eq_true, if_false] at h
          have h2 := (hnd (by simp [herr])).2
          cases hself : selfResult r with
          | true =>
            rw [hself] at h
            simp only [if_true, Outcome.ok.injEq, Prod.mk.injEq] at h
            obtain ⟨rfl, rfl⟩ := h
            have h2' : InvA Φ stage N D L R E (id :: K) s := ⟨h2, hkeep (by simpa [left, herr, selfResult] using hself)⟩
            have h3 := h2'.visitSelf hD (List.mem_cons_self) hself
            exact ⟨(step_nextProx h3).fix hcur hnxt, (fun e => nomatch e)⟩
          | false =>
            rw [hself] at h
            simp only [Bool.false_eq_true, if_false] at h
            obtain ⟨s2, h3, h⟩ := Outcome.bind_eq_ok.1 h
            simp only [Outcome.ok.injEq, Prod.mk.injEq] at h
            obtain ⟨rfl, rfl⟩ := h
            exact ⟨(notify_step hD ih h3 hone hself (hfol hself) h2 hR (hamb herr)).fix hcur hnxt, (fun e => nomatch e)⟩

theorem schedOne_step {P : List Instr} (hA : Ambient env P Φ) (hC : Chained P N D) (hD : Static N D) (hP : Protocol env stage) {f : Rec σ} (hf : Good env Φ stage N D f) {prox : Bool} {st st' : St σ} {id : Nat}
    (h : schedOne env f prox false st id = .ok st') {L R K : List Nat} (hi : InvA Φ stage N D L R [] (id :: K) st) (hR : id ∉ R) :
    Step env Φ stage N D prox R [] K st st' := by
  unfold schedOne at h
  obtain ⟨⟨r, s⟩, h1, h⟩ := Outcome.bind_eq_ok.1 h
  simp only at h
  obtain ⟨hone, hcur, hnxt, hs, hdef, hnd, hkeep, hamb, hfol⟩ := apply_cases hA hC hD hP h1 hi hR
  cases herr : r.err with
  | false =>
    rw [herr] at h
    simp only [Bool.not_false, if_true] at h
    have h2 := (hnd (by simp [herr])).2
    cases hself : selfResult r with
    | true =>
      rw [hself] at h
      simp only [if_true, Outcome.ok.injEq] at h
      subst h
      have h2' : InvA Φ stage N D L R [] (id :: K) s := ⟨h2, hkeep (by simpa [left, herr, selfResult] using hself)⟩
      exact (step_nextProx (h2'.visitSelf hD (List.mem_cons_self) hself)).fix hcur hnxt
    | false =>
      rw [hself] at h
      simp only [Bool.false_eq_true, if_false] at h
      exact (notify_step hD hf h hone hself (hfol hself) h2 hR (hamb herr)).fix hcur hnxt
  | true =>
    rw [herr] at h
    simp only [Bool.not_true, Bool.false_eq_true, if_false] at h
    cases hself : selfResult r with
    | true =>
      rw [hself] at h
      simp only [if_true, Outcome.ok.injEq] at h
      subst h
      have := hdef herr hself
      exact (step_deferred this.1 this.2).fix hcur hnxt
    | false =>
      rw [hself] at h
      simp only [Bool.false_eq_true, if_false] at h
      have h2 := hnd (by simp [hself])
      split at h
      · cases h
      · split at h
        · cases h
        · simp only [Outcome.ok.injEq] at h
          subst h
          have h4 := hA.perm (hkeep (by simp [left, herr])) (live_erase (hi.subK id (by simp)))
          have h5 : s.instr id = r.instr := by rw [hs]; simp [upd_same]
          rw [h5] at h4
          have h3 : InvA Φ stage N D L R [] (id :: K) { s with instr := upd s.instr id { r.instr with wait := r.instr.wait - 1 } } :=
            ⟨h2.2.setInstr id { r.instr with wait := r.instr.wait - 1 } s.slice hR h2.1, by
              refine hA.perm (hA.waits (r.instr.wait - 1) h4) ?_
              refine List.Perm.trans ?_ (live_erase (hi.subK id (by simp))).symm
              have := live_upd (st := s) hi.nodupL (id := id) { r.instr with wait := r.instr.wait - 1 } s.slice
              rw [this]
              simp [upd_same]⟩
          exact (step_nextHead h3).fix hcur hnxt

theorem schedList_step {P : List Instr} (hA : Ambient env P Φ) (hC : Chained P N D) (hD : Static N D) (hP : Protocol env stage) {f : Rec σ} (hf : Good env Φ stage N D f) {prox : Bool} (ids : List Nat) :
    ∀ {st st' : St σ}, schedList env f prox false st ids = .ok st' → ∀ {L R K : List Nat}, InvA Φ stage N D L R [] (ids ++ K) st → (∀ i ∈ ids, i ∉ R) →
    Step env Φ stage N D prox R [] K st st' := by
  induction ids with
  | nil =>
    intro st st' h L R K hi _
    simp only [schedList, Outcome.ok.injEq] at h
    subst h
    exact Step.refl hi
  | cons id ids ih =>
    intro st st' h L R K hi hR
    rw [schedList] at h
    obtain ⟨s, h1, h2⟩ := Outcome.bind_eq_ok.1 h
    have hs := schedOne_step hA hC hD hP hf h1 (K := ids ++ K) hi (hR id (by simp))
    obtain ⟨L', g, hg, ha, hd, hi'⟩ := hs
    have h3 : Step env Φ stage N D prox (R ++ g.d) [] (K ++ g.all) s st' := by
      refine ih h2 (L := L') (K := K ++ g.all) (by simpa [List.append_assoc] using hi') ?_
      intro i him hiR
      rcases List.mem_append.1 hiR with h4 | h4
      · exact hR i (by simp [him]) h4
      · have := (List.nodup_append.1 hi'.nodupK).2.2 i (by simp [him]) i (by simp [Add.all, h4])
        exact this rfl
    exact Step.andThen (E' := []) hg ha hd h3 (List.Perm.refl _) rfl

/-- First deferred round: everything routed is compiled. -/
theorem round1 {P : List Instr} (hA : Ambient env P Φ) (hC : Chained P N D) (hD : Static N D) (hP : Protocol env stage) {f : Rec σ} (ids : List Nat) :
    ∀ {st st' : St σ}, schedList env f false true st ids = .ok st' → ∀ {L K : List Nat}, ids.Nodup → InvA Φ stage N D L ids [] K st →
    st'.cur = st.cur ∧ st'.nxt = st.nxt ∧ InvA Φ stage N D L [] [] K st' ∧ (∀ i ∈ ids, stage (st'.instr i).op = .compiled) ∧ (∀ i, i ∉ ids → st'.instr i = st.instr i) := by
  induction ids with
  | nil =>
    intro st st' h L K _ hi
    simp only [schedList, Outcome.ok.injEq] at h
    subst h
    exact ⟨rfl, rfl, hi, by simp, fun _ _ => rfl⟩
  | cons id ids ih =>
    intro st st' h L K hnd hi
    rw [schedList] at h
    obtain ⟨s, h1, h2⟩ := Outcome.bind_eq_ok.1 h
    have hnd' := List.nodup_cons.1 hnd
    have hlt := hi.ltL id (hi.subK id (hi.subR id (by simp)))
    have hst := (hi.routed id hlt).2 (by simp)
    unfold schedOne applyTo at h1
    rw [if_pos hlt] at h1
    obtain ⟨⟨r, s0⟩, h3, h1⟩ := Outcome.bind_eq_ok.1 h1
    obtain ⟨r', h4, h3⟩ := Outcome.bind_eq_ok.1 h3
    simp only [Outcome.ok.injEq, Prod.mk.injEq] at h3
    obtain ⟨rfl, rfl⟩ := h3
    obtain ⟨herr, hself, hcomp⟩ := hP.routed _ _ _ h4 hst
    simp only [herr, hself, Bool.not_true, Bool.false_eq_true, if_false, if_true, Outcome.ok.injEq] at h1
    subst h1
    have hamb := apply_amb hA hC hD h4 hi (hi.subR id (by simp))
    have hi2 : InvA Φ stage N D L ids [] K _ := ⟨hi.setCompiled r'.instr r'.slice hnd'.1 (by rw [hcomp]; exact fun e => nomatch e),
      amb_kept hA hi.nodupL (hi.subK id (hi.subR id (by simp))) hamb (by simp [left, herr])⟩
    obtain ⟨e1, e2, hi3, hc, hsame⟩ := ih h2 hnd'.2 hi2
    refine ⟨e1, e2, hi3, ?_, ?_⟩
    · intro i hi'
      rcases List.mem_cons.1 hi' with rfl | h5
      · rw [hsame _ hnd'.1]; simp only [upd_same]; exact hcomp
      · exact hc i h5
    · intro i hn
      simp only [List.mem_cons, not_or] at hn
      rw [hsame i hn.2]
      exact upd_other _ _ hn.1

/-- Second deferred round: everything compiled goes on in the next wave. -/
theorem round2 {P : List Instr} (hA : Ambient env P Φ) (hC : Chained P N D) (hD : Static N D) (hP : Protocol env stage) {f : Rec σ} (ids : List Nat) :
    ∀ {st st' : St σ}, schedList env f false true st ids = .ok st' → ∀ {L K : List Nat}, ids.Nodup → (∀ i ∈ ids, i ∈ K) → InvA Φ stage N D L [] [] K st →
    (∀ i ∈ ids, stage (st.instr i).op = .compiled) →
    st'.cur = st.cur ∧ st'.nxt = { st.nxt with prox := st.nxt.prox ++ ids } ∧ InvA Φ stage N D L [] [] K st' := by
  induction ids with
  | nil =>
    intro st st' h L K _ _ hi _
    simp only [schedList, Outcome.ok.injEq] at h
    subst h
    exact ⟨rfl, by simp, hi⟩
  | cons id ids ih =>
    intro st st' h L K hnd hK hi hst
    rw [schedList] at h
    obtain ⟨s, h1, h2⟩ := Outcome.bind_eq_ok.1 h
    have hnd' := List.nodup_cons.1 hnd
    have hidK := hK id (by simp)
    have hlt := hi.ltL id (hi.subK id hidK)
    unfold schedOne applyTo at h1
    rw [if_pos hlt] at h1
    obtain ⟨⟨r, s0⟩, h3, h1⟩ := Outcome.bind_eq_ok.1 h1
    obtain ⟨r', h4, h3⟩ := Outcome.bind_eq_ok.1 h3
    simp only [Outcome.ok.injEq, Prod.mk.injEq] at h3
    obtain ⟨rfl, rfl⟩ := h3
    obtain ⟨herr, hself, hne⟩ := hP.compiled _ _ _ h4 (hst id (by simp))
    simp only [herr, hself, Bool.not_false, if_true, Outcome.ok.injEq] at h1
    subst h1
    have hamb := apply_amb hA hC hD h4 hi hidK
    have hi1 : InvA Φ stage N D L [] [] K { st with slice := r'.slice, instr := upd st.instr id r'.instr } := ⟨hi.setInstr id r'.instr r'.slice (by simp) hne,
      amb_kept hA hi.nodupL (hi.subK id hidK) hamb (by simpa [left, herr, selfResult] using hself)⟩
    have hi2 := hi1.visitSelf hD hidK hself
    have hi3 := hi2.queues st.cur { st.nxt with prox := st.nxt.prox ++ [id] }
    obtain ⟨e1, e2, hi4⟩ := ih h2 hnd'.2 (fun i h => hK i (by simp [h])) hi3 (by
      intro i h5
      have : i ≠ id := fun e => hnd'.1 (e ▸ h5)
      simp only [pushNextProx, visit]
      rw [upd_other _ _ this]
      exact hst i (by simp [h5]))
    refine ⟨e1, ?_, hi4⟩
    rw [e2]; simp [pushNextProx, visit]

/-- The state between waves. -/
structure Between (Φ : σ → List (Nat × Instr) → Prop) (stage : Operation → Stage) (N : Nat) (D : Nat → List Nat) (st : St σ) : Prop where
  inv : ∃ L, InvA Φ stage N D L [] [] (st.cur.prox ++ st.cur.heads) st
  deferred : st.cur.deferred = []
  nxt : st.nxt = {}

/-- A whole wave: the invariant afterwards, and what becomes of the deferred instructions. -/
theorem wave_core {P : List Instr} (hA : Ambient env P Φ) (hC : Chained P N D) (hD : Static N D) (hP : Protocol env stage) {depth : Nat} {st s1 s2 s3 : St σ} (hb : Between Φ stage N D st)
    (h1 : schedList env (tryImm env depth) true false st st.cur.prox = .ok s1)
    (h2 : schedList env (tryImm env depth) false false s1 s1.cur.heads = .ok s2)
    (h3 : rounds env (tryImm env depth) s2 = .ok s3) :
    Between Φ stage N D { s3 with cur := s3.nxt, nxt := {} } ∧ ∀ i ∈ s2.cur.deferred, i ∈ s3.nxt.prox := by
  unfold rounds at h3
  have good := tryImm_good (stage := stage) hA hC hD hP depth
  obtain ⟨L, hi⟩ := hb.inv
  obtain ⟨L1, g1, hg1, -, hd1, hi1⟩ := schedList_step hA hC hD hP good _ h1 hi (by simp)
  have hperm : (st.cur.heads ++ g1.all).Perm (s1.cur.heads ++ (g1.d ++ g1.h ++ g1.p)) := by
    rw [hg1.heads]
    simp [Add.all]
  have hi1' := hi1.perm hperm
  obtain ⟨L2, g2, hg2, ha2, hd2, hi2⟩ := schedList_step hA hC hD hP good _ h2 hi1' (by
    intro i hi hiR
    simp only [List.nil_append] at hiR
    exact (List.nodup_append.1 hi1'.nodupK).2.2 i hi i (by simp [hiR]) rfl)
  have ga := ha2 rfl
  have hdef : s2.cur.deferred = g1.d ++ g2.d := by rw [hg2.deferred, hg1.deferred, hb.deferred]; simp
  have hnh : s2.nxt.heads = g1.h ++ g2.h := by rw [hg2.nheads, hg1.nheads, hb.nxt]; simp
  have hnp : s2.nxt.prox = g1.p ++ g2.p := by rw [hg2.nprox, hg1.nprox, hb.nxt]; simp
  have hnd : s2.nxt.deferred = [] := by rw [hg2.ndeferred, hg1.ndeferred, hb.nxt]
  have hpk : (g1.d ++ g1.h ++ g1.p ++ g2.all).Perm (s2.cur.deferred ++ (s2.nxt.prox ++ s2.nxt.heads)) := by
    rw [hdef, hnh, hnp, List.perm_iff_count]
    intro x
    simp only [Add.all, List.count_append, ga, List.count_nil]
    omega
  have hi2' := hi2.perm hpk
  simp only [List.nil_append] at hi2'
  rw [← hdef] at hi2'
  cases he : env.edpc with
  | false =>
    rw [he] at h3
    simp only [Bool.false_eq_true, if_false, Outcome.ok.injEq] at h3
    subst h3
    have h0 : s2.cur.deferred = [] := by rw [hdef, hd1 he, hd2 he]; rfl
    rw [h0] at hi2'
    exact ⟨⟨⟨L2, (by simpa using hi2'.queues s2.nxt {})⟩, hnd, rfl⟩, by simp [h0]⟩
  | true =>
    rw [he] at h3
    simp only [if_true] at h3
    obtain ⟨s4, h4, h5⟩ := Outcome.bind_eq_ok.1 h3
    obtain ⟨sl, hsl, h5⟩ := Outcome.bind_eq_ok.1 h5
    have hnodup : s2.cur.deferred.Nodup := (List.nodup_append.1 hi2'.nodupK).1
    obtain ⟨e1, e2, hi4, hcomp, -⟩ := round1 hA hC hD hP _ h4 hnodup hi2'
    rw [e1] at h5
    obtain ⟨e3, e4, hi5⟩ := round2 hA hC hD hP _ h5 hnodup (by intro i h; simp [h]) ⟨hi4.toInv.queues sl _ _, hA.reset hi4.amb hsl⟩ hcomp
    simp only at e3 e4
    refine ⟨⟨⟨L2, ?_⟩, ?_, rfl⟩, ?_⟩
    · have hp : (s2.cur.deferred ++ (s2.nxt.prox ++ s2.nxt.heads)).Perm (s3.nxt.prox ++ s3.nxt.heads) := by
        rw [e4, e2, List.perm_iff_count]
        intro x
        simp only [List.count_append]
        omega
      exact (hi5.perm hp).queues s3.nxt {}
    · simp only
      rw [e4, e2]; exact hnd
    · intro i hi
      rw [e4]; simp [hi]

theorem scheduleWave_between {P : List Instr} (hA : Ambient env P Φ) (hC : Chained P N D) (hD : Static N D) (hP : Protocol env stage) {depth : Nat} {st st' : St σ} (h : scheduleWave env depth st = .ok st')
    (hb : Between Φ stage N D st) : Between Φ stage N D st' := by
  unfold scheduleWave at h
  obtain ⟨s1, h1, h⟩ := Outcome.bind_eq_ok.1 h
  obtain ⟨s2, h2, h⟩ := Outcome.bind_eq_ok.1 h
  obtain ⟨s3, h3, h⟩ := Outcome.bind_eq_ok.1 h
  simp only [Outcome.ok.injEq] at h
  subst h
  exact (wave_core hA hC hD hP hb h1 h2 h3).1

theorem deferred_kept {P : List Instr} (hA : Ambient env P Φ) (hC : Chained P N D) (hD : Static N D) (hP : Protocol env stage) {depth : Nat} {st s1 s2 s3 : St σ} (hb : Between Φ stage N D st)
    (h1 : schedList env (tryImm env depth) true false st st.cur.prox = .ok s1)
    (h2 : schedList env (tryImm env depth) false false s1 s1.cur.heads = .ok s2)
    (h3 : rounds env (tryImm env depth) s2 = .ok s3) : ∀ i ∈ s2.cur.deferred, i ∈ s3.nxt.prox := (wave_core hA hC hD hP hb h1 h2 h3).2

theorem runWaves_between {P : List Instr} (hA : Ambient env P Φ) (hC : Chained P N D) (hD : Static N D) (hP : Protocol env stage) {depth : Nat} (n : Nat) : ∀ {st st' : St σ} {k : Nat}, runWaves env depth n st = .ok (st', k) →
    Between Φ stage N D st → Between Φ stage N D st' := by
  induction n with
  | zero => intro st st' k h hb; simp only [runWaves, Outcome.ok.injEq, Prod.mk.injEq] at h; rw [← h.1]; exact hb
  | succ n ih =>
    intro st st' k h hb
    rw [runWaves] at h
    split at h
    · simp only [Outcome.ok.injEq, Prod.mk.injEq] at h; rw [← h.1]; exact hb
    · obtain ⟨s, h1, h⟩ := Outcome.bind_eq_ok.1 h
      obtain ⟨sl, hsl, h⟩ := Outcome.bind_eq_ok.1 h
      obtain ⟨⟨s', k'⟩, h2, h⟩ := Outcome.bind_eq_ok.1 h
      simp only [Outcome.ok.injEq, Prod.mk.injEq] at h
      obtain ⟨rfl, rfl⟩ := h
      have := scheduleWave_between hA hC hD hP h1 hb
      obtain ⟨⟨L, hi⟩, hd, hn⟩ := this
      exact ih h2 ⟨⟨L, hi.toInv.queues sl s.cur s.nxt, hA.advance hi.amb hsl⟩, hd, hn⟩

end

end Verif.Wave
