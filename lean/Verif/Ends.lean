import Verif.CourseProps

/-! # Slicing comes to an end: lemmas (C69) -/

namespace Verif.Ends

open Verif Apply Verif.Wave Verif.Pipe Verif.Pipe.Spec Verif.Real Verif.Dag

/-! ### What an attempt does to the waiting budgets -/

/-- Follow-ups come with the budget of the instruction or with a new one. -/
def Lasts {σ : Type} (i : Instr) (r : Res σ) : Prop := ∀ f ∈ r.followups, f.wait = i.wait ∨ f.wait = maxWait

section
variable {ρ : Type} {ctx : Ctx ρ} {m : Mach ρ} {i : Instr} {r : Res (Mach ρ)}

theorem lasts_nil (h : r.followups = []) : Lasts i r := fun f hf => by rw [h] at hf; cases hf

theorem lasts_self (h : r.followups = [] ∨ r.followups = [r.instr]) (hw : r.instr.wait = i.wait) : Lasts i r := by
  intro f hf
  rcases h with h | h
  · rw [h] at hf; cases hf
  · rw [h, List.mem_singleton] at hf; subst hf; exact .inl hw

theorem lasts_new {j : Instr} (h : r.followups = [j]) (hw : j.wait = maxWait) : Lasts i r := by
  intro f hf
  rw [h, List.mem_singleton] at hf; subst hf; exact .inr hw

theorem lasts_apply (h : Apply.apply ctx m i = .ok r) : Lasts i r := by
  have hk := kept_apply h
  rcases hk.shape with h1 | ⟨f, h1, -, rfl | hf⟩ | ⟨c, -, -, x, -, h1, -, -⟩
  · exact lasts_nil h1
  · exact lasts_self (.inr h1) hk.wait
  · by_cases hs : r.followups = [r.instr]
    · exact lasts_self (.inr hs) hk.wait
    unfold Apply.apply at h
    split at h
    · unfold applyMeasure at h
      split at h <;> cases h <;> exact lasts_nil rfl
    · unfold applySq at h
      split at h
      · split at h
        · split at h
          · cases h
          · obtain ⟨⟨m', ok⟩, -, h⟩ := Outcome.bind_eq_ok.1 h
            dsimp only at h
            split at h
            · cases h; exact lasts_new rfl rfl
            · cases h; exact lasts_nil rfl
        · split at h
          · cases h; exact lasts_nil rfl
          · split at h <;> cases h <;> exact lasts_nil rfl
      · cases h; exact lasts_nil rfl
    · unfold applyMulti at h
      split at h
      · split at h
        · split at h
          · unfold applyMultiLocal at h
            obtain ⟨b1, -, h⟩ := Outcome.bind_eq_ok.1 h
            split at h
            · cases h
            · obtain ⟨b2, -, h⟩ := Outcome.bind_eq_ok.1 h
              split at h
              · cases h
              · obtain ⟨x, -, h⟩ := Outcome.bind_eq_ok.1 h
                cases h
                exact lasts_nil rfl
          · split at h
            · cases h
            · obtain ⟨⟨m', ok⟩, -, h⟩ := Outcome.bind_eq_ok.1 h
              dsimp only at h
              split at h <;> cases h <;> exact lasts_nil rfl
        · cases h; exact lasts_nil rfl
      · cases h
    · unfold applyInit at h
      obtain ⟨o, -, h⟩ := Outcome.bind_eq_ok.1 h
      cases o with
      | none => cases h; exact lasts_nil rfl
      | some c =>
        obtain ⟨x, -, h⟩ := Outcome.bind_eq_ok.1 h
        cases h; exact lasts_nil rfl
    · rcases applyBell_ok h with ⟨-, -, h⟩ | ⟨w, ls, -, -, h⟩ | ⟨-, region, rs, ls, -, -, -, h⟩
      · exact lasts_nil h
      · obtain ⟨n, -, -, -, h⟩ := bellInitRun_ok h
        rcases h with ⟨h, -⟩ | h
        · exact lasts_nil h
        · exact absurd h hs
      · obtain ⟨n, -, -, -, h⟩ := bellInitRun_ok h
        rcases h with ⟨h, -⟩ | h
        · exact lasts_nil h
        · exact absurd h hs
    · rcases applyCnot_ok h with ⟨-, -, h⟩ | ⟨-, h⟩ | ⟨he, h⟩
      · exact lasts_nil h
      · unfold applyCnotEdpc at h
        split at h
        · rcases cnotRoute_shape h with ⟨-, -, h⟩ | ⟨-, -, h, -⟩
          · exact lasts_nil h
          · exact absurd h hs
        · split at h
          · obtain ⟨-, -, h, -⟩ := cnotDecompose_shape h
            exact lasts_nil h
          · split at h
            · obtain ⟨-, -, h, -⟩ := cnotPhase_shape h
              rcases h with h | h
              · exact lasts_nil h
              · exact absurd h hs
            · cases h
      · have key : ∀ {m : Mach ρ} {c sets ps}, cnotRun ctx m i c sets ps = .ok r → Lasts i r := by
          intro m c sets ps h
          obtain ⟨w, k, ps, ls, rest, n, -, -, -, -, -, h⟩ := cnotRun_ok h
          rcases h with ⟨h, -⟩ | h
          · exact lasts_nil h
          · exact absurd h hs
        unfold applyCnotPlain at h
        split at h
        · split at h
          · cases h
          · exact key h
        · obtain ⟨⟨rt, rs⟩, -, h⟩ := Outcome.bind_eq_ok.1 h
          dsimp only at h
          cases rt with
          | none => cases h; exact lasts_nil rfl
          | some region =>
            dsimp only at h
            split at h
            · cases h
            · obtain ⟨reg, -, h⟩ := Outcome.bind_eq_ok.1 h
              obtain ⟨l, -, h⟩ := Outcome.bind_eq_ok.1 h
              exact key h
    · unfold applyRotate at h
      split at h
      · obtain ⟨o, -, h⟩ := Outcome.bind_eq_ok.1 h
        cases o with
        | none => cases h; exact lasts_nil rfl
        | some n =>
          dsimp only at h
          obtain ⟨⟨reg, st, af⟩, -, h⟩ := Outcome.bind_eq_ok.1 h
          obtain ⟨x, -, h⟩ := Outcome.bind_eq_ok.1 h
          cases h
          exact lasts_new rfl rfl
      · cases h; exact lasts_nil rfl
    · unfold applyMagic at h
      split at h
      · cases h
      · split at h
        · cases h; exact lasts_nil rfl
        · split at h
          · cases h
          · split at h
            · cases h
            · obtain ⟨o, -, h⟩ := Outcome.bind_eq_ok.1 h
              cases o with
              | none => cases h
              | some p => cases h; exact lasts_nil rfl
    · unfold applyY at h
      split at h
      · cases h; exact lasts_nil rfl
      · split at h
        · unfold yPredistilled at h
          obtain ⟨l, -, h⟩ := Outcome.bind_eq_ok.1 h
          split at h
          · cases h; exact lasts_nil rfl
          · split at h
            · cases h
            · split at h <;> cases h <;> exact lasts_nil rfl
        · split at h
          · unfold yTwist at h
            split at h
            · cases h
            · obtain ⟨o, -, h⟩ := Outcome.bind_eq_ok.1 h
              cases o with
              | none => cases h; exact lasts_nil rfl
              | some c =>
                dsimp only at h
                obtain ⟨x, -, h⟩ := Outcome.bind_eq_ok.1 h
                cases h
                exact lasts_nil rfl
          · cases h; exact lasts_nil rfl
    · unfold applyBusy at h
      split at h
      · obtain ⟨s, -, h⟩ := Outcome.bind_eq_ok.1 h
        obtain ⟨x, -, h⟩ := Outcome.bind_eq_ok.1 h
        split at h <;> cases h <;> exact lasts_nil rfl
      · obtain ⟨s, -, h⟩ := Outcome.bind_eq_ok.1 h
        cases h
        exact lasts_new rfl rfl
    · cases h; exact lasts_nil rfl
    · cases h
  · exact lasts_self (.inr h1) hk.wait

end

/-- What the loops need to know about an attempt. -/
structure Budgets {σ : Type} (env : Env σ) (W : Nat) : Prop where
  wait : ∀ s i r, env.apply s i = .ok r → r.instr.wait = i.wait
  one : OneFollowup env
  alone : ∀ s i r, env.apply s i = .ok r → r.err = true → r.followups = []
  follow : ∀ s i r, env.apply s i = .ok r → i.wait ≤ W → ∀ f ∈ r.followups, f.wait ≤ W

theorem budgets {ρ : Type} (ctx : Ctx ρ) (realloc : Nat → Bool) (hd : ctx.router.edpc = false) {W : Nat} (hW : maxWait ≤ W) : Budgets (env ctx realloc) W where
  wait _ _ _ h := (kept_apply h).wait
  one := one_followup ctx realloc
  alone s i r h he := by
    rcases (kept_apply h).shape with h1 | ⟨f, h1, h2, -⟩ | ⟨c, -, -, x, -, h1, -, h3⟩
    · exact h1
    · rw [h2] at he; cases he
    · rw [hd] at h3; cases h3
  follow s i r h hi f hf := by
    rcases lasts_apply h f hf with h | h <;> omega

/-! ### Streamed -/

section
variable {σ : Type} {env : Env σ} {W : Nat}

/-- The budgets left to the instructions pending. -/
def owed (st : SSt σ) : Nat := (st.future.map fun it => it.instr.wait).sum + (st.stream.map fun i => i.wait).sum

/-- The number of instructions shown. -/
def told (st : SSt σ) : Nat := (instrs (st.events.filterMap Ev.obs)).length

/-- No budget exceeds `W`. -/
def Modest (W : Nat) (st : SSt σ) : Prop := (∀ it ∈ st.future, it.instr.wait ≤ W) ∧ ∀ i ∈ st.stream, i.wait ≤ W

theorem takeNext_owed {st st1 : SSt σ} {it : Item} (h : takeNext st = some (it, st1)) (hm : Modest W st) :
    owed st = it.instr.wait + owed st1 ∧ told st1 = told st ∧ Modest W st1 ∧ it.instr.wait ≤ W ∧ st1.events = st.events := by
  unfold takeNext at h
  split at h
  · rename_i it' future hf
    cases h
    refine ⟨?_, rfl, ⟨fun x hx => hm.1 x (by rw [hf]; simp [hx]), hm.2⟩, hm.1 _ (by rw [hf]; simp), rfl⟩
    unfold owed
    rw [hf]
    simp only [List.map_cons, List.sum_cons]
    omega
  · rename_i hf
    split at h
    · rename_i i is hs
      cases h
      refine ⟨?_, rfl, ⟨hm.1, fun x hx => hm.2 x (by rw [hs]; simp [hx])⟩, hm.2 _ (by rw [hs]; simp), rfl⟩
      unfold owed
      rw [hs]
      simp only [List.map_cons, List.sum_cons]
      omega
    · cases h

theorem instrs_count_append (A B : List (Ev σ)) : (instrs ((A ++ B).filterMap Ev.obs)).length = (instrs (A.filterMap Ev.obs)).length + (instrs (B.filterMap Ev.obs)).length := by
  rw [List.filterMap_append, instrs_append, List.length_append]

theorem sstep_owed (hB : Budgets env W) {st st' : SSt σ} (h : sstep env st = .ok (.go, st')) (hm : Modest W st) :
    Modest W st' ∧ 1 + owed st' + told st * (W + 1) ≤ owed st + told st' * (W + 1) := by
  unfold sstep at h
  cases ht : takeNext st with
  | none => rw [ht] at h; cases h
  | some x =>
    obtain ⟨it, st1⟩ := x
    obtain ⟨h1, h2, h3, h4, h5⟩ := takeNext_owed ht hm
    rw [ht] at h
    dsimp only at h
    obtain ⟨r, hr, h⟩ := Outcome.bind_eq_ok.1 h
    have hw := hB.wait _ _ _ hr
    unfold react at h
    dsimp only at h
    split at h
    · rename_i hf
      have he : r.err = false := by
        cases e : r.err with
        | false => rfl
        | true => exact absurd (hB.alone _ _ _ hr e) hf
      obtain ⟨s, -, h⟩ := Outcome.bind_eq_ok.1 h
      cases h
      have ho := hB.one _ _ _ hr
      have hfol := hB.follow _ _ _ hr h4
      constructor
      · refine ⟨fun x hx => ?_, h3.2⟩
        rcases List.mem_append.1 hx with hx | hx
        · exact h3.1 x hx
        · obtain ⟨f, hf, rfl⟩ := List.mem_map.1 hx
          exact hfol f hf
      · have e1 : told { st1 with slice := s, count := st1.count + 1, future := st1.future ++ r.followups.map (fun f => ⟨f, it.tag, 0, f.wait⟩), events := st1.events ++ ([Ev.attempt it r.err r.followups] ++ (if r.err then [] else [Ev.instr it.tag r.instr])) ++ [.slice r.slice] } = told st1 + 1 := by
          unfold told
          dsimp only
          rw [instrs_count_append, instrs_count_append, instrs_count_append, he]
          rfl
        have e2 : owed { st1 with slice := s, count := st1.count + 1, future := st1.future ++ r.followups.map (fun f => ⟨f, it.tag, 0, f.wait⟩), events := st1.events ++ ([Ev.attempt it r.err r.followups] ++ (if r.err then [] else [Ev.instr it.tag r.instr])) ++ [.slice r.slice] } ≤ owed st1 + W := by
          unfold owed
          dsimp only
          rw [List.map_append, List.sum_append]
          have : ((r.followups.map (fun f => (⟨f, it.tag, 0, f.wait⟩ : Item))).map fun it => it.instr.wait).sum ≤ W := by
            match hx : r.followups, ho with
            | [], _ => simp
            | [f], _ => simpa using hfol f (by rw [hx]; simp)
            | _ :: _ :: _, ho => simp at ho
          omega
        rw [e1, h2, Nat.add_mul]
        omega
    · split at h
      · rename_i he
        split at h
        · cases h
        · rename_i hz
          obtain ⟨s, -, h⟩ := Outcome.bind_eq_ok.1 h
          cases h
          constructor
          · refine ⟨fun x hx => ?_, h3.2⟩
            rcases List.mem_cons.1 hx with rfl | hx
            · dsimp only; omega
            · exact h3.1 x hx
          · have e1 : (instrs ((st1.events ++ ([Ev.attempt it r.err r.followups] ++ []) ++ [Ev.slice r.slice]).filterMap Ev.obs)).length = told st1 := by
              rw [instrs_count_append, instrs_count_append, instrs_count_append]
              rfl
            unfold told at e1 h2 ⊢
            dsimp only
            rw [e1, h2]
            unfold owed at h1 ⊢
            dsimp only
            simp only [List.map_cons, List.sum_cons]
            omega
      · rename_i he
        cases h
        refine ⟨h3, ?_⟩
        have e1 : (instrs ((st1.events ++ ([Ev.attempt it r.err r.followups] ++ [Ev.instr it.tag r.instr])).filterMap Ev.obs)).length = told st1 + 1 := by
          rw [instrs_count_append, instrs_count_append]
          rfl
        show 1 + owed st1 + _ ≤ _
        unfold told at e1 h2 ⊢
        dsimp only
        rw [e1, h2, Nat.add_mul]
        omega

theorem srun_owed (hB : Budgets env W) (n : Nat) : ∀ {st st' : SSt σ}, srun env n st = .ok (.go, st') → Modest W st → n + owed st' + told st * (W + 1) ≤ owed st + told st' * (W + 1) := by
  induction n with
  | zero => intro st st' h _; cases h; omega
  | succ n ih =>
    intro st st' h hm
    rw [srun] at h
    obtain ⟨⟨c, st1⟩, h1, h⟩ := Outcome.bind_eq_ok.1 h
    dsimp only at h
    split at h
    · rename_i hc
      subst hc
      obtain ⟨hm1, hs⟩ := sstep_owed hB h1 hm
      have := ih h hm1
      omega
    · rename_i hc
      cases h
      exact absurd rfl hc

theorem sum_le {α : Type} (f : α → Nat) {l : List α} {W : Nat} (h : ∀ x ∈ l, f x ≤ W) : (l.map f).sum ≤ l.length * W := by
  induction l with
  | nil => simp
  | cons a l ih =>
    have h1 := h a (by simp)
    have h2 := ih (fun x hx => h x (by simp [hx]))
    simp only [List.map_cons, List.sum_cons, List.length_cons, Nat.add_mul]
    omega

theorem srun_bound (hB : Budgets env W) {P : List Instr} (hW : ∀ i ∈ P, i.wait ≤ W) {s : σ} {n : Nat} {st : SSt σ} (h : srun env n (sstart s P) = .ok (.go, st)) :
    n ≤ P.length * W + told st * (W + 1) := by
  have h1 := srun_owed hB n h ⟨by simp [sstart], hW⟩
  have h2 : owed (sstart s P) ≤ P.length * W := by
    unfold owed sstart
    simpa using sum_le (fun i : Instr => i.wait) hW
  have h3 : told (sstart s P) = 0 := rfl
  rw [h3] at h1
  omega

end

/-! ### Waves -/

section
variable {σ : Type} {env : Env σ} {W : Nat}

/-- The budgets of all records. -/
def tot (st : St σ) : Nat := ((List.range st.size).map fun id => (st.instr id).wait).sum

/-- No budget exceeds `W`. -/
def Low (W : Nat) (st : St σ) : Prop := ∀ id < st.size, (st.instr id).wait ≤ W

/-- Between the two states at least as many steps have been shown as make up for the budgets added, apart from those of `k` records. -/
structure Grows (W k : Nat) (st st' : St σ) : Prop where
  low : Low W st'
  grow : tot st' + st.log.length * (W + 1) ≤ tot st + st'.log.length * (W + 1) + k * W

theorem Grows.refl {st : St σ} (h : Low W st) : Grows W 0 st st := ⟨h, by omega⟩

theorem Grows.same {st st' : St σ} (hl : Low W st) (h1 : st'.size = st.size) (h2 : st'.instr = st.instr) (h3 : st'.log = st.log) : Grows W 0 st st' := by
  refine ⟨fun x hx => ?_, ?_⟩
  · rw [h2]; exact hl x (by omega)
  · unfold tot
    rw [h1, h2, h3]
    omega

theorem Grows.trans {a b : Nat} {st1 st2 st3 : St σ} (h1 : Grows W a st1 st2) (h2 : Grows W b st2 st3) : Grows W (a + b) st1 st3 :=
  ⟨h2.low, by have := h1.grow; have := h2.grow; rw [Nat.add_mul]; omega⟩

theorem sum_upd (f : Nat → Instr) (i : Instr) : ∀ (l : List Nat) (id : Nat), (∀ x ∈ l, x ≠ id) → (l.map fun x => (upd f id i x).wait) = l.map fun x => (f x).wait := by
  intro l id h
  apply List.map_congr_left
  intro x hx
  rw [upd_other _ _ (h x hx)]

theorem tot_upd (f : Nat → Instr) (i : Instr) (n id : Nat) (h : id < n) :
    ((List.range n).map fun x => (upd f id i x).wait).sum + (f id).wait = ((List.range n).map fun x => (f x).wait).sum + i.wait := by
  induction n with
  | zero => omega
  | succ n ih =>
    rw [List.range_succ, List.map_append, List.map_append, List.sum_append, List.sum_append]
    by_cases e : id = n
    · subst e
      rw [sum_upd f i _ id (by intro x hx; rw [List.mem_range] at hx; omega)]
      simp
      omega
    · have := ih (by omega)
      simp only [List.map_cons, List.map_nil, List.sum_cons, List.sum_nil]
      rw [upd_other f i (show n ≠ id by omega)]
      omega

theorem applyTo_low (hB : Budgets env W) {st st' : St σ} {id : Nat} {r : Res σ} (h : applyTo env st id = .ok (r, st')) (hl : Low W st) :
    id < st.size ∧ st'.size = st.size ∧ Low W st' ∧ tot st' = tot st ∧ st'.log = st.log ∧ r.instr.wait = (st'.instr id).wait ∧ (r.err = true → r.followups = []) ∧
      r.followups.length ≤ 1 ∧ (∀ f ∈ r.followups, f.wait ≤ W) ∧ st'.cur = st.cur := by
  unfold applyTo at h
  split at h
  · rename_i hid
    obtain ⟨r', hr, h⟩ := Outcome.bind_eq_ok.1 h
    cases h
    have hw := hB.wait _ _ _ hr
    refine ⟨hid, rfl, ?_, ?_, rfl, by simp, hB.alone _ _ _ hr, hB.one _ _ _ hr, hB.follow _ _ _ hr (hl id hid), rfl⟩
    · intro x hx
      dsimp only
      by_cases e : x = id
      · subst e; rw [upd_same, hw]; exact hl _ hid
      · rw [upd_other _ _ e]; exact hl x hx
    · have := tot_upd st.instr r.instr st.size id hid
      unfold tot
      dsimp only
      omega
  · cases h

/-- Recursive calls behave. -/
def RecGrows (W : Nat) (f : Rec σ) : Prop := ∀ st id prox b st', f st id prox = .ok (b, st') → Low W st → Grows W 0 st st'

theorem release_grows {f : Rec σ} (hf : RecGrows W f) {st st' : St σ} {j : Nat} {prox : Bool} (h : release f st j prox = .ok st') (hl : Low W st) : Grows W 0 st st' := by
  unfold release at h
  split at h
  · obtain ⟨imm, -, h⟩ := Outcome.bind_eq_ok.1 h
    cases h
    split <;> exact .same hl rfl rfl rfl
  · obtain ⟨⟨b, s⟩, h1, h⟩ := Outcome.bind_eq_ok.1 h
    cases h
    have := hf _ _ _ _ _ h1 hl
    split
    · exact this
    · exact ⟨this.low, this.grow⟩

theorem depLoop_grows {f : Rec σ} (hf : RecGrows W f) {prox : Bool} {n0 : Nat} : ∀ {js : List Nat} {st st' : St σ}, depLoop env f prox n0 st js = .ok st' → Low W st → Grows W 0 st st'
  | [], _, _, h, hl => by cases h; exact .refl hl
  | j :: js, st, st', h, hl => by
    rw [depLoop] at h
    split at h
    · cases h
    · split at h
      · cases h
      · obtain ⟨s, h3, h⟩ := Outcome.bind_eq_ok.1 h
        have h4 : Grows W 0 st s := by
          unfold oneDep at h3
          dsimp only at h3
          split at h3
          · exact Grows.trans (a := 0) (b := 0) (Grows.same (st' := { st with count := upd st.count j ((st.count j + 255) % 256) }) hl rfl rfl rfl) (release_grows hf h3 hl)
          · cases h3; exact .same hl rfl rfl rfl
        exact h4.trans (depLoop_grows hf h h4.low)

theorem followLoop_grows {f : Rec σ} (hf : RecGrows W f) {prox : Bool} {n0 : Nat} {deps : List Nat} {o : Nat} :
    ∀ {fs : List Instr} {st st' : St σ}, followLoop env f prox n0 deps o st fs = .ok st' → Low W st → (∀ g ∈ fs, g.wait ≤ W) → Grows W fs.length st st'
  | [], _, _, h, hl, _ => by cases h; exact .refl hl
  | g :: fs, st, st', h, hl, hg => by
    rw [followLoop] at h
    split at h
    · cases h
    · obtain ⟨⟨b, s⟩, h3, h⟩ := Outcome.bind_eq_ok.1 h
      have hw := hg g (by simp)
      have h1 : Grows W 1 st { st with size := st.size + 1, instr := upd st.instr st.size g, deps := upd st.deps st.size deps, count := upd st.count st.size 0, origin := upd st.origin st.size o } := by
        constructor
        · intro x hx
          dsimp only at hx ⊢
          by_cases e : x = st.size
          · subst e; rw [upd_same]; exact hw
          · rw [upd_other _ _ e]; exact hl x (by omega)
        · unfold tot
          dsimp only
          rw [List.range_succ, List.map_append, List.sum_append, sum_upd _ _ _ _ (by intro x hx; rw [List.mem_range] at hx; omega)]
          simp
          omega
      have h2 := hf _ _ _ _ _ h3 h1.low
      have h4 : Grows W 0 s (if b = true then s else pushNextProx s st.size) := by
        split
        · exact .refl h2.low
        · exact ⟨h2.low, by show tot s + _ ≤ _; simp [pushNextProx]⟩
      have h5 := followLoop_grows hf h h4.low (fun x hx => hg x (by simp [hx]))
      have := ((h1.trans h2).trans h4).trans h5
      rw [List.length_cons]
      rwa [show 1 + 0 + 0 + fs.length = fs.length + 1 by omega] at this

theorem notify_grows {f : Rec σ} (hf : RecGrows W f) {st st' : St σ} {id : Nat} {fs : List Instr} {prox : Bool} (h : notify env f st id fs prox = .ok st') (hl : Low W st)
    (ho : fs.length ≤ 1) (hg : ∀ g ∈ fs, g.wait ≤ W) : Grows W 1 st st' := by
  unfold notify at h
  cases fs with
  | nil =>
    have := depLoop_grows hf h hl
    exact ⟨this.low, by have := this.grow; omega⟩
  | cons a fs =>
    have : fs = [] := by
      cases fs with
      | nil => rfl
      | cons _ _ => simp at ho
    subst this
    simpa using followLoop_grows hf h hl hg

theorem visit_grows {st st' : St σ} {id : Nat} {r : Res σ} (hl : Low W st) (h : Grows W 1 (visit st id r) st') : tot st' + st.log.length * (W + 1) + 1 ≤ tot st + st'.log.length * (W + 1) := by
  have h1 := h.grow
  have h2 : tot (visit st id r) = tot st := rfl
  have h3 : (visit st id r).log.length = st.log.length + 1 := by simp [visit]
  rw [h2, h3, Nat.add_mul] at h1
  omega

theorem tryImm_grows (hB : Budgets env W) : ∀ d, RecGrows W (tryImm env d)
  | 0, _, _, _, _, _, h, _ => by cases h
  | d + 1, st, id, prox, b, st', h, hl => by
    rw [tryImm] at h
    split at h
    · cases h
    · obtain ⟨imm, -, h⟩ := Outcome.bind_eq_ok.1 h
      split at h
      · cases h; exact .refl hl
      · obtain ⟨⟨r, s⟩, h4, h⟩ := Outcome.bind_eq_ok.1 h
        obtain ⟨-, a2, a3, a4, a5, -, a7, a8, a9, -⟩ := applyTo_low hB h4 hl
        have h0 : Grows W 0 st s := ⟨a3, by rw [a4, a5]; omega⟩
        dsimp only at h
        split at h
        · rename_i he
          have hn : selfResult r = false := by simp [selfResult, a7 he]
          rw [hn] at h
          cases h
          exact h0
        · split at h
          · cases h
            refine h0.trans (b := 0) ⟨a3, ?_⟩
            show tot s + _ ≤ _
            simp only [pushNextProx, visit, List.length_append, List.length_singleton, Nat.add_mul]
            omega
          · obtain ⟨s', h7, h⟩ := Outcome.bind_eq_ok.1 h
            cases h
            have h8 := notify_grows (tryImm_grows hB d) h7 (show Low W (visit s id r) from a3) a8 a9
            have h9 := visit_grows a3 h8
            rw [a4, a5] at h9
            exact ⟨h8.low, by omega⟩

theorem schedOne_grows (hB : Budgets env W) {f : Rec σ} (hf : RecGrows W f) {prox : Bool} {st st' : St σ} {id : Nat} (h : schedOne env f prox false st id = .ok st') (hl : Low W st) :
    Low W st' ∧ tot st' + st.log.length * (W + 1) + 1 ≤ tot st + st'.log.length * (W + 1) := by
  unfold schedOne at h
  obtain ⟨⟨r, s⟩, h4, h⟩ := Outcome.bind_eq_ok.1 h
  obtain ⟨a1, a2, a3, a4, a5, a6, a7, a8, a9, -⟩ := applyTo_low hB h4 hl
  dsimp only at h
  split at h
  · split at h
    · cases h
      refine ⟨a3, ?_⟩
      have e1 : tot (pushNextProx (visit s id r) id) = tot s := rfl
      have e2 : (pushNextProx (visit s id r) id).log.length = s.log.length + 1 := by simp [pushNextProx, visit]
      rw [e1, e2, a4, a5, Nat.add_mul]
      omega
    · have h8 := notify_grows hf h (show Low W (visit s id r) from a3) a8 a9
      have h9 := visit_grows a3 h8
      rw [a4, a5] at h9
      exact ⟨h8.low, h9⟩
  · rename_i he
    have he : r.err = true := by simpa using he
    have hn : selfResult r = false := by simp [selfResult, a7 he]
    simp only [hn, Bool.false_eq_true, if_false] at h
    split at h
    · cases h
    · split at h
      · cases h
      · rename_i hz
        cases h
        have hid : id < s.size := by omega
        constructor
        · intro x hx
          dsimp only [pushNextHead] at hx ⊢
          by_cases e : x = id
          · subst e
            rw [upd_same]
            have := a3 x hid
            dsimp only
            omega
          · rw [upd_other _ _ e]; exact a3 x hx
        · have := tot_upd s.instr { r.instr with wait := r.instr.wait - 1 } s.size id hid
          unfold tot at a4 ⊢
          dsimp only [pushNextHead] at this ⊢
          rw [a5]
          omega

theorem schedList_grows (hB : Budgets env W) {f : Rec σ} (hf : RecGrows W f) {prox : Bool} : ∀ {ids : List Nat} {st st' : St σ}, schedList env f prox false st ids = .ok st' → Low W st →
    Low W st' ∧ tot st' + st.log.length * (W + 1) + ids.length ≤ tot st + st'.log.length * (W + 1)
  | [], _, _, h, hl => by cases h; exact ⟨hl, by simp⟩
  | id :: ids, st, st', h, hl => by
    rw [schedList] at h
    obtain ⟨s, h1, h⟩ := Outcome.bind_eq_ok.1 h
    obtain ⟨g1, g2⟩ := schedOne_grows hB hf h1 hl
    obtain ⟨g3, g4⟩ := schedList_grows hB hf h g1
    refine ⟨g3, ?_⟩
    rw [List.length_cons]
    omega

theorem scheduleWave_grows (hB : Budgets env W) (hd : env.edpc = false) {depth : Nat} {st st' : St σ} (h : scheduleWave env depth st = .ok st') (hn : done st = false) (hl : Low W st) :
    Low W st' ∧ tot st' + st.log.length * (W + 1) + 1 ≤ tot st + st'.log.length * (W + 1) := by
  unfold scheduleWave at h
  obtain ⟨s1, h1, h⟩ := Outcome.bind_eq_ok.1 h
  obtain ⟨s2, h2, h⟩ := Outcome.bind_eq_ok.1 h
  obtain ⟨s3, h3, h⟩ := Outcome.bind_eq_ok.1 h
  cases h
  have e : s3 = s2 := by
    unfold rounds at h3
    rw [hd] at h3
    cases h3
    rfl
  subst e
  obtain ⟨g1, g2⟩ := schedList_grows hB (tryImm_grows hB depth) h1 hl
  obtain ⟨g3, g4⟩ := schedList_grows hB (tryImm_grows hB depth) h2 g1
  refine ⟨g3, ?_⟩
  have hne : 1 ≤ st.cur.prox.length + s1.cur.heads.length := by
    cases hp : st.cur.prox with
    | cons a l => simp only [List.length_cons]; omega
    | nil =>
      rw [hp] at h1
      cases h1
      cases hh : st.cur.heads with
      | cons a l => simp only [List.length_cons]; omega
      | nil => simp [done, hp, hh] at hn
  show tot s3 + _ + 1 ≤ _
  dsimp only
  omega

theorem wrun_grows (hB : Budgets env W) (hd : env.edpc = false) {depth : Nat} (n : Nat) : ∀ {w w' : WSt σ}, wrun env depth n w = .ok (false, w') → Low W w.st → (instrs w.obs).length = w.st.log.length →
    n + tot w'.st + w.st.log.length * (W + 1) ≤ tot w.st + w'.st.log.length * (W + 1) ∧ (instrs w'.obs).length = w'.st.log.length := by
  induction n with
  | zero => intro w w' h hl hk; rw [wrun] at h; injection h with h; injection h with h1 h2; subst h2; exact ⟨by omega, hk⟩
  | succ n ih =>
    intro w w' h hl hk
    rw [wrun] at h
    split at h
    · cases h
    · rename_i hn
      obtain ⟨st, h1, h⟩ := Outcome.bind_eq_ok.1 h
      obtain ⟨s, h2, h⟩ := Outcome.bind_eq_ok.1 h
      obtain ⟨g1, g2⟩ := scheduleWave_grows hB hd h1 (by simpa using hn) hl
      obtain ⟨es, hlog, -⟩ := Verif.Pipe.scheduleWave_grown h1
      obtain ⟨g3, g4⟩ := ih h g1 (by
        dsimp only
        rw [instrs_append, instrs_append, List.length_append, List.length_append, hk]
        have : ∀ l : List Entry, (instrs (σ := σ) (l.map fun e => Obs.instr e.instr)).length = l.length := by
          intro l
          induction l with
          | nil => rfl
          | cons a l ih => simp_all [instrs]
        rw [this]
        simp [instrs]
        rw [hlog, List.length_append]
        omega)
      refine ⟨?_, g4⟩
      have : tot ({ st with slice := s } : St σ) = tot st := rfl
      dsimp only at g3
      rw [this] at g3
      omega

theorem addAll_low : ∀ {P : List Instr} {st : St σ} {last : Nat → Option Nat}, Low W st → (∀ i ∈ P, i.wait ≤ W) → Low W (addAll st last P) ∧ (addAll st last P).size = st.size + P.length ∧ (addAll st last P).log = st.log
  | [], _, _, hl, _ => ⟨hl, rfl, rfl⟩
  | i :: P, st, last, hl, hW => by
    rw [addAll]
    have h1 : Low W (addInstr st last i).1 := by
      intro x hx
      unfold addInstr at hx ⊢
      dsimp only at hx ⊢
      by_cases e : x = st.size
      · subst e; rw [upd_same]; exact hW i (by simp)
      · rw [upd_other _ _ e]; exact hl x (by omega)
    obtain ⟨g1, g2, g3⟩ := addAll_low (P := P) (last := (addInstr st last i).2) h1 (fun j hj => hW j (by simp [hj]))
    refine ⟨g1, ?_, g3⟩
    dsimp only
    rw [g2]
    simp [addInstr]
    omega

theorem wrun_bound (hB : Budgets env W) (hd : env.edpc = false) {P : List Instr} (hW : ∀ i ∈ P, i.wait ≤ W) {s : σ} {depth n : Nat} {w : WSt σ}
    (h : wrun env depth n ⟨start s P, 1, [], []⟩ = .ok (false, w)) : n ≤ P.length * W + (instrs w.obs).length * (W + 1) := by
  obtain ⟨g1, g2, g3⟩ := addAll_low (W := W) (P := P) (st := { slice := s, size := 0, instr := fun _ => { op := .declare [] }, deps := fun _ => [], count := fun _ => 0, origin := fun _ => 0 })
    (last := fun _ => none) (by intro x hx; simp at hx) hW
  obtain ⟨h1, h2⟩ := wrun_grows hB hd n h g1 (by show _ = (addAll _ _ P).log.length; rw [g3]; rfl)
  rw [h2]
  have h3 : (start s P).log.length = 0 := by show (addAll _ _ P).log.length = 0; rw [g3]; rfl
  have h4 : tot (start s P) ≤ P.length * W := by
    unfold tot
    have := sum_le (fun id => ((start s P).instr id).wait) (l := List.range (start s P).size) (W := W) (by intro x hx; exact g1 x (List.mem_range.1 hx))
    rw [List.length_range] at this
    have e : (start s P).size = P.length := by show (addAll _ _ P).size = _; rw [g2]; simp
    rwa [e] at this ⊢
  dsimp only at h1
  rw [h3] at h1
  omega

end

/-! ### DAG -/

section
variable {σ : Type} {env : Env σ}

/-- The number of failures noted. -/
def noted (st : DSt σ) : Nat := ((List.range st.run.dag.next).map st.fails).sum

/-- What holds between rounds besides `DInv`. -/
structure Tally (P : List Instr) (st : DSt σ) : Prop where
  inv : DInv P st
  fresh : ∀ l, st.run.dag.next ≤ l → st.fails l = 0
  labels : st.run.dag.next ≤ P.length + st.shown.length
  told : (instrs st.obs).length = st.shown.length

theorem handle_next {run run' : DRun Instr} {l : Nat} {fs : List Instr} (h : handle run l fs = .ok run') (ho : fs.length ≤ 1) :
    run.dag.next ≤ run'.dag.next ∧ run'.dag.next ≤ run.dag.next + 1 := by
  unfold handle at h
  split at h
  · obtain ⟨d, h1, h⟩ := Outcome.bind_eq_ok.1 h
    cases h
    unfold DDag.popHead at h1
    split at h1
    · cases h1
    · obtain ⟨ps, -, h1⟩ := Outcome.bind_eq_ok.1 h1
      obtain ⟨g, -, h1⟩ := Outcome.bind_eq_ok.1 h1
      cases h1
      exact ⟨Nat.le_refl _, Nat.le_succ _⟩
  · rename_i f fs
    obtain ⟨⟨d, new⟩, h1, h⟩ := Outcome.bind_eq_ok.1 h
    cases h
    unfold DDag.expand at h1
    split at h1
    · cases h1
    · obtain ⟨g, -, h1⟩ := Outcome.bind_eq_ok.1 h1
      split at h1
      · cases h1
      · cases h1
        simp only [DDag.makeProximate, List.length_cons] at ho ⊢
        omega

theorem noted_grow {f : Nat → Nat} {a b : Nat} (hab : a ≤ b) (hf : ∀ l, a ≤ l → f l = 0) : ((List.range b).map f).sum = ((List.range a).map f).sum := by
  induction b with
  | zero => rw [Nat.le_zero.1 hab]
  | succ b ih =>
    by_cases e : a = b + 1
    · rw [e]
    · rw [List.range_succ, List.map_append, List.sum_append, ih (by omega)]
      simp [hf b (by omega)]

theorem noted_upd (f : Nat → Nat) (n l : Nat) (h : l < n) : ((List.range n).map (upd f l (f l + 1))).sum = ((List.range n).map f).sum + 1 := by
  induction n with
  | zero => omega
  | succ n ih =>
    rw [List.range_succ, List.map_append, List.map_append, List.sum_append, List.sum_append]
    by_cases e : l = n
    · subst e
      have : (List.range l).map (upd f l (f l + 1)) = (List.range l).map f := by
        apply List.map_congr_left
        intro x hx
        rw [List.mem_range] at hx
        exact upd_other _ _ (by omega)
      rw [this]
      simp
      omega
    · rw [ih (by omega)]
      simp [upd_other f (f l + 1) (show n ≠ l by omega)]
      omega

/-- An instruction has been carried out. -/
theorem tally_done (ho : OneFollowup env) {P : List Instr} {st st1 : DSt σ} {l : Nat} {r : Res σ} {run : DRun Instr} (hT : Tally P st) (hl : l ∈ st.run.dag.graph.heads)
    (h : dapply env st l = .ok (r, st1)) (h2 : handle st1.run l r.followups = .ok run) :
    let st2 : DSt σ := { st1 with run := run, shown := st1.shown ++ [(l, r.instr, st1.slices)], obs := st1.obs ++ [.instr r.instr] }
    Tally P st2 ∧ noted st2 = noted st ∧ st2.shown.length = st.shown.length + 1 ∧ st2.slices = st.slices ∧ ∀ x ∈ st.run.dag.graph.heads, x ≠ l → x ∈ run.dag.graph.heads := by
  intro st2
  obtain ⟨i, hi, hd⟩ := dapply_good (env := env) hT.inv hl
  rcases hd _ h with ⟨-, e⟩ | ⟨-, e⟩ | ⟨r', st', h1, h3, h4, h5, h6, h7⟩
  · cases e
  · cases e
  cases h1
  have hx : st1.fails = st.fails ∧ st1.run.dag.next = st.run.dag.next ∧ st1.obs = st.obs := by
    unfold dapply at h
    rw [hi] at h
    obtain ⟨r', -, h⟩ := Outcome.bind_eq_ok.1 h
    cases h
    exact ⟨rfl, rfl, rfl⟩
  have ho' := ho _ _ _ h3
  obtain ⟨run', g1, g2, g3⟩ := handle_good h4 (l := l) (by rw [h5]; exact hl) ho' r.instr
  rw [h2] at g1
  cases g1
  obtain ⟨n1, n2⟩ := handle_next h2 ho'
  rw [hx.2.1] at n1 n2
  refine ⟨⟨g2, ?_, ?_, ?_⟩, ?_, ?_, h6, ?_⟩
  · intro x hx'
    show st1.fails x = 0
    rw [hx.1]
    exact hT.fresh x (Nat.le_trans n1 hx')
  · have := hT.labels
    show run.dag.next ≤ _
    simp only [st2, List.length_append, List.length_singleton, h7]
    omega
  · show (instrs (st1.obs ++ _)).length = (st1.shown ++ _).length
    rw [instrs_append, List.length_append, List.length_append, hx.2.2, h7, hT.told]
    rfl
  · show ((List.range run.dag.next).map st1.fails).sum = _
    rw [hx.1]
    exact noted_grow n1 hT.fresh
  · show (st1.shown ++ _).length = _
    rw [List.length_append, h7]
    rfl
  · intro x hx' hne
    exact g3 x (by rw [h5]; exact hx') hne

theorem proxLoop_tally (ho : OneFollowup env) {P : List Instr} (ls : List Nat) : ∀ {st st' : DSt σ}, proxLoop env st ls = .ok st' → Tally P st → ls.Nodup → (∀ x ∈ ls, x ∈ st.run.dag.graph.heads) →
    Tally P st' ∧ noted st' = noted st ∧ st'.shown.length = st.shown.length + ls.length ∧ st'.slices = st.slices := by
  induction ls with
  | nil => intro st st' h hT _ _; cases h; exact ⟨hT, rfl, rfl, rfl⟩
  | cons l ls ih =>
    intro st st' h hT hnd hls
    rw [List.nodup_cons] at hnd
    rw [proxLoop] at h
    obtain ⟨⟨r, st1⟩, h1, h⟩ := Outcome.bind_eq_ok.1 h
    dsimp only at h
    split at h
    · cases h
    · obtain ⟨run, h2, h⟩ := Outcome.bind_eq_ok.1 h
      obtain ⟨g1, g2, g3, g4, g5⟩ := tally_done ho hT (hls l (by simp)) h1 h2
      obtain ⟨k1, k2, k3, k4⟩ := ih h g1 hnd.2 (fun x hx => g5 x (hls x (by simp [hx])) (fun e => hnd.1 (e ▸ hx)))
      refine ⟨k1, by rw [k2, g2], ?_, by rw [k4, g4]⟩
      rw [k3, g3, List.length_cons]
      omega

theorem headLoop_tally (ho : OneFollowup env) {P : List Instr} (ls : List Nat) : ∀ {st st' : DSt σ}, headLoop env st ls = .ok st' → Tally P st → ls.Nodup → (∀ x ∈ ls, x ∈ st.run.dag.graph.heads) →
    Tally P st' ∧ noted st' + st'.shown.length = noted st + st.shown.length + ls.length ∧ st'.slices = st.slices := by
  induction ls with
  | nil => intro st st' h hT _ _; cases h; exact ⟨hT, rfl, rfl⟩
  | cons l ls ih =>
    intro st st' h hT hnd hls
    rw [List.nodup_cons] at hnd
    rw [headLoop] at h
    obtain ⟨⟨r, st1⟩, h1, h⟩ := Outcome.bind_eq_ok.1 h
    dsimp only at h
    split at h
    · obtain ⟨st2, h2, h⟩ := Outcome.bind_eq_ok.1 h
      obtain ⟨i, hi, hd⟩ := dapply_good (env := env) hT.inv (hls l (by simp))
      rcases hd _ h1 with ⟨-, e⟩ | ⟨-, e⟩ | ⟨r', st1', e, h3, h4, h5, h6, h7⟩
      · cases e
      · cases e
      cases e
      have hx : st1.fails = st.fails ∧ st1.run.dag.next = st.run.dag.next ∧ st1.obs = st.obs := by
        unfold dapply at h1
        rw [hi] at h1
        obtain ⟨r', -, h1⟩ := Outcome.bind_eq_ok.1 h1
        cases h1
        exact ⟨rfl, rfl, rfl⟩
      unfold noteFailure at h2
      split at h2
      · cases h2
      · rename_i hle
        cases h2
        have hlt : l < st.run.dag.next := hT.inv.inv.bound l ((mem_heads hT.inv.inv.wf).1 (hls l (by simp))).1
        have hT2 : Tally P { st1 with fails := upd st1.fails l (st1.fails l + 1) } := by
          refine ⟨⟨h4.inv, h4.deps, h4.heads, h4.hnodup, h4.sbound, h4.live, h4.order, h4.once, h4.pshown, ?_, h4.count⟩, ?_, ?_, ?_⟩
          · intro x
            dsimp only
            by_cases e : x = l
            · subst e; rw [upd_same]; omega
            · rw [upd_other _ _ e]; exact h4.fails x
          · intro x hx'
            dsimp only at hx' ⊢
            rw [hx.2.1] at hx'
            rw [upd_other _ _ (by omega), hx.1]
            exact hT.fresh x hx'
          · dsimp only
            rw [hx.2.1, h7]
            exact hT.labels
          · dsimp only
            rw [hx.2.2, h7]
            exact hT.told
        obtain ⟨k1, k2, k3⟩ := ih h hT2 hnd.2 (fun x hx' => by dsimp only; rw [h5]; exact hls x (by simp [hx']))
        have e1 : noted { st1 with fails := upd st1.fails l (st1.fails l + 1) } = noted st + 1 := by
          unfold noted
          dsimp only
          rw [hx.2.1, hx.1]
          exact noted_upd _ _ _ hlt
        refine ⟨k1, ?_, by rw [k3]; exact h6⟩
        rw [e1] at k2
        dsimp only at k2
        rw [h7] at k2
        rw [k2, List.length_cons]
        omega
    · obtain ⟨run, h2, h⟩ := Outcome.bind_eq_ok.1 h
      obtain ⟨g1, g2, g3, g4, g5⟩ := tally_done ho hT (hls l (by simp)) h1 h2
      obtain ⟨k1, k2, k3⟩ := ih h g1 hnd.2 (fun x hx => g5 x (hls x (by simp [hx])) (fun e => hnd.1 (e ▸ hx)))
      refine ⟨k1, ?_, by rw [k3, g4]⟩
      rw [k2, g2, g3, List.length_cons]
      omega

theorem dround_tally (ho : OneFollowup env) {P : List Instr} {st st' : DSt σ} (h : dround env st = .ok st') (hT : Tally P st) (hne : st.run.dag.graph.nodes ≠ []) :
    Tally P st' ∧ noted st + st.shown.length + 1 ≤ noted st' + st'.shown.length := by
  unfold dround at h
  obtain ⟨st1, h1, h⟩ := Outcome.bind_eq_ok.1 h
  obtain ⟨st2, h2, h⟩ := Outcome.bind_eq_ok.1 h
  obtain ⟨s, h3, h⟩ := Outcome.bind_eq_ok.1 h
  cases h
  obtain ⟨a1, a2, a3, a4⟩ := proxLoop_tally ho _ h1 hT hT.inv.hnodup hT.inv.heads
  obtain ⟨b1, b2, b3⟩ := headLoop_tally ho _ h2 a1 (nodup_heads a1.inv.inv.wf) (fun x hx => hx)
  constructor
  · refine ⟨⟨b1.inv.inv, b1.inv.deps, b1.inv.heads, b1.inv.hnodup, b1.inv.sbound, b1.inv.live, b1.inv.order, b1.inv.once, b1.inv.pshown, b1.inv.fails, by dsimp only; rw [b1.inv.count]⟩,
      b1.fresh, b1.labels, ?_⟩
    dsimp only
    rw [instrs_append, List.length_append, b1.told]
    rfl
  · show _ ≤ noted st2 + st2.shown.length
    have : 1 ≤ st.run.dag.proxHeads.length + st1.run.dag.applicable.length := by
      cases hp : st.run.dag.proxHeads with
      | cons a l => simp only [List.length_cons]; omega
      | nil =>
        rw [hp] at h1
        cases h1
        obtain ⟨x, hx⟩ := List.exists_mem_of_ne_nil _ hne
        obtain ⟨m, hm, hmin⟩ := exists_min hT.inv.inv.acyclic _ hx
        have : m ∈ st.run.dag.applicable := (mem_heads hT.inv.inv.wf).2 ⟨hm, fun a e => hmin a e.1 e⟩
        have := List.length_pos_of_mem this
        omega
    omega

theorem drun_tally (ho : OneFollowup env) {P : List Instr} (n : Nat) : ∀ {st st' : DSt σ}, drun env n st = .ok (false, st') → Tally P st →
    Tally P st' ∧ n + noted st + st.shown.length ≤ noted st' + st'.shown.length := by
  induction n with
  | zero => intro st st' h hT; rw [drun] at h; injection h with h; injection h with h1 h2; subst h2; exact ⟨hT, by omega⟩
  | succ n ih =>
    intro st st' h hT
    rw [drun] at h
    split at h
    · cases h
    · rename_i hne
      obtain ⟨st1, h1, h⟩ := Outcome.bind_eq_ok.1 h
      obtain ⟨a1, a2⟩ := dround_tally ho h1 hT (by simpa using hne)
      obtain ⟨b1, b2⟩ := ih h a1
      exact ⟨b1, by omega⟩

theorem drun_bound (ho : OneFollowup env) {P : List Instr} {s : σ} {n : Nat} {st0 st : DSt σ} (h0 : dstart s P = .ok st0) (h : drun env n st0 = .ok (false, st)) :
    n ≤ 100 * P.length + 101 * (instrs st.obs).length := by
  have hT : Tally P st0 ∧ noted st0 = 0 ∧ st0.shown = [] := by
    obtain ⟨st', h1, h2⟩ := dinv_start (slice := s) (P := P)
    rw [h1] at h0
    cases h0
    obtain ⟨d, h3, h4⟩ := Outcome.bind_eq_ok.1 h1
    cases h4
    obtain ⟨d', h5, h6⟩ := built_pushAll Instr.canCommute P (built_empty Instr.canCommute)
    rw [h3] at h5
    cases h5
    refine ⟨⟨h2, fun _ _ => rfl, ?_, rfl⟩, ?_, rfl⟩
    · have := h6.next
      simp only [List.nil_append] at this
      simp [DRun.start, this]
    · unfold noted
      have := sum_le (fun _ : Nat => 0) (l := List.range d.next) (W := 0) (by simp)
      simpa [DRun.start] using this
  obtain ⟨a1, a2⟩ := drun_tally ho n h hT.1
  rw [hT.2.1, hT.2.2] at a2
  have h1 : noted st ≤ st.run.dag.next * 100 := by
    unfold noted
    have := sum_le st.fails (l := List.range st.run.dag.next) (W := 100) (fun x _ => a1.inv.fails x)
    rwa [List.length_range] at this
  have h2 := a1.labels
  have h3 := a1.told
  have h4 : st.run.dag.next * 100 ≤ (P.length + st.shown.length) * 100 := Nat.mul_le_mul_right _ h2
  simp only [List.length_nil] at a2
  rw [h3]
  omega

end

end Verif.Ends
