import Verif.SalvageLemmas

/-!
# What holds up to an exception (lemmas)

Facts about the slices and the instructions that every attempt and every step keeps hold for all that is shown, whether or not an exception comes.
-/

namespace Verif

open Tried

namespace Tried

/-- Whatever becomes of it, `G` holds of the variables, and `V` of the value. -/
def Stays {σ α : Type} (G : σ → Prop) (V : α → Prop) (y : Tried σ α) : Prop := ∀ o s, y = .ok (o, s) → G s ∧ ∀ a, o = some a → V a

section
variable {σ α β : Type} {G : σ → Prop} {V : α → Prop} {U : β → Prop}

theorem Stays.andThen {y : Tried σ α} {g : α → σ → Tried σ β} (h : Stays G V y) (hg : ∀ a s, G s → V a → Stays G U (g a s)) : Stays G U (andThen y g) := by
  intro o s' e
  unfold Tried.andThen at e
  split at e
  · rename_i a s
    obtain ⟨h1, h2⟩ := h _ _ rfl
    exact hg a s h1 (h2 a rfl) _ _ e
  · cases e; exact ⟨(h _ _ rfl).1, fun _ e => (nomatch e)⟩
  · cases e
  · cases e

theorem Stays.attempt {s : σ} (h : G s) {x : Outcome α} (hx : ∀ a, x = .ok a → V a) : Stays G V (attempt s x) := by
  intro o s' e
  cases x with
  | ok a => cases e; exact ⟨h, fun _ e => by cases e; exact hx a rfl⟩
  | throws => cases e; exact ⟨h, fun _ e => (nomatch e)⟩
  | ub => cases e

theorem Stays.look {b : Bool} {s s' : σ} (h : G s) (h' : G s') {x : Outcome α} (hx : ∀ a, x = .ok a → V a) : Stays G V (look b s s' x) := by
  unfold Tried.look
  split
  · intro o s e; cases e; exact ⟨h, fun _ e => (nomatch e)⟩
  · exact .attempt h' hx

theorem Stays.ok {s : σ} (h : G s) {a : α} (ha : V a) : Stays G V (.ok (some a, s)) := by
  intro o s e; cases e; exact ⟨h, fun _ e => by cases e; exact ha⟩

theorem Stays.none {s : σ} (h : G s) : Stays G V (.ok (none, s) : Tried σ α) := by
  intro o s e; cases e; exact ⟨h, fun _ e => (nomatch e)⟩

theorem Stays.ub : Stays G V (.ub : Tried σ α) := by intro o s e; cases e

end

end Tried

open Verif.Wave (Res Env)

/-- `J` of slices and `W` of instructions are kept. -/
structure Holds {σ : Type} (env : Env σ) (J : σ → Prop) (W : Instr → Prop) : Prop where
  apply : ∀ {s i r}, J s → W i → env.apply s i = .ok r → J r.slice ∧ W r.instr ∧ ∀ f ∈ r.followups, W f
  waits : ∀ {i} (k : Nat), W i → W { i with wait := k }
  advance : ∀ {s s'}, J s → env.advance s = .ok s' → J s'
  reset : ∀ {s s'}, J s → env.reset s = .ok s' → J s'

/-- What is shown satisfies `J` and `W`. -/
def Pipe.Seen {σ : Type} (J : σ → Prop) (W : Instr → Prop) (l : List (Pipe.Obs σ)) : Prop := (∀ i, .instr i ∈ l → W i) ∧ ∀ s, .slice s ∈ l → J s

section
variable {σ : Type} {env : Env σ} {J : σ → Prop} {W : Instr → Prop} {late : Nat → Bool}

/-- What an attempt gives. -/
def Gives (J : σ → Prop) (W : Instr → Prop) (r : Res σ) : Prop := J r.slice ∧ W r.instr ∧ ∀ f ∈ r.followups, W f

namespace Pipe

theorem seen_nil : Seen J W [] := ⟨fun _ h => (nomatch h), fun _ h => (nomatch h)⟩

theorem seen_append {l l' : List (Obs σ)} (h : Seen J W l) (h' : Seen J W l') : Seen J W (l ++ l') :=
  ⟨fun i hi => (List.mem_append.1 hi).elim (h.1 i) (h'.1 i), fun s hs => (List.mem_append.1 hs).elim (h.2 s) (h'.2 s)⟩

theorem seen_slice {s : σ} (h : J s) : Seen J W [.slice s] :=
  ⟨fun i hi => by simp at hi, fun s' hs => by simp at hs; rw [hs]; exact h⟩

theorem seen_instr {i : Instr} (h : W i) : Seen J W [.instr (σ := σ) i] :=
  ⟨fun i' hi => by simp at hi; rw [hi]; exact h, fun s hs => by simp at hs⟩

/-! ### Streamed -/

structure SGood (J : σ → Prop) (W : Instr → Prop) (st : SSt σ) : Prop where
  slice : J st.slice
  stream : ∀ i ∈ st.stream, W i
  future : ∀ it ∈ st.future, W it.instr
  seen : Seen J W (st.events.filterMap Ev.obs)

theorem sstart_good {s : σ} {P : List Instr} (hs : J s) (hP : ∀ i ∈ P, W i) : SGood J W (sstart s P) := ⟨hs, hP, by simp [sstart], seen_nil⟩

theorem takeNext_good {st st' : SSt σ} {it : Item} (h : SGood J W st) (e : takeNext st = some (it, st')) : SGood J W st' ∧ W it.instr := by
  unfold takeNext at e
  split at e
  · rename_i x fs hf
    cases e
    exact ⟨⟨h.slice, h.stream, fun y hy => h.future y (by rw [hf]; exact List.mem_cons_of_mem _ hy), h.seen⟩, h.future _ (by rw [hf]; simp)⟩
  · rename_i hf
    split at e
    · rename_i i is hi
      cases e
      refine ⟨⟨h.slice, fun y hy => h.stream y (by rw [hi]; exact List.mem_cons_of_mem _ hy), h.future, h.seen⟩, h.stream _ (by rw [hi]; simp)⟩
    · cases e

theorem react_stays (hk : Holds env J W) {st : SSt σ} {it : Item} {r : Res σ} (h : SGood J W st) (hr : Gives J W r) :
    Stays (SGood J W) (fun _ => True) (reactT env late st it r) := by
  obtain ⟨r1, r2, r3⟩ := hr
  unfold reactT
  have hev : Seen J W ((st.events ++ ([Ev.attempt it r.err r.followups] ++ (if r.err then [] else [Ev.instr it.tag r.instr]))).filterMap Ev.obs) := by
    rw [List.filterMap_append]
    refine seen_append h.seen ?_
    cases r.err
    · exact seen_instr r2
    · exact seen_nil
  have hb : SGood J W { st with slice := r.slice, events := st.events ++ ([Ev.attempt it r.err r.followups] ++ (if r.err then [] else [Ev.instr it.tag r.instr])) } :=
    ⟨r1, h.stream, h.future, hev⟩
  have ha : SGood J W { st with slice := r.slice, events := st.events ++ ([Ev.attempt it r.err r.followups] ++ (if r.err then [] else [Ev.instr it.tag r.instr])) ++ [.slice r.slice] } :=
    ⟨r1, h.stream, h.future, by rw [List.filterMap_append]; exact seen_append hev (seen_slice r1)⟩
  dsimp only
  generalize [Ev.attempt it r.err r.followups] ++ (if r.err then [] else [Ev.instr it.tag r.instr]) = ev at hb ha
  split
  · refine .andThen (V := J) (.look hb ha fun a e => hk.advance r1 e) fun s st' hs hj => .ok ⟨hj, hs.stream, ?_, hs.seen⟩ trivial
    intro y hy
    rcases List.mem_append.1 hy with hy | hy
    · exact hs.future y hy
    · obtain ⟨f, hf, rfl⟩ := List.mem_map.1 hy
      exact r3 f hf
  · split
    · split
      · exact .andThen (V := fun _ => True) (.look hb ha fun _ _ => trivial) fun _ st' hs _ => .ok hs trivial
      · refine .andThen (V := J) (.look hb ha fun a e => hk.advance r1 e) fun s st' hs hj => .ok ⟨hj, hs.stream, ?_, hs.seen⟩ trivial
        intro y hy
        rcases List.mem_cons.1 hy with rfl | hy
        · exact hk.waits _ r2
        · exact hs.future y hy
    · exact .ok hb trivial

theorem sstep_stays (hk : Holds env J W) {st : SSt σ} (h : SGood J W st) : Stays (SGood J W) (fun _ => True) (sstepT env late st) := by
  unfold sstepT
  split
  · have h' : SGood J W { st with events := st.events ++ [.slice st.slice] } :=
      ⟨h.slice, h.stream, h.future, by rw [List.filterMap_append]; exact seen_append h.seen (seen_slice h.slice)⟩
    exact .andThen (V := fun _ => True) (.look h h' fun _ _ => trivial) fun _ s hs _ => .ok hs trivial
  · rename_i it st' e
    obtain ⟨h1, h2⟩ := takeNext_good h e
    exact .andThen (V := Gives J W) (.attempt h1 fun r e => hk.apply h1.slice h2 e) fun r s hs hr => react_stays hk hs hr

theorem srun_stays (hk : Holds env J W) : ∀ (n : Nat) {st : SSt σ}, SGood J W st → Stays (SGood J W) (fun _ => True) (srunT env late n st)
  | 0, st, h => .ok h trivial
  | n + 1, st, h => by
    unfold srunT
    refine .andThen (sstep_stays hk h) fun c s hs _ => ?_
    split
    · exact srun_stays hk n hs
    · exact .ok hs trivial

/-! ### DAG -/

open Verif.Dag (DDag DRun)

structure DGood (J : σ → Prop) (W : Instr → Prop) (st : DSt σ) : Prop where
  slice : J st.slice
  instrs : ∀ l i, st.run.dag.instr l = some i → W i
  seen : Seen J W st.obs

theorem storeFrom_good : ∀ (fs : List Instr) {f : Nat → Option Instr} {k : Nat}, (∀ l i, f l = some i → W i) → (∀ i ∈ fs, W i) → ∀ l i, DDag.storeFrom f k fs l = some i → W i
  | [], _, _, h, _, l, i, e => h l i e
  | x :: xs, f, k, h, hx, l, i, e => by
    refine storeFrom_good xs (f := upd f k (some x)) (k := k + 1) ?_ (fun y hy => hx y (List.mem_cons_of_mem _ hy)) l i e
    intro l i e
    by_cases hl : l = k
    · rw [hl, upd_same] at e; cases e; exact hx _ (by simp)
    · rw [upd_other _ _ hl] at e; exact h l i e

theorem handle_instrs {run run' : DRun Instr} {l : Nat} {fs : List Instr} (h : ∀ l i, run.dag.instr l = some i → W i) (hf : ∀ i ∈ fs, W i) (e : handle run l fs = .ok run') :
    ∀ l i, run'.dag.instr l = some i → W i := by
  unfold handle at e
  split at e
  · obtain ⟨d, hd, e⟩ := Outcome.bind_eq_ok.1 e
    cases e
    unfold DDag.popHead at hd
    split at hd
    · cases hd
    · obtain ⟨ps, -, hd⟩ := Outcome.bind_eq_ok.1 hd
      obtain ⟨g, -, hd⟩ := Outcome.bind_eq_ok.1 hd
      cases hd
      intro k i e
      dsimp only at e
      by_cases hl : k = l
      · rw [hl, upd_same] at e; cases e
      · rw [upd_other _ _ hl] at e; exact h k i e
  · obtain ⟨⟨d, new⟩, hd, e⟩ := Outcome.bind_eq_ok.1 e
    cases e
    unfold DDag.expand at hd
    split at hd
    · cases hd
    · obtain ⟨g, -, hd⟩ := Outcome.bind_eq_ok.1 hd
      split at hd
      · cases hd
      · cases hd
        exact storeFrom_good _ h hf

theorem dapply_stays (hk : Holds env J W) {st : DSt σ} (h : DGood J W st) (l : Nat) : Stays (DGood J W) (Gives J W) (dapplyT env st l) := by
  unfold dapplyT
  split
  · exact .none h
  · rename_i i hi
    refine .andThen (V := Gives J W) (.attempt h fun r e => hk.apply h.slice (h.instrs _ _ hi) e) fun r s hs hr => .ok ⟨hr.1, ?_, hs.seen⟩ hr
    intro k j e
    dsimp only at e
    by_cases hl : k = l
    · rw [hl, upd_same] at e; cases e; exact hr.2.1
    · rw [upd_other _ _ hl] at e; exact hs.instrs k j e

theorem settle_stays {st : DSt σ} (h : DGood J W st) {l : Nat} {r : Res σ} (hr : Gives J W r) : Stays (DGood J W) (fun _ => True) (settleT st l r) := by
  unfold settleT
  exact .andThen (V := fun run => ∀ l i, run.dag.instr l = some i → W i) (.attempt ⟨h.slice, h.instrs, seen_append h.seen (seen_instr hr.2.1)⟩
    fun run e => handle_instrs h.instrs hr.2.2 e) fun run s hs hv => .ok ⟨hs.slice, hv, hs.seen⟩ trivial

theorem proxLoop_stays (hk : Holds env J W) : ∀ (ls : List Nat) {st : DSt σ}, DGood J W st → Stays (DGood J W) (fun _ => True) (proxLoopT env st ls)
  | [], _, h => .ok h trivial
  | l :: ls, st, h => by
    unfold proxLoopT
    refine .andThen (dapply_stays hk h l) fun r s hs hr => ?_
    split
    · exact .none hs
    · exact .andThen (settle_stays hs hr) fun _ s hs _ => proxLoop_stays hk ls hs

theorem headLoop_stays (hk : Holds env J W) : ∀ (ls : List Nat) {st : DSt σ}, DGood J W st → Stays (DGood J W) (fun _ => True) (headLoopT env st ls)
  | [], _, h => .ok h trivial
  | l :: ls, st, h => by
    unfold headLoopT
    refine .andThen (dapply_stays hk h l) fun r s hs hr => ?_
    split
    · refine .andThen (V := DGood J W) (.attempt hs fun s' e => ?_) fun s' _ _ hs' => headLoop_stays hk ls hs'
      unfold noteFailure at e
      split at e
      · cases e
      · cases e; exact ⟨hs.slice, hs.instrs, hs.seen⟩
    · exact .andThen (settle_stays hs hr) fun _ s hs _ => headLoop_stays hk ls hs

theorem dround_stays (hk : Holds env J W) {st : DSt σ} (h : DGood J W st) : Stays (DGood J W) (fun _ => True) (droundT env late st) := by
  unfold droundT
  exact .andThen (proxLoop_stays hk _ h) fun _ s hs _ => .andThen (headLoop_stays hk _ hs) fun _ s hs _ =>
    have h' : DGood J W { s with slices := s.slices + 1, seen := s.seen ++ [s.slice], obs := s.obs ++ [.slice s.slice] } :=
      ⟨hs.slice, hs.instrs, seen_append hs.seen (seen_slice hs.slice)⟩
    .andThen (V := J) (.look hs h' fun a e => hk.advance hs.slice e) fun a s hs hj => .ok ⟨hj, hs.instrs, hs.seen⟩ trivial

theorem drun_stays (hk : Holds env J W) : ∀ (n : Nat) {st : DSt σ}, DGood J W st → Stays (DGood J W) (fun _ => True) (drunT env late n st)
  | 0, st, h => .ok h trivial
  | n + 1, st, h => by
    unfold drunT
    split
    · exact .ok h trivial
    · exact .andThen (dround_stays hk h) fun _ s hs _ => drun_stays hk n hs

theorem pushAll_instrs {comm : Instr → Instr → Bool} : ∀ {P : List Instr} {d d' : DDag Instr}, (∀ l i, d.instr l = some i → W i) → (∀ i ∈ P, W i) → DDag.pushAll comm d P = .ok d' →
    ∀ l i, d'.instr l = some i → W i
  | [], _, _, h, _, e => by cases e; exact h
  | x :: xs, d, d', h, hP, e => by
    obtain ⟨d1, h1, e⟩ := Outcome.bind_eq_ok.1 e
    refine pushAll_instrs ?_ (fun y hy => hP y (List.mem_cons_of_mem _ hy)) e
    unfold DDag.push DDag.addIsolated at h1
    dsimp only at h1
    split at h1
    · cases h1
    · obtain ⟨g, -, h1⟩ := Outcome.bind_eq_ok.1 h1
      cases h1
      intro l i e
      dsimp only at e
      by_cases hl : l = d.next
      · rw [hl, upd_same] at e; cases e; exact hP _ (by simp)
      · rw [upd_other _ _ hl] at e; exact h l i e

theorem dstart_good {s : σ} {P : List Instr} {st : DSt σ} (hs : J s) (hP : ∀ i ∈ P, W i) (e : dstart s P = .ok st) : DGood J W st := by
  unfold dstart at e
  obtain ⟨d, hd, e⟩ := Outcome.bind_eq_ok.1 e
  cases e
  exact ⟨hs, pushAll_instrs (fun _ _ e => by cases e) hP hd, seen_nil⟩

end Pipe

/-! ### Waves -/

namespace Wave.Held

structure Good (J : σ → Prop) (W : Instr → Prop) (st : St σ) : Prop where
  slice : J st.slice
  instrs : ∀ k, k < st.size → W (st.instr k)
  log : ∀ e ∈ st.log, W e.instr

theorem applyTo_stays (hk : Holds env J W) {st : St σ} (h : Good J W st) (id : Nat) : Stays (Good J W) (Gives J W) (applyToT env st id) := by
  unfold applyToT
  split
  · rename_i hi
    refine .andThen (V := Gives J W) (.attempt h fun r e => hk.apply h.slice (h.instrs _ hi) e) fun r s hs hr => .ok ⟨hr.1, ?_, hs.log⟩ hr
    intro k hk
    dsimp only
    by_cases hl : k = id
    · rw [hl, upd_same]; exact hr.2.1
    · rw [upd_other _ _ hl]; exact hs.instrs k hk
  · exact .ub

def Sound (J : σ → Prop) (W : Instr → Prop) (recT : RecT σ) : Prop := ∀ st id prox, Good J W st → Stays (Good J W) (fun _ => True) (recT st id prox)

section
variable {recT : RecT σ}

theorem release_stays (hr : Sound J W recT) {st : St σ} (h : Good J W st) (j : Nat) (prox : Bool) : Stays (Good J W) (fun _ => True) (releaseT recT st j prox) := by
  unfold releaseT
  split
  · refine .andThen (V := fun _ => True) (.attempt h fun _ _ => trivial) fun b s hs _ => .ok ?_ trivial
    split <;> exact ⟨hs.slice, hs.instrs, hs.log⟩
  · refine .andThen (hr _ _ _ h) fun b s hs _ => .ok ?_ trivial
    split
    · exact hs
    · exact ⟨hs.slice, hs.instrs, hs.log⟩

theorem oneDep_stays (hr : Sound J W recT) {st : St σ} (h : Good J W st) (j : Nat) (prox : Bool) : Stays (Good J W) (fun _ => True) (oneDepT recT st j prox) := by
  unfold oneDepT
  have h' : Good J W { st with count := upd st.count j ((st.count j + 255) % 256) } := ⟨h.slice, h.instrs, h.log⟩
  dsimp only
  split
  · exact release_stays hr h' _ _
  · exact .ok h' trivial

theorem depLoop_stays (hr : Sound J W recT) {prox : Bool} {n0 : Nat} : ∀ (js : List Nat) {st : St σ}, Good J W st → Stays (Good J W) (fun _ => True) (depLoopT env recT prox n0 st js)
  | [], _, h => .ok h trivial
  | j :: js, st, h => by
    unfold depLoopT
    split
    · exact .ub
    · split
      · exact .ub
      · exact .andThen (oneDep_stays hr h j prox) fun _ s hs _ => depLoop_stays hr js hs

theorem followLoop_stays (hr : Sound J W recT) {prox : Bool} {n0 : Nat} {deps : List Nat} {origin : Nat} : ∀ (fs : List Instr) {st : St σ}, Good J W st → (∀ f ∈ fs, W f) →
    Stays (Good J W) (fun _ => True) (followLoopT env recT prox n0 deps origin st fs)
  | [], _, h, _ => .ok h trivial
  | f :: fs, st, h, hf => by
    unfold followLoopT
    split
    · exact .ub
    · refine .andThen (hr _ _ _ ⟨h.slice, ?_, h.log⟩) fun b s hs _ => followLoop_stays hr fs ?_ fun x hx => hf x (List.mem_cons_of_mem _ hx)
      · intro k hk
        dsimp only at hk ⊢
        by_cases hl : k = st.size
        · rw [hl, upd_same]; exact hf _ (by simp)
        · rw [upd_other _ _ hl]; exact h.instrs k (by omega)
      · split
        · exact hs
        · exact ⟨hs.slice, hs.instrs, hs.log⟩

theorem addDelta_good (n : Nat) : ∀ (js : List Nat) {st : St σ}, Good J W st → Good J W (addDelta st n js)
  | [], _, h => h
  | j :: js, st, h => addDelta_good n js ⟨h.slice, h.instrs, h.log⟩

theorem notify_stays (hr : Sound J W recT) {st : St σ} (h : Good J W st) (id : Nat) {fs : List Instr} (hf : ∀ f ∈ fs, W f) (prox : Bool) :
    Stays (Good J W) (fun _ => True) (notifyT env recT st id fs prox) := by
  unfold notifyT
  cases fs with
  | nil => exact depLoop_stays hr _ h
  | cons f fs =>
    refine followLoop_stays hr _ ?_ hf
    split
    · exact addDelta_good _ _ h
    · exact h

theorem visit_good {st : St σ} (h : Good J W st) (id : Nat) {r : Res σ} (hr : Gives J W r) : Good J W (visit st id r) :=
  ⟨h.slice, h.instrs, fun e he => by
    rcases List.mem_append.1 he with he | he
    · exact h.log e he
    · rw [List.mem_singleton.1 he]; exact hr.2.1⟩

end

theorem tryImm_stays (hk : Holds env J W) : ∀ d, Sound J W (tryImmT env d)
  | 0 => fun _ _ _ _ => .ub
  | d + 1 => by
    intro st id prox h
    unfold tryImmT
    split
    · exact .ub
    · refine .andThen (V := fun _ => True) (.attempt h fun _ _ => trivial) fun imm s hs _ => ?_
      split
      · exact .ok hs trivial
      · refine .andThen (applyTo_stays hk hs id) fun r s hs hr => ?_
        have hv := visit_good hs id hr
        split
        · split
          · exact .ok ⟨hs.slice, hs.instrs, hs.log⟩ trivial
          · exact .ok hs trivial
        · split
          · exact .ok ⟨hv.slice, hv.instrs, hv.log⟩ trivial
          · exact .andThen (notify_stays (tryImm_stays hk d) hv id hr.2.2 prox) fun _ s hs _ => .ok hs trivial

section
variable {recT : RecT σ}

theorem schedOne_stays (hk : Holds env J W) (hc : Sound J W recT) (prox deferred : Bool) {st : St σ} (h : Good J W st) (id : Nat) :
    Stays (Good J W) (fun _ => True) (schedOneT env recT prox deferred st id) := by
  unfold schedOneT
  refine .andThen (applyTo_stays hk h id) fun r s hs hr => ?_
  have hv := visit_good hs id hr
  split
  · split
    · exact .ok ⟨hv.slice, hv.instrs, hv.log⟩ trivial
    · exact notify_stays hc hv id hr.2.2 prox
  · split
    · exact .ok ⟨hs.slice, hs.instrs, hs.log⟩ trivial
    · split
      · exact .ok hs trivial
      · split
        · exact .none hs
        · split
          · exact .none hs
          · refine .ok ⟨hs.slice, fun k hlt => ?_, hs.log⟩ trivial
            change W (upd s.instr id _ k)
            by_cases hl : k = id
            · rw [hl, upd_same]; exact hk.waits _ hr.2.1
            · rw [upd_other _ _ hl]; exact hs.instrs k hlt

theorem schedList_stays (hk : Holds env J W) (hc : Sound J W recT) (prox deferred : Bool) : ∀ (ids : List Nat) {st : St σ}, Good J W st →
    Stays (Good J W) (fun _ => True) (schedListT env recT prox deferred st ids)
  | [], _, h => .ok h trivial
  | id :: ids, _, h => .andThen (schedOne_stays hk hc prox deferred h id) fun _ _ hs _ => schedList_stays hk hc prox deferred ids hs

theorem rounds_stays (hk : Holds env J W) (hc : Sound J W recT) {st : St σ} (h : Good J W st) : Stays (Good J W) (fun _ => True) (roundsT env recT st) := by
  unfold roundsT
  split
  · exact .andThen (schedList_stays hk hc _ _ _ h) fun _ s hs _ => .andThen (V := J) (.attempt hs fun a e => hk.reset hs.slice e) fun a s hs hj =>
      schedList_stays hk hc _ _ _ ⟨hj, hs.instrs, hs.log⟩
  · exact .ok h trivial

end

theorem scheduleWave_stays (hk : Holds env J W) (depth : Nat) {st : St σ} (h : Good J W st) : Stays (Good J W) (fun _ => True) (scheduleWaveT env depth st) := by
  unfold scheduleWaveT
  have hc := tryImm_stays hk depth
  exact .andThen (schedList_stays hk hc _ _ _ h) fun _ s hs _ => .andThen (schedList_stays hk hc _ _ _ hs) fun _ s hs _ =>
    .andThen (rounds_stays hk hc hs) fun _ s hs _ => .ok ⟨hs.slice, hs.instrs, hs.log⟩ trivial

theorem addAll_good : ∀ (P : List Instr) {st : St σ} {last : Nat → Option Nat}, Good J W st → (∀ i ∈ P, W i) → Good J W (addAll st last P)
  | [], _, _, h, _ => h
  | x :: xs, st, last, h, hP => by
    unfold addAll addInstr
    refine addAll_good xs ⟨h.slice, ?_, h.log⟩ fun y hy => hP y (List.mem_cons_of_mem _ hy)
    intro k hk
    change W (upd st.instr st.size x k)
    have hk : k < st.size + 1 := hk
    by_cases hl : k = st.size
    · rw [hl, upd_same]; exact hP _ (by simp)
    · rw [upd_other _ _ hl]; exact h.instrs k (by omega)

theorem start_good {s : σ} {P : List Instr} (hs : J s) (hP : ∀ i ∈ P, W i) : Good J W (start s P) :=
  addAll_good P ⟨hs, fun _ h => absurd h (Nat.not_lt_zero _), by simp⟩ hP

end Wave.Held

namespace Pipe

structure WGood (J : σ → Prop) (W : Instr → Prop) (w : WSt σ) : Prop where
  st : Wave.Held.Good J W w.st
  seen : Seen J W w.obs

theorem wave_stays (hk : Holds env J W) (depth : Nat) {w : WSt σ} (h : WGood J W w) : Stays (WGood J W) (fun _ => True) (waveT env depth w) := by
  unfold waveT
  have hw := Wave.Held.scheduleWave_stays hk depth h.st
  split
  · rename_i o st e
    intro o' w' e'
    cases e'
    obtain ⟨h1, -⟩ := hw _ _ e
    refine ⟨⟨h1, seen_append h.seen ⟨fun i hi => ?_, fun s hs => ?_⟩⟩, fun _ _ => trivial⟩
    · obtain ⟨x, hx, hi⟩ := List.mem_map.1 hi
      cases hi
      exact h1.log x (List.mem_of_mem_drop hx)
    · obtain ⟨x, hx, hi⟩ := List.mem_map.1 hs
      cases hi
  · intro o s e; cases e
  · exact .ub

theorem wrun_stays (hk : Holds env J W) (depth : Nat) : ∀ (n : Nat) {w : WSt σ}, WGood J W w → Stays (WGood J W) (fun _ => True) (wrunT env late depth n w)
  | 0, _, h => .ok h trivial
  | n + 1, w, h => by
    unfold wrunT
    split
    · exact .ok h trivial
    · exact .andThen (wave_stays hk depth h) fun _ w hw _ =>
        have h' : WGood J W { w with shown := w.shown ++ [w.st.slice], obs := w.obs ++ [.slice w.st.slice] } := ⟨hw.st, seen_append hw.seen (seen_slice hw.st.slice)⟩
        .andThen (V := J) (.look hw h' fun a e => hk.advance hw.st.slice e) fun a w hw hj =>
          wrun_stays hk depth n ⟨⟨hj, hw.st.instrs, hw.st.log⟩, hw.seen⟩

end Pipe

end

end Verif
