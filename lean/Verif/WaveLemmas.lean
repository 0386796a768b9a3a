import Verif.Ambient

/-! # Wave scheduler: lemmas -/

namespace Verif.Wave

/-! ### Sums of dependency multiplicities -/

def need (f : Nat → List Nat) : List Nat → Nat → Nat
  | [], _ => 0
  | i :: L, j => (f i).count j + need f L j

theorem need_perm {f : Nat → List Nat} {L M : List Nat} (h : L.Perm M) (j : Nat) : need f L j = need f M j := by
  induction h with
  | nil => rfl
  | cons x _ ih => simp [need, ih]
  | swap x y l => simp only [need]; omega
  | trans _ _ ih1 ih2 => rw [ih1, ih2]

theorem need_erase {f : Nat → List Nat} {L : List Nat} {i : Nat} (h : i ∈ L) (j : Nat) : need f L j = (f i).count j + need f (L.erase i) j := by
  rw [need_perm (List.perm_cons_erase h) j]; rfl

theorem need_congr {f g : Nat → List Nat} {L : List Nat} (h : ∀ i ∈ L, f i = g i) (j : Nat) : need f L j = need g L j := by
  induction L with
  | nil => rfl
  | cons a L ih => simp only [need]; rw [h a (by simp), ih (fun i hi => h i (by simp [hi]))]

theorem need_append (f : Nat → List Nat) (L M : List Nat) (j : Nat) : need f (L ++ M) j = need f L j + need f M j := by
  induction L with
  | nil => simp [need]
  | cons a L ih => simp only [List.cons_append, need, ih]; omega

theorem need_zero {f : Nat → List Nat} {L : List Nat} {j : Nat} (h : ∀ i ∈ L, j ∉ f i) : need f L j = 0 := by
  induction L with
  | nil => rfl
  | cons a L ih => simp only [need]; rw [List.count_eq_zero.2 (h a (by simp)), ih (fun i hi => h i (by simp [hi]))]

theorem need_pos {f : Nat → List Nat} {L : List Nat} {j i : Nat} (hi : i ∈ L) (h : j ∈ f i) : 0 < need f L j := by
  rw [need_erase hi]
  have := List.count_pos_iff.2 h
  omega

theorem need_upd {f : Nat → List Nat} {L : List Nat} {k id j : Nat} (hL : L.Nodup) (hk : k ∈ L) :
    need (upd f k (f k ++ [id])) L j = need f L j + (if j = id then 1 else 0) := by
  rw [need_erase hk, need_erase (f := f) hk]
  rw [need_congr (f := upd f k (f k ++ [id])) (g := f)]
  · rw [upd_same, List.count_append]
    by_cases h : j = id
    · subst h; simp; omega
    · rw [List.count_eq_zero.2 (show j ∉ [id] by simp [h])]; simp [h]
  · intro i hi
    refine upd_other _ _ ?_
    rintro rfl
    exact (List.Nodup.not_mem_erase hL) hi

/-! ### Order on source instructions -/

/-- Reachability along dependents. -/
inductive Before (D : Nat → List Nat) : Nat → Nat → Prop
  | step {a b : Nat} : b ∈ D a → Before D a b
  | tail {a b c : Nat} : Before D a b → c ∈ D b → Before D a c

theorem Before.mono {D D' : Nat → List Nat} (h : ∀ a x, x ∈ D a → x ∈ D' a) {a b : Nat} (hb : Before D a b) : Before D' a b := by
  induction hb with
  | step h1 => exact .step (h _ _ h1)
  | tail _ h2 ih => exact .tail ih (h _ _ h2)

/-! ### Stages -/

/-- Progress of an instruction with respect to deferral. -/
inductive Stage where
  | plain | routed | compiled
  deriving DecidableEq, Repr

/-- Does this visitor call finish the record? -/
def Entry.final (e : Entry) : Bool := decide (e.followups ≠ [e.instr])

def finals (log : List Entry) (i : Nat) : Nat := log.countP (fun e => decide (e.id = i) && e.final)

def spawned : List Entry → Nat
  | [] => 0
  | e :: l => (if e.final then e.followups.length else 0) + spawned l

theorem spawned_append (a b : List Entry) : spawned (a ++ b) = spawned a + spawned b := by
  induction a with
  | nil => simp [spawned]
  | cons e a ih => simp only [List.cons_append, spawned, ih]; omega

/-! ### The invariant -/

structure Inv {σ : Type} (stage : Operation → Stage) (N : Nat) (D : Nat → List Nat) (L R E K : List Nat) (st : St σ) : Prop where
  nodupL : L.Nodup
  ltL : ∀ i ∈ L, i < st.size
  nodupK : K.Nodup
  subK : ∀ i ∈ K, i ∈ L
  sizeN : N ≤ st.size
  originSrc : ∀ i, i < N → st.origin i = i
  originLt : ∀ i, i < st.size → st.origin i < N
  deps : ∀ i, i < st.size → st.deps i = D (st.origin i)
  cnt : ∀ j, j < N → st.count j = need (fun i => D (st.origin i)) L j + E.count j
  cnt255 : ∀ j, j < N → st.count j ≤ 255
  wait : ∀ j, j < N → (0 < st.count j ↔ j ∈ L ∧ j ∉ K)
  fresh : ∀ i ∈ L, i ∉ K → i < N
  rel : ∀ i, i < st.size → N ≤ i → st.count (st.origin i) = 0
  logLt : ∀ e ∈ st.log, e.id < st.size
  logRel : ∀ e ∈ st.log, st.count (st.origin e.id) = 0
  once : ∀ i, i < st.size → finals st.log i = if i ∈ L then 0 else 1
  order : st.log.Pairwise (fun e f => ¬ Before D (st.origin f.id) (st.origin e.id))
  routed : ∀ i, i < st.size → (stage (st.instr i).op = .routed ↔ i ∈ R)
  subR : ∀ i ∈ R, i ∈ K
  total : st.size = N + spawned st.log
  parent : ∀ i, i < st.size → N ≤ i → ∃ e ∈ st.log, e.final = true ∧ e.followups ≠ [] ∧ e.id < i ∧ st.origin e.id = st.origin i

/-- Static facts about the dependents of the source instructions. -/
def Static (N : Nat) (D : Nat → List Nat) : Prop := ∀ a, a < N → ∀ j ∈ D a, a < j ∧ j < N

section
variable {σ : Type} {stage : Operation → Stage} {N : Nat} {D : Nat → List Nat} {L R E K : List Nat} {st : St σ}

theorem Inv.perm {K' : List Nat} (h : Inv stage N D L R E K st) (hp : K.Perm K') : Inv stage N D L R E K' st :=
  { h with
    nodupK := hp.nodup_iff.1 h.nodupK
    subK := fun i hi => h.subK i (hp.mem_iff.2 hi)
    wait := fun j hj => by rw [h.wait j hj, hp.mem_iff]
    fresh := fun i hi hn => h.fresh i hi (fun hc => hn (hp.mem_iff.1 hc))
    subR := fun i hi => hp.mem_iff.1 (h.subR i hi) }

theorem Inv.congrR {R' : List Nat} (h : Inv stage N D L R E K st) (hp : ∀ i, i ∈ R ↔ i ∈ R') : Inv stage N D L R' E K st :=
  { h with
    routed := fun i hi => by rw [h.routed i hi, hp]
    subR := fun i hi => h.subR i ((hp i).2 hi) }

/-- The invariant does not look at the slice nor at the waves. -/
theorem Inv.queues (h : Inv stage N D L R E K st) (s : σ) (c n : Wave) : Inv stage N D L R E K { st with slice := s, cur := c, nxt := n } :=
  ⟨h.nodupL, h.ltL, h.nodupK, h.subK, h.sizeN, h.originSrc, h.originLt, h.deps, h.cnt, h.cnt255, h.wait, h.fresh, h.rel, h.logLt, h.logRel, h.once, h.order, h.routed, h.subR, h.total, h.parent⟩

theorem Inv.blocks (hD : Static N D) (h : Inv stage N D L R E K st) {id b : Nat} (hid : id ∈ L) (hb : Before D (st.origin id) b) : b < N ∧ 0 < st.count b := by
  have key : ∀ {i c : Nat}, i ∈ L → c ∈ D (st.origin i) → c < N ∧ 0 < st.count c := by
    intro i c hi hc
    have h1 := (hD _ (h.originLt i (h.ltL i hi)) c hc).2
    refine ⟨h1, ?_⟩
    rw [h.cnt c h1]
    have := need_pos (f := fun i => D (st.origin i)) hi hc
    omega
  induction hb with
  | step h1 => exact key hid h1
  | tail _ h2 ih =>
    have h3 := (h.wait _ ih.1).1 ih.2
    refine key h3.1 ?_
    rw [h.originSrc _ ih.1]; exact h2

/-- The origin of a token is released. -/
theorem Inv.released (h : Inv stage N D L R E K st) {id : Nat} (hid : id ∈ K) : st.count (st.origin id) = 0 := by
  have hlt := h.ltL id (h.subK id hid)
  by_cases hN : id < N
  · rw [h.originSrc id hN]
    have := h.wait id hN
    by_cases hc : 0 < st.count id
    · exact absurd hid (this.1 hc).2
    · omega
  · exact h.rel id hlt (by omega)

theorem Inv.orderAppend (hD : Static N D) (h : Inv stage N D L R E K st) {id : Nat} (hid : id ∈ L) (i : Instr) (fs : List Instr) :
    (st.log ++ [Entry.mk id i fs]).Pairwise (fun e f => ¬ Before D (st.origin f.id) (st.origin e.id)) := by
  rw [List.pairwise_append]
  refine ⟨h.order, by simp, ?_⟩
  intro e he f hf hb
  rw [List.mem_singleton] at hf
  subst hf
  have h1 := h.blocks hD hid hb
  have h2 := h.logRel e he
  omega

theorem finals_append (log : List Entry) (e : Entry) (i : Nat) : finals (log ++ [e]) i = finals log i + (if e.id = i ∧ e.final = true then 1 else 0) := by
  unfold finals
  rw [List.countP_append]
  by_cases h : e.id = i ∧ e.final = true
  · rw [if_pos h]; simp [h.1, h.2]
  · rw [if_neg h]
    have : (decide (e.id = i) && e.final) = false := by
      by_cases h1 : e.id = i
      · have : e.final ≠ true := fun h2 => h ⟨h1, h2⟩
        simp [this]
      · simp [h1]
    simp [this]

/-- Showing an instruction that goes on. -/
theorem Inv.visitSelf (hD : Static N D) (h : Inv stage N D L R E K st) {id : Nat} (hid : id ∈ K) {r : Res σ} (hs : selfResult r = true) :
    Inv stage N D L R E K (visit st id r) := by
  have hf : (Entry.mk id r.instr r.followups).final = false := by
    unfold selfResult at hs; simp only [decide_eq_true_eq] at hs; simp [Entry.final, hs]
  refine { h with logLt := ?_, logRel := ?_, once := ?_, order := ?_, total := ?_, parent := ?_ }
  · intro e he
    simp only [visit, List.mem_append, List.mem_singleton] at he
    rcases he with he | rfl
    · exact h.logLt e he
    · exact h.ltL id (h.subK id hid)
  · intro e he
    simp only [visit, List.mem_append, List.mem_singleton] at he
    rcases he with he | rfl
    · exact h.logRel e he
    · exact h.released hid
  · intro i hi
    have := h.once i hi
    simp only [visit]
    rw [finals_append, if_neg (by simp [hf])]
    exact this
  · exact h.orderAppend hD (h.subK id hid) _ _
  · have := h.total
    simp only [visit]
    rw [spawned_append]
    simp only [spawned, hf]
    simpa using this
  · intro i hi hN
    obtain ⟨e, he, h1⟩ := h.parent i hi hN
    exact ⟨e, by simp [visit, he], h1⟩

/-- Showing an instruction that finishes without follow-ups. -/
theorem Inv.finish {id : Nat} (hD : Static N D) (h : Inv stage N D L R E (id :: K) st) {r : Res σ} (hR : id ∉ R) (hfs : r.followups = []) :
    Inv stage N D (L.erase id) R (st.deps id ++ E) K (visit st id r) := by
  have hK := List.nodup_cons.1 h.nodupK
  have hidL : id ∈ L := h.subK id (by simp)
  have hlt := h.ltL id hidL
  have hmem : ∀ i, i ∈ L.erase id ↔ i ≠ id ∧ i ∈ L := fun i => h.nodupL.mem_erase_iff
  have hf : (Entry.mk id r.instr r.followups).final = true := by simp [Entry.final, hfs]
  refine ⟨h.nodupL.erase _, ?_, hK.2, ?_, h.sizeN, h.originSrc, h.originLt, h.deps, ?_, h.cnt255, ?_, ?_, h.rel, ?_, ?_, ?_, h.orderAppend hD hidL _ _, h.routed, ?_, ?_, ?_⟩
  · intro i hi; exact h.ltL i ((hmem i).1 hi).2
  · intro i hi
    exact (hmem i).2 ⟨fun e => hK.1 (e ▸ hi), h.subK i (by simp [hi])⟩
  · intro j hj
    have := h.cnt j hj
    rw [need_erase hidL j] at this
    simp only [visit]
    rw [this, List.count_append, h.deps id hlt]
    omega
  · intro j hj
    have := h.wait j hj
    simp only [visit]
    rw [this, hmem j]
    simp only [List.mem_cons, not_or]
    constructor
    · rintro ⟨h1, h2, h3⟩; exact ⟨⟨h2, h1⟩, h3⟩
    · rintro ⟨⟨h2, h1⟩, h3⟩; exact ⟨h1, h2, h3⟩
  · intro i hi hn
    have := (hmem i).1 hi
    exact h.fresh i this.2 (by simp [this.1, hn])
  · intro e he
    simp only [visit, List.mem_append, List.mem_singleton] at he
    rcases he with he | rfl
    · exact h.logLt e he
    · exact hlt
  · intro e he
    simp only [visit, List.mem_append, List.mem_singleton] at he
    rcases he with he | rfl
    · exact h.logRel e he
    · exact h.released (by simp)
  · intro i hi
    have h1 := h.once i hi
    simp only [visit]
    rw [finals_append, hf, h1]
    by_cases hi' : i = id
    · subst hi'
      have h2 : i ∉ L.erase i := fun hc => ((hmem i).1 hc).1 rfl
      simp [hidL, h2]
    · have h2 : (i ∈ L.erase id) = (i ∈ L) := propext ⟨fun hc => ((hmem i).1 hc).2, fun hc => (hmem i).2 ⟨hi', hc⟩⟩
      have h3 : ¬ (id = i) := fun e => hi' e.symm
      simp [h2, h3]
  · intro i hi
    have := h.subR i hi
    rw [List.mem_cons] at this
    rcases this with rfl | h1
    · exact absurd hi hR
    · exact h1
  · have := h.total
    simp only [visit]
    rw [spawned_append]
    simp only [spawned, hf, hfs]
    simpa using this
  · intro i hi hN
    obtain ⟨e, he, h1⟩ := h.parent i hi hN
    exact ⟨e, by simp [visit, he], h1⟩

/-- The record of a follow-up is added. -/
def addRecord (st : St σ) (f : Instr) (deps : List Nat) (origin : Nat) : St σ :=
  { st with size := st.size + 1, instr := upd st.instr st.size f, deps := upd st.deps st.size deps, count := upd st.count st.size 0, origin := upd st.origin st.size origin }

/-- Showing an instruction that finishes with one follow-up. -/
theorem Inv.spawn {id : Nat} (hD : Static N D) (h : Inv stage N D L R E (id :: K) st) {r : Res σ} (hR : id ∉ R) {f : Instr} (hfs : r.followups = [f])
    (hself : selfResult r = false) (hst : stage f.op ≠ .routed) :
    Inv stage N D (st.size :: L.erase id) R E (st.size :: K) (addRecord (visit st id r) f (st.deps id) (st.origin id)) := by
  have hK := List.nodup_cons.1 h.nodupK
  have hidL : id ∈ L := h.subK id (by simp)
  have hlt := h.ltL id hidL
  have hmem : ∀ i, i ∈ L.erase id ↔ i ≠ id ∧ i ∈ L := fun i => h.nodupL.mem_erase_iff
  have hf : (Entry.mk id r.instr r.followups).final = true := by
    unfold selfResult at hself; simp only [decide_eq_false_iff_not] at hself; simp [Entry.final, hself]
  have hszL : st.size ∉ L := fun hc => Nat.lt_irrefl _ (h.ltL _ hc)
  have hN := h.sizeN
  have hup : ∀ {α : Type} (g : Nat → α) (v : α) {i : Nat}, i < st.size → upd g st.size v i = g i := fun g v i hi => upd_other g v (by omega)
  refine ⟨?_, ?_, ?_, ?_, ?_, ?_, ?_, ?_, ?_, ?_, ?_, ?_, ?_, ?_, ?_, ?_, ?_, ?_, ?_, ?_, ?_⟩
  · rw [List.nodup_cons]
    exact ⟨fun hc => hszL ((hmem _).1 hc).2, h.nodupL.erase _⟩
  · intro i hi
    simp only [addRecord, visit]
    rcases List.mem_cons.1 hi with rfl | hi
    · omega
    · have := h.ltL i ((hmem i).1 hi).2; omega
  · rw [List.nodup_cons]
    exact ⟨fun hc => hszL (h.subK _ (by simp [hc])), hK.2⟩
  · intro i hi
    rcases List.mem_cons.1 hi with rfl | hi
    · simp
    · exact List.mem_cons_of_mem _ ((hmem i).2 ⟨fun e => hK.1 (e ▸ hi), h.subK i (by simp [hi])⟩)
  · simp only [addRecord, visit]; omega
  · intro i hi
    simp only [addRecord, visit]
    rw [hup _ _ (by omega)]; exact h.originSrc i hi
  · intro i hi
    simp only [addRecord, visit] at hi ⊢
    by_cases hi' : i = st.size
    · subst hi'; rw [upd_same]; exact h.originLt id hlt
    · rw [hup _ _ (by omega)]; exact h.originLt i (by omega)
  · intro i hi
    simp only [addRecord, visit] at hi ⊢
    by_cases hi' : i = st.size
    · subst hi'; rw [upd_same, upd_same]; exact h.deps id hlt
    · rw [hup _ _ (by omega), hup _ _ (by omega)]; exact h.deps i (by omega)
  · intro j hj
    have := h.cnt j hj
    rw [need_erase hidL j] at this
    simp only [addRecord, visit]
    rw [hup _ _ (by omega), this]
    simp only [need, upd_same]
    rw [need_congr (f := fun i => D (upd st.origin st.size (st.origin id) i)) (g := fun i => D (st.origin i))]
    intro i hi
    have := h.ltL i ((hmem i).1 hi).2
    rw [hup _ _ this]
  · intro j hj
    simp only [addRecord, visit]
    rw [hup _ _ (by omega)]; exact h.cnt255 j hj
  · intro j hj
    have := h.wait j hj
    simp only [addRecord, visit]
    rw [hup _ _ (by omega), this]
    simp only [List.mem_cons, not_or, hmem j]
    constructor
    · rintro ⟨h1, h2, h3⟩; exact ⟨.inr ⟨h2, h1⟩, by omega, h3⟩
    · rintro ⟨h1, h2, h3⟩
      rcases h1 with h1 | h1
      · omega
      · exact ⟨h1.2, h1.1, h3⟩
  · intro i hi hn
    rcases List.mem_cons.1 hi with rfl | hi
    · simp at hn
    · have := (hmem i).1 hi
      simp only [List.mem_cons, not_or] at hn
      exact h.fresh i this.2 (by simp [this.1, hn.2])
  · intro i hi hNi
    simp only [addRecord, visit] at hi ⊢
    by_cases hi' : i = st.size
    · subst hi'
      rw [upd_same, hup _ _ (by have := h.originLt id hlt; omega)]
      exact h.released (by simp)
    · have h1 := h.originLt i (by omega)
      have e1 : upd st.origin st.size (st.origin id) i = st.origin i := hup _ _ (by omega)
      rw [e1, hup _ _ (by omega)]; exact h.rel i (by omega) hNi
  · intro e he
    simp only [addRecord, visit, List.mem_append, List.mem_singleton] at he ⊢
    rcases he with he | rfl
    · have := h.logLt e he; omega
    · simp only; omega
  · intro e he
    simp only [addRecord, visit, List.mem_append, List.mem_singleton] at he ⊢
    have h1 : e.id < st.size ∧ st.count (st.origin e.id) = 0 := by
      rcases he with he | rfl
      · exact ⟨h.logLt e he, h.logRel e he⟩
      · exact ⟨hlt, h.released (by simp)⟩
    have h2 := h.originLt _ h1.1
    have e1 : upd st.origin st.size (st.origin id) e.id = st.origin e.id := hup _ _ h1.1
    rw [e1, hup _ _ (by omega)]; exact h1.2
  · intro i hi
    simp only [addRecord, visit] at hi ⊢
    rw [finals_append, hf]
    by_cases hi' : i = st.size
    · subst hi'
      have : finals st.log st.size = 0 := by
        unfold finals
        rw [List.countP_eq_zero]
        intro e he
        have := h.logLt e he
        have : e.id ≠ st.size := by omega
        simp [this]
      rw [this, if_neg (by simp only [and_true]; omega)]
      simp
    · have h1 := h.once i (by omega)
      rw [h1]
      by_cases h4 : i = id
      · subst h4
        have h2 : i ∉ L.erase i := fun hc => ((hmem i).1 hc).1 rfl
        simp [hidL, h2, hi']
      · have h2 : (i ∈ L.erase id) = (i ∈ L) := propext ⟨fun hc => ((hmem i).1 hc).2, fun hc => (hmem i).2 ⟨h4, hc⟩⟩
        have h3 : ¬ (id = i) := fun e => h4 e.symm
        simp [h2, h3, hi']
  · have h1 := h.orderAppend hD hidL r.instr r.followups
    simp only [addRecord, visit]
    refine List.Pairwise.imp_of_mem ?_ h1
    intro e g he hg hb
    have lt : ∀ x ∈ st.log ++ [Entry.mk id r.instr r.followups], x.id < st.size := by
      intro x hx
      rw [List.mem_append, List.mem_singleton] at hx
      rcases hx with hx | rfl
      · exact h.logLt x hx
      · exact hlt
    rw [hup _ _ (lt e he), hup _ _ (lt g hg)]; exact hb
  · intro i hi
    simp only [addRecord, visit] at hi ⊢
    by_cases hi' : i = st.size
    · subst hi'
      rw [upd_same]
      refine ⟨fun hc => absurd hc hst, fun hc => absurd (h.subK _ (h.subR _ hc)) hszL⟩
    · rw [hup _ _ (by omega)]; exact h.routed i (by omega)
  · intro i hi
    have := h.subR i hi
    rw [List.mem_cons] at this
    rcases this with rfl | h1
    · exact absurd hi hR
    · simp [h1]
  · have := h.total
    simp only [addRecord, visit]
    rw [spawned_append]
    simp only [spawned]
    rw [hf, hfs]
    simp only [if_true, List.length_singleton]
    omega
  · intro i hi hN
    simp only [addRecord, visit] at hi ⊢
    by_cases hi' : i = st.size
    · subst hi'
      refine ⟨⟨id, r.instr, r.followups⟩, by simp, hf, by simp [hfs], hlt, ?_⟩
      rw [upd_same]; exact hup _ _ hlt
    · obtain ⟨e, he, h1, h2, h3, h4⟩ := h.parent i (by omega) hN
      refine ⟨e, by simp [he], h1, h2, h3, ?_⟩
      rw [hup _ _ (by omega), hup _ _ (by omega)]; exact h4

/-- A dependency is taken off a waiting instruction. -/
theorem Inv.decrement {j : Nat} (h : Inv stage N D L R (j :: E) K st) (hj : j < N) :
    (st.count j + 255) % 256 = st.count j - 1 ∧ 0 < st.count j ∧ j ∈ L ∧ j ∉ K ∧
    Inv stage N D L R E (if st.count j - 1 = 0 then j :: K else K) { st with count := upd st.count j (st.count j - 1) } := by
  have hc := h.cnt j hj
  have h255 := h.cnt255 j hj
  rw [List.count_cons_self] at hc
  have hpos : 0 < st.count j := by omega
  have hw := (h.wait j hj).1 hpos
  have hzero : ∀ i, st.count i = 0 → upd st.count j (st.count j - 1) i = 0 := by
    intro i hi
    by_cases e : i = j
    · subst e; rw [upd_same]; omega
    · rw [upd_other _ _ e]; exact hi
  refine ⟨by omega, hpos, hw.1, hw.2, ?_⟩
  have hcnt : ∀ i, i < N → upd st.count j (st.count j - 1) i = need (fun i => D (st.origin i)) L i + E.count i := by
    intro i hi
    have h1 := h.cnt i hi
    by_cases e : i = j
    · subst e; rw [upd_same]; omega
    · rw [upd_other _ _ e, h1, List.count_cons_of_ne (fun h => e h.symm)]
  have h255' : ∀ i, i < N → upd st.count j (st.count j - 1) i ≤ 255 := by
    intro i hi
    have h1 := h.cnt255 i hi
    by_cases e : i = j
    · subst e; rw [upd_same]; omega
    · rw [upd_other _ _ e]; exact h1
  by_cases hz : st.count j - 1 = 0
  · rw [if_pos hz]
    refine { h with nodupK := ?_, subK := ?_, cnt := hcnt, cnt255 := h255', wait := ?_, fresh := ?_, rel := ?_, logRel := ?_, subR := ?_ }
    · exact List.nodup_cons.2 ⟨hw.2, h.nodupK⟩
    · intro i hi
      rcases List.mem_cons.1 hi with rfl | hi
      · exact hw.1
      · exact h.subK i hi
    · intro i hi
      by_cases e : i = j
      · subst e; simp only [upd_same]; simp [hz]
      · simp only; rw [upd_other _ _ e, h.wait i hi]; simp [e]
    · intro i hi hn
      exact h.fresh i hi (fun hc => hn (by simp [hc]))
    · intro i hi hN; exact hzero _ (h.rel i hi hN)
    · intro e he; exact hzero _ (h.logRel e he)
    · intro i hi; exact List.mem_cons_of_mem _ (h.subR i hi)
  · rw [if_neg hz]
    refine { h with cnt := hcnt, cnt255 := h255', wait := ?_, rel := ?_, logRel := ?_ }
    · intro i hi
      by_cases e : i = j
      · subst e; simp only [upd_same]
        exact ⟨fun _ => hw, fun _ => by omega⟩
      · simp only; rw [upd_other _ _ e]; exact h.wait i hi
    · intro i hi hN; exact hzero _ (h.rel i hi hN)
    · intro e he; exact hzero _ (h.logRel e he)

/-- An instruction is replaced by its version after an attempt. -/
theorem Inv.setInstr (h : Inv stage N D L R E K st) (id : Nat) (i : Instr) (s : σ) (hR : id ∉ R) (hs : stage i.op ≠ .routed) :
    Inv stage N D L R E K { st with slice := s, instr := upd st.instr id i } := by
  refine { h with routed := ?_ }
  intro k hk
  by_cases e : k = id
  · subst e; simp only [upd_same]; exact ⟨fun hc => absurd hc hs, fun hc => absurd hc hR⟩
  · simp only; rw [upd_other _ _ e]; exact h.routed k hk

theorem Inv.setRouted (h : Inv stage N D L R E K st) (id : Nat) (i : Instr) (s : σ) (hK : id ∈ K) (hs : stage i.op = .routed) :
    Inv stage N D L (R ++ [id]) E K { st with slice := s, instr := upd st.instr id i } := by
  refine { h with routed := ?_, subR := ?_ }
  · intro k hk
    by_cases e : k = id
    · subst e; simp only [upd_same]; simp [hs]
    · simp only; rw [upd_other _ _ e, h.routed k hk]; simp [e]
  · intro k hk
    rw [List.mem_append, List.mem_singleton] at hk
    rcases hk with hk | rfl
    · exact h.subR k hk
    · exact hK

/-- The unfinished records. -/
def live (L : List Nat) (st : St σ) : List (Nat × Instr) := L.map fun i => (st.origin i, st.instr i)

/-- The invariant together with a statement about the slice and the unfinished instructions. -/
structure InvA (Φ : σ → List (Nat × Instr) → Prop) (stage : Operation → Stage) (N : Nat) (D : Nat → List Nat) (L R E K : List Nat) (st : St σ) : Prop
    extends Inv stage N D L R E K st where
  amb : Φ st.slice (live L st)

theorem live_erase {id : Nat} (h : id ∈ L) : (live L st).Perm ((st.origin id, st.instr id) :: live (L.erase id) st) :=
  (List.perm_cons_erase h).map _

theorem live_upd {id : Nat} (hn : L.Nodup) (i : Instr) (s : σ) : live (L.erase id) { st with slice := s, instr := upd st.instr id i } = live (L.erase id) st := by
  unfold live
  apply List.map_congr_left
  intro x hx
  rw [hn.mem_erase_iff] at hx
  dsimp only
  rw [upd_other _ _ hx.1]

theorem InvA.perm {Φ : σ → List (Nat × Instr) → Prop} {K' : List Nat} (h : InvA Φ stage N D L R E K st) (hp : K.Perm K') : InvA Φ stage N D L R E K' st :=
  ⟨h.toInv.perm hp, h.amb⟩

theorem InvA.congrR {Φ : σ → List (Nat × Instr) → Prop} {R' : List Nat} (h : InvA Φ stage N D L R E K st) (hp : ∀ i, i ∈ R ↔ i ∈ R') : InvA Φ stage N D L R' E K st :=
  ⟨h.toInv.congrR hp, h.amb⟩

theorem InvA.queues {Φ : σ → List (Nat × Instr) → Prop} (h : InvA Φ stage N D L R E K st) (c n : Wave) : InvA Φ stage N D L R E K { st with cur := c, nxt := n } :=
  ⟨h.toInv.queues st.slice c n, h.amb⟩

theorem InvA.visitSelf {Φ : σ → List (Nat × Instr) → Prop} (hD : Static N D) (h : InvA Φ stage N D L R E K st) {id : Nat} (hid : id ∈ K) {r : Res σ} (hs : selfResult r = true) :
    InvA Φ stage N D L R E K (visit st id r) :=
  ⟨h.toInv.visitSelf hD hid hs, h.amb⟩

theorem InvA.decrement {Φ : σ → List (Nat × Instr) → Prop} {j : Nat} (h : InvA Φ stage N D L R (j :: E) K st) (hj : j < N) :
    (st.count j + 255) % 256 = st.count j - 1 ∧ 0 < st.count j ∧ j ∈ L ∧ j ∉ K ∧
    InvA Φ stage N D L R E (if st.count j - 1 = 0 then j :: K else K) { st with count := upd st.count j (st.count j - 1) } := by
  obtain ⟨h1, h2, h3, h4, h5⟩ := h.toInv.decrement hj
  exact ⟨h1, h2, h3, h4, h5, h.amb⟩

theorem Inv.setCompiled {id : Nat} (h : Inv stage N D L (id :: R) E K st) (i : Instr) (s : σ) (hn : id ∉ R) (hs : stage i.op ≠ .routed) :
    Inv stage N D L R E K { st with slice := s, instr := upd st.instr id i } := by
  refine { h with routed := ?_, subR := ?_ }
  · intro k hk
    by_cases e : k = id
    · subst e; simp only [upd_same]; exact ⟨fun hc => absurd hc hs, fun hc => absurd hc hn⟩
    · simp only; rw [upd_other _ _ e, h.routed k hk]; simp [e]
  · intro k hk
    exact h.subR k (List.mem_cons_of_mem _ hk)

end

end Verif.Wave
