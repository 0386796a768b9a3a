import Verif.WaveSteps

/-! # Wave scheduler: what the constructor builds -/

namespace Verif.Wave

theorem osetAll_nodup {s xs : List Nat} (h : s.Nodup) : (osetAll s xs).Nodup := by
  unfold osetAll
  induction xs generalizing s with
  | nil => exact h
  | cons a xs ih => exact ih (nodup_oset h)

theorem deps_nodup {i : Instr} (h : i.clients.Nodup) : i.deps.Nodup := osetAll_nodup (osetAll_nodup h)

theorem link_spec (id : Nat) (ps : List Nat) : ∀ (deps : Nat → List Nat) (last : Nat → Option Nat) (n : Nat), ps.Nodup →
    (∀ a j, j ∈ deps a → a < j ∧ j ≤ id ∧ a < id) → n = need deps (List.range id) id → (∀ p ∈ ps, ∀ k, last p = some k → k < id) →
    ∀ deps' last' n', linkPatches id ps deps last n = (deps', last', n') →
    (∀ a j, j ∈ deps' a → a < j ∧ j ≤ id ∧ a < id) ∧ n' = need deps' (List.range id) id ∧ n' ≤ n + ps.length ∧
    (∀ j, j ≠ id → need deps' (List.range id) j = need deps (List.range id) j) ∧
    (∀ a x, x ∈ deps a → x ∈ deps' a) ∧ (∀ p, last' p = if p ∈ ps then some id else last p) ∧
    (∀ p ∈ ps, ∀ k, last p = some k → id ∈ deps' k) := by
  induction ps with
  | nil =>
    intro deps last n _ h1 h2 _ deps' last' n' h
    simp only [linkPatches, Prod.mk.injEq] at h
    obtain ⟨rfl, rfl, rfl⟩ := h
    exact ⟨h1, h2, by simp, fun _ _ => rfl, fun _ _ h => h, by simp, by simp⟩
  | cons p ps ih =>
    intro deps last n hnd h1 h2 h3 deps' last' n' h
    have hnd' := List.nodup_cons.1 hnd
    have hlast : ∀ q ∈ ps, ∀ k, upd last p (some id) q = some k → k < id := by
      intro q hq k hk
      have : q ≠ p := fun e => hnd'.1 (e ▸ hq)
      rw [upd_other _ _ this] at hk
      exact h3 q (by simp [hq]) k hk
    have hl : ∀ (l : Nat → Option Nat), (∀ q, l q = if q ∈ ps then some id else upd last p (some id) q) → ∀ q, l q = if q ∈ p :: ps then some id else last q := by
      intro l hl q
      rw [hl q]
      by_cases hq : q ∈ ps
      · simp [hq]
      · by_cases e : q = p
        · subst e; simp
        · rw [upd_other _ _ e]; simp [hq, e]
    unfold linkPatches at h
    cases hp : last p with
    | none =>
      rw [hp] at h
      simp only at h
      obtain ⟨r1, r2, r3, r4, r5, r6, r7⟩ := ih deps _ n hnd'.2 h1 h2 hlast _ _ _ h
      refine ⟨r1, r2, by simp; omega, r4, r5, hl _ r6, ?_⟩
      intro q hq k hk
      rcases List.mem_cons.1 hq with rfl | hq
      · rw [hp] at hk; cases hk
      · refine r7 q hq k ?_
        rw [upd_other _ _ (show q ≠ p from fun e => hnd'.1 (e ▸ hq))]; exact hk
    | some k =>
      rw [hp] at h
      simp only at h
      have hk := h3 p (by simp) k hp
      have hkr : k ∈ List.range id := by simp [hk]
      have hnr := List.nodup_range (n := id)
      obtain ⟨r1, r2, r3, r4, r5, r6, r7⟩ := ih (upd deps k (deps k ++ [id])) _ (n + 1) hnd'.2 (by
          intro a j hj
          by_cases e : a = k
          · subst e
            rw [upd_same, List.mem_append, List.mem_singleton] at hj
            rcases hj with hj | rfl
            · exact h1 a j hj
            · omega
          · rw [upd_other _ _ e] at hj; exact h1 a j hj)
        (by rw [need_upd hnr hkr, h2]; simp) hlast _ _ _ h
      have hsub : ∀ a x, x ∈ deps a → x ∈ upd deps k (deps k ++ [id]) a := by
        intro a x hx
        by_cases e : a = k
        · subst e; rw [upd_same]; simp [hx]
        · rw [upd_other _ _ e]; exact hx
      refine ⟨r1, r2, by simp; omega, ?_, fun a x hx => r5 a x (hsub a x hx), hl _ r6, ?_⟩
      · intro j hj
        rw [r4 j hj, need_upd hnr hkr]; simp [hj]
      · intro q hq k' hk'
        rcases List.mem_cons.1 hq with rfl | hq
        · rw [hp] at hk'
          cases hk'
          refine r5 k id ?_
          rw [upd_same]; simp
        · refine r7 q hq k' ?_
          rw [upd_other _ _ (show q ≠ p from fun e => hnd'.1 (e ▸ hq))]; exact hk'

/-- What holds after some instructions have been read. -/
structure Built {σ : Type} (done : List Instr) (st : St σ) (last : Nat → Option Nat) : Prop where
  size : st.size = done.length
  instr : ∀ i (h : i < done.length), st.instr i = done[i]
  origin : ∀ i, i < st.size → st.origin i = i
  lt : ∀ a j, j ∈ st.deps a → a < j ∧ j < st.size
  cnt : ∀ j, j < st.size → st.count j = need st.deps (List.range st.size) j
  cnt255 : ∀ j, j < st.size → st.count j ≤ 255
  headsNodup : st.cur.heads.Nodup
  heads : ∀ i, i ∈ st.cur.heads ↔ i < st.size ∧ st.count i = 0
  prox : st.cur.prox = []
  deferred : st.cur.deferred = []
  nxt : st.nxt = {}
  log : st.log = []
  lastLt : ∀ p k, last p = some k → k < st.size
  reach : ∀ (a p : Nat) (h : a < done.length), p ∈ done[a].deps → ∃ b, last p = some b ∧ (a = b ∨ Before st.deps a b)
  chain : ∀ (a b p : Nat) (ha : a < done.length) (hb : b < done.length), a < b → p ∈ done[a].deps → p ∈ done[b].deps → Before st.deps a b

theorem addInstr_built {σ : Type} {done : List Instr} {st : St σ} {last : Nat → Option Nat} (h : Built done st last) (i : Instr)
    (hc : i.clients.Nodup) (hl : i.deps.length ≤ 255) : Built (done ++ [i]) (addInstr st last i).1 (addInstr st last i).2 := by
  cases hlink : linkPatches st.size i.deps st.deps last 0 with
  | mk deps' r =>
    obtain ⟨last', n'⟩ := r
    have hstart : need st.deps (List.range st.size) st.size = 0 := need_zero (by
      intro a _ hm
      exact Nat.lt_irrefl _ (h.lt a _ hm).2)
    obtain ⟨r1, r2, r3, r4, r5, r6, r7⟩ := link_spec st.size i.deps st.deps last 0 (deps_nodup hc)
      (by intro a j hj; have := h.lt a j hj; omega) hstart.symm (fun p _ k hk => h.lastLt p k hk) _ _ _ hlink
    have e : addInstr st last i = ({ st with
        size := st.size + 1, instr := upd st.instr st.size i, deps := deps', count := upd st.count st.size (n' % 256), origin := upd st.origin st.size st.size,
        cur := if n' = 0 then { st.cur with heads := st.cur.heads ++ [st.size] } else st.cur }, last') := by
      unfold addInstr; simp only [hlink]
    rw [e]
    have hn : n' % 256 = n' := by omega
    have hsz := h.size
    have hdz : deps' st.size = [] := by
      cases hd : deps' st.size with
      | nil => rfl
      | cons x l => have := r1 st.size x (by rw [hd]; simp); omega
    have hneed : ∀ j, need deps' (List.range (st.size + 1)) j = need deps' (List.range st.size) j := by
      intro j
      rw [List.range_succ, need_append]
      simp [need, hdz]
    have hnh : st.size ∉ st.cur.heads := fun hc => Nat.lt_irrefl _ ((h.heads _).1 hc).1
    have heads_eq : (if n' = 0 then { st.cur with heads := st.cur.heads ++ [st.size] } else st.cur).heads = if n' = 0 then st.cur.heads ++ [st.size] else st.cur.heads := by
      split <;> rfl
    refine ⟨?_, ?_, ?_, ?_, ?_, ?_, ?_, ?_, ?_, ?_, h.nxt, h.log, ?_, ?_, ?_⟩
    · simp [hsz]
    · intro k hk
      simp only
      by_cases e : k = st.size
      · subst e; rw [upd_same]; simp [hsz]
      · rw [upd_other _ _ e, List.getElem_append_left (by simp at hk; omega)]
        exact h.instr k _
    · intro k hk
      simp only at hk ⊢
      by_cases e : k = st.size
      · subst e; rw [upd_same]
      · rw [upd_other _ _ e]; exact h.origin k (by omega)
    · intro a j hj
      have := r1 a j hj
      simp only
      omega
    · intro j hj
      simp only at hj ⊢
      rw [hneed]
      by_cases e : j = st.size
      · subst e; rw [upd_same, hn]; exact r2
      · rw [upd_other _ _ e, r4 j e]; exact h.cnt j (by omega)
    · intro j hj
      simp only at hj ⊢
      by_cases e : j = st.size
      · subst e; rw [upd_same]; omega
      · rw [upd_other _ _ e]; exact h.cnt255 j (by omega)
    · simp only
      rw [heads_eq]
      split
      · rw [List.nodup_append]
        refine ⟨h.headsNodup, by simp, ?_⟩
        intro a ha b hb hab
        rw [List.mem_singleton] at hb
        exact hnh (by rw [← hb, ← hab]; exact ha)
      · exact h.headsNodup
    · intro k
      simp only
      rw [heads_eq]
      by_cases e : k = st.size
      · subst e
        rw [upd_same, hn]
        by_cases hz : n' = 0
        · rw [if_pos hz]; simp [hz]
        · rw [if_neg hz]; simp [hz, hnh]
      · rw [upd_other _ _ e]
        have := h.heads k
        split
        · simp only [List.mem_append, List.mem_singleton, e, or_false]
          rw [this]
          constructor
          · intro ⟨h1, h2⟩; exact ⟨by omega, h2⟩
          · intro ⟨h1, h2⟩; exact ⟨by omega, h2⟩
        · rw [this]
          constructor
          · intro ⟨h1, h2⟩; exact ⟨by omega, h2⟩
          · intro ⟨h1, h2⟩; exact ⟨by omega, h2⟩
    · simp only; split
      · exact h.prox
      · exact h.prox
    · simp only; split
      · exact h.deferred
      · exact h.deferred
    · intro p k hk
      simp only at hk ⊢
      rw [r6 p] at hk
      split at hk
      · cases hk; omega
      · have := h.lastLt p k hk; omega
    · intro a p ha hp
      simp only
      simp only [List.length_append, List.length_singleton] at ha
      by_cases e : a = st.size
      · subst e
        have : (done ++ [i])[st.size]'(by simp; omega) = i := by simp [hsz]
        rw [this] at hp
        exact ⟨st.size, by rw [r6 p, if_pos hp], .inl rfl⟩
      · rw [List.getElem_append_left (by omega)] at hp
        obtain ⟨b, hb, hr⟩ := h.reach a p (by omega) hp
        by_cases hpi : p ∈ i.deps
        · refine ⟨st.size, by rw [r6 p, if_pos hpi], .inr ?_⟩
          have hbd := r7 p hpi b hb
          rcases hr with rfl | hr
          · exact .step hbd
          · exact .tail (hr.mono r5) hbd
        · refine ⟨b, by rw [r6 p, if_neg hpi]; exact hb, ?_⟩
          rcases hr with rfl | hr
          · exact .inl rfl
          · exact .inr (hr.mono r5)
    · intro a b p ha hb hab hpa hpb
      simp only
      simp only [List.length_append, List.length_singleton] at ha hb
      rw [List.getElem_append_left (by omega)] at hpa
      by_cases e : b = st.size
      · subst e
        have : (done ++ [i])[st.size]'(by simp; omega) = i := by simp [hsz]
        rw [this] at hpb
        obtain ⟨k, hk, hr⟩ := h.reach a p (by omega) hpa
        have hbd := r7 p hpb k hk
        rcases hr with rfl | hr
        · exact .step hbd
        · exact .tail (hr.mono r5) hbd
      · rw [List.getElem_append_left (by omega)] at hpb
        exact (h.chain a b p (by omega) (by omega) hab hpa hpb).mono r5

theorem addAll_built {σ : Type} (prog : List Instr) : ∀ {done : List Instr} {st : St σ} {last : Nat → Option Nat}, Built done st last →
    (∀ i ∈ prog, i.clients.Nodup ∧ i.deps.length ≤ 255) → ∃ last', Built (done ++ prog) (addAll st last prog) last' := by
  induction prog with
  | nil => intro done st last h _; exact ⟨last, by simpa [addAll] using h⟩
  | cons i prog ih =>
    intro done st last h hp
    have h1 := addInstr_built h i (hp i (by simp)).1 (hp i (by simp)).2
    obtain ⟨l, h2⟩ := ih h1 (fun k hk => hp k (by simp [hk]))
    exact ⟨l, by simpa [addAll] using h2⟩

theorem start_built {σ : Type} (slice : σ) (prog : List Instr) (hp : ∀ i ∈ prog, i.clients.Nodup ∧ i.deps.length ≤ 255) :
    ∃ last, Built prog (start slice prog) last := by
  have h0 : Built [] ({ slice := slice, size := 0, instr := fun _ => { op := .declare [] }, deps := fun _ => [], count := fun _ => 0, origin := fun _ => 0 } : St σ) (fun _ => none) := by
    refine ⟨rfl, ?_, ?_, ?_, ?_, ?_, ?_, ?_, rfl, rfl, rfl, rfl, ?_, ?_, ?_⟩ <;> simp
  obtain ⟨l, h⟩ := addAll_built prog h0 hp
  rw [List.nil_append] at h
  exact ⟨l, h⟩

theorem start_static {σ : Type} (slice : σ) (prog : List Instr) (hp : ∀ i ∈ prog, i.clients.Nodup ∧ i.deps.length ≤ 255) :
    Static prog.length (start slice prog).deps := by
  obtain ⟨l, h⟩ := start_built slice prog hp
  intro a _ j hj
  have := h.lt a j hj
  rw [h.size] at this
  exact this

theorem start_chained {σ : Type} (slice : σ) (prog : List Instr) (hp : ∀ i ∈ prog, i.clients.Nodup ∧ i.deps.length ≤ 255) :
    Chained prog prog.length (start slice prog).deps := by
  obtain ⟨l, h⟩ := start_built slice prog hp
  intro a b hab hb hn x y hx hy p hpx hpy
  obtain ⟨ha, rfl⟩ := List.getElem?_eq_some_iff.1 hx
  obtain ⟨hb, rfl⟩ := List.getElem?_eq_some_iff.1 hy
  exact hn (h.chain a b p ha hb hab hpx hpy)

theorem start_live {σ : Type} (slice : σ) (prog : List Instr) (hp : ∀ i ∈ prog, i.clients.Nodup ∧ i.deps.length ≤ 255) :
    live (List.range (start slice prog).size) (start slice prog) = indexed prog := by
  obtain ⟨l, h⟩ := start_built slice prog hp
  have hsz := h.size
  refine List.ext_getElem (by simp [live, indexed, hsz]) ?_
  intro i h1 h2
  have hi : i < prog.length := by simpa [indexed] using h2
  simp [live, indexed, h.origin i (by omega), h.instr i hi]

theorem start_slice {σ : Type} (slice : σ) (prog : List Instr) : (start slice prog).slice = slice := by
  have : ∀ (prog : List Instr) (st : St σ) (last : Nat → Option Nat), (addAll st last prog).slice = st.slice := by
    intro prog
    induction prog with
    | nil => intro st last; rfl
    | cons i prog ih => intro st last; rw [addAll, ih]; rfl
  exact this prog _ _

theorem start_between {σ : Type} {stage : Operation → Stage} {Φ : σ → List (Nat × Instr) → Prop} (slice : σ) (prog : List Instr) (hp : ∀ i ∈ prog, i.clients.Nodup ∧ i.deps.length ≤ 255)
    (hs : ∀ i ∈ prog, stage i.op = .plain) (hΦ : Φ slice (indexed prog)) : Between Φ stage prog.length (start slice prog).deps (start slice prog) := by
  obtain ⟨l, h⟩ := start_built slice prog hp
  have hsz := h.size
  refine ⟨⟨List.range (start slice prog).size, ?_, by rw [start_live slice prog hp, start_slice]; exact hΦ⟩, h.deferred, h.nxt⟩
  rw [h.prox, List.nil_append]
  have hneed : ∀ j, need (fun i => (start slice prog).deps ((start slice prog).origin i)) (List.range (start slice prog).size) j = need (start slice prog).deps (List.range (start slice prog).size) j := by
    intro j
    refine need_congr ?_ j
    intro i hi
    rw [h.origin i (by simpa using hi)]
  refine ⟨List.nodup_range, by simp, h.headsNodup, ?_, by omega, ?_, ?_, ?_, ?_, ?_, ?_, ?_, ?_, ?_, ?_, ?_, ?_, ?_, ?_, ?_, ?_⟩
  · intro i hi; simp [((h.heads i).1 hi).1]
  · intro i hi; exact h.origin i (by omega)
  · intro i hi; rw [h.origin i hi]; omega
  · intro i hi; rw [h.origin i hi]
  · intro j hj; rw [hneed]; simpa using h.cnt j (by omega)
  · intro j hj; exact h.cnt255 j (by omega)
  · intro j hj
    rw [h.heads j]
    simp only [List.mem_range]
    omega
  · intro i hi _; simp at hi; omega
  · intro i hi hN; omega
  · rw [h.log]; simp
  · rw [h.log]; simp
  · intro i hi; rw [h.log]; simp [finals, hi]
  · rw [h.log]; simp
  · intro i hi
    rw [h.instr i (by omega)]
    have := hs _ (List.getElem_mem (show i < prog.length by omega))
    simp [this]
  · simp
  · rw [h.log]; simp [spawned]; omega
  · intro i hi hN; omega

end Verif.Wave
