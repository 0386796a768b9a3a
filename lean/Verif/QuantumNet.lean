import Verif.QuantumEnds

/-!
# Orders in which the links of a path can be used: lemmas

Every cell between the ends of the path is made by one of its two links and later measured away by the other.
-/

namespace Verif.Quantum

/-- The roles of the two cells of a link, and when it is used. -/
structure Spot where
  lo : Role
  hi : Role
  τ : Nat

/-- The links between the cells `0` to `N`, used in the order `ks`. -/
structure Net (N : Nat) (cell : Nat → Cell) (ks : List Nat) (F : Nat → Spot) : Prop where
  perm : ks.Perm (List.range N)
  sorted : ks.Pairwise fun a b => (F a).τ ≤ (F b).τ
  inj : ∀ i j, i ≤ N → j ≤ N → cell i = cell j → i = j
  inner : ∀ j, j + 1 < N → (F j).hi = .made ∧ (F (j + 1)).lo = .gone ∧ (F j).τ < (F (j + 1)).τ ∨ (F j).hi = .gone ∧ (F (j + 1)).lo = .made ∧ (F (j + 1)).τ < (F j).τ

def lk (cell : Nat → Cell) (F : Nat → Spot) (ι : Nat → LocalInstr) (k : Nat) : Link := ⟨cell k, cell (k + 1), (F k).lo, (F k).hi, ι k⟩

theorem ready_of : ∀ {ls : List Link} {live : Cell → Bool} {D : List Cell}, (∀ pre l post, ls = pre ++ l :: post → (∀ q ∈ l.gone, finalLive pre live q = true) ∧
    (∀ q ∈ l.made, finalLive pre live q = false ∧ q ∉ finalD pre D) ∧ (∀ q ∈ l.kept, finalLive pre live q = true)) → Ready ls live D
  | [], _, _, _ => trivial
  | l :: ls, live, D, h => by
    obtain ⟨h1, h2, h3⟩ := h [] l ls rfl
    exact ⟨h1, h2, h3, ready_of fun pre l' post e => h (l :: pre) l' post (by rw [e]; rfl)⟩

theorem finalLive_append : ∀ (xs ys : List Link) (live : Cell → Bool), finalLive (xs ++ ys) live = finalLive ys (finalLive xs live)
  | [], _, _ => rfl
  | _ :: xs, ys, _ => finalLive_append xs ys _

theorem finalLive_none {q : Cell} : ∀ {ls : List Link} {live : Cell → Bool}, (∀ l ∈ ls, q ∉ l.gone ∧ q ∉ l.made) → finalLive ls live q = live q
  | [], _, _ => rfl
  | l :: ls, live, h => by
    rw [finalLive, finalLive_none fun l' hl' => h l' (List.mem_cons_of_mem _ hl')]
    exact after_other (h l (by simp)).1 (h l (by simp)).2

theorem finalLive_made {q : Cell} {xs ys : List Link} {l : Link} {live : Cell → Bool} (h1 : q ∈ l.made) (h2 : ∀ l ∈ ys, q ∉ l.gone ∧ q ∉ l.made) :
    finalLive (xs ++ l :: ys) live q = true := by
  rw [finalLive_append, finalLive, finalLive_none h2]
  exact after_made h1

theorem mem_finalD {q : Cell} : ∀ {ls : List Link} {D : List Cell}, q ∈ finalD ls D ↔ q ∈ D ∨ ∃ l ∈ ls, q ∈ l.gone
  | [], D => by simp [finalD]
  | l :: ls, D => by
    rw [finalD, mem_finalD, List.mem_append]
    simp only [List.mem_cons]
    constructor
    · rintro ((h | h) | ⟨l', h1, h2⟩)
      · exact .inr ⟨l, .inl rfl, h⟩
      · exact .inl h
      · exact .inr ⟨l', .inr h1, h2⟩
    · rintro (h | ⟨l', rfl | h1, h2⟩)
      · exact .inl (.inr h)
      · exact .inl (.inl h2)
      · exact .inr ⟨l', h1, h2⟩

section
variable {N : Nat} {cell : Nat → Cell} {ks : List Nat} {F : Nat → Spot} {ι : Nat → LocalInstr}

theorem Net.nodup (h : Net N cell ks F) : ks.Nodup := h.perm.nodup_iff.2 List.nodup_range

theorem Net.mem (h : Net N cell ks F) {k : Nat} : k ∈ ks ↔ k < N := by rw [h.perm.mem_iff, List.mem_range]

theorem mem_role {t : Role} {q : Cell} {k : Nat} : q ∈ pick t (lk cell F ι k).u (lk cell F ι k).v (lk cell F ι k).r1 (lk cell F ι k).r2 ↔
    ((F k).lo = t ∧ q = cell k) ∨ ((F k).hi = t ∧ q = cell (k + 1)) := by
  rw [mem_pick]; rfl

/-- A cell between two links is touched only by them. -/
theorem Net.touch (h : Net N cell ks F) {j k : Nat} (hj : j ≤ N) (hk : k < N) (hq : cell j = cell k ∨ cell j = cell (k + 1)) : j = k ∨ j = k + 1 :=
  hq.imp (h.inj _ _ hj (by omega)) (h.inj _ _ hj (by omega))

theorem split_map {f : Nat → Link} {pre post : List Link} {l : Link} (h : ks.map f = pre ++ l :: post) :
    ∃ ps k qs, ks = ps ++ k :: qs ∧ pre = ps.map f ∧ l = f k ∧ post = qs.map f := by
  obtain ⟨ps, r, e, e1, e2⟩ := List.map_eq_append_iff.1 h
  match r, e2 with
  | k :: qs, e2 =>
    simp only [List.map_cons, List.cons.injEq] at e2
    exact ⟨ps, k, qs, e, e1.symm, e2.1.symm, e2.2.symm⟩

variable (h : Net N cell ks F)
include h

theorem Net.split {ps qs : List Nat} {k : Nat} (e : ks = ps ++ k :: qs) : k < N ∧ (∀ j ∈ ps, j ≠ k ∧ (F j).τ ≤ (F k).τ) ∧ (∀ j, j < N → j ≠ k → (F j).τ < (F k).τ → j ∈ ps) ∧
    (∀ j ∈ ps, j < N) ∧ ps.Nodup := by
  have hn := h.nodup
  have hs := h.sorted
  rw [e] at hn hs
  have hm : ∀ j, j ∈ ps ∨ j = k ∨ j ∈ qs ↔ j < N := fun j => by rw [← h.mem, e]; simp
  rw [List.nodup_append] at hn
  rw [List.pairwise_append, List.pairwise_cons] at hs
  refine ⟨(hm k).1 (.inr (.inl rfl)), fun j hj => ⟨hn.2.2 j hj k (by simp), hs.2.2 j hj k (by simp)⟩, fun j hj hne hlt => ?_, fun j hj => (hm j).1 (.inl hj), hn.1⟩
  rcases (hm j).2 hj with h1 | h1 | h1
  · exact h1
  · exact absurd h1 hne
  · have := hs.2.1.1 j h1; omega

theorem Net.notTouched {q : Cell} {ps : List Nat} (hps : ∀ j ∈ ps, q ≠ cell j ∧ q ≠ cell (j + 1)) : ∀ l ∈ ps.map (lk cell F ι), q ∉ l.gone ∧ q ∉ l.made := by
  intro l hl
  obtain ⟨j, hj, rfl⟩ := List.mem_map.1 hl
  have := hps j hj
  constructor <;> intro hm
  · rcases mem_role.1 hm with ⟨-, e⟩ | ⟨-, e⟩
    · exact this.1 e
    · exact this.2 e
  · rcases mem_role.1 hm with ⟨-, e⟩ | ⟨-, e⟩
    · exact this.1 e
    · exact this.2 e

/-- The link `m` made the cell `j`, and now `k` uses it. -/
theorem Net.liveBefore {ps qs : List Nat} {k m j : Nat} (e : ks = ps ++ k :: qs) (hm : m < N) (hmk : m ≠ k) (hτ : (F m).τ < (F k).τ) (hj : 0 < j) (hjN : j < N)
    (hmj : (F m).lo = .made ∧ j = m ∨ (F m).hi = .made ∧ j = m + 1) (hkj : j = k ∨ j = k + 1) (live : Cell → Bool) :
    finalLive (ps.map (lk cell F ι)) live (cell j) = true := by
  obtain ⟨h1, h2, h3, h4, h5⟩ := h.split e
  obtain ⟨p1, p2, rfl⟩ := List.append_of_mem (h3 m hm hmk hτ)
  rw [List.map_append, List.map_cons]
  refine finalLive_made (mem_role.2 ?_) (h.notTouched fun i hi => ?_)
  · rcases hmj with ⟨e1, e2⟩ | ⟨e1, e2⟩
    · exact .inl ⟨e1, by rw [e2]⟩
    · exact .inr ⟨e1, by rw [e2]⟩
  · have hip : i ∈ p1 ++ m :: p2 := by simp [hi]
    have hik := (h2 i hip).1
    have him : i ≠ m := by
      rintro rfl
      have := (List.nodup_append.1 h5).2.1
      exact (List.nodup_cons.1 this).1 hi
    have hiN := h4 i hip
    constructor <;> intro eq
    · have := h.touch (j := j) (k := i) (by omega) hiN (.inl eq); omega
    · have := h.inj _ _ (by omega) (by omega) eq; omega

theorem Net.fresh {ps qs : List Nat} {k j : Nat} (e : ks = ps ++ k :: qs) (hj : j ≤ N) (hk : j = k ∨ j = k + 1)
    (hother : ∀ i, i < N → i ≠ k → (j = i ∨ j = i + 1) → (F k).τ < (F i).τ) : ∀ i ∈ ps, cell j ≠ cell i ∧ cell j ≠ cell (i + 1) := by
  obtain ⟨h1, h2, h3, h4, h5⟩ := h.split e
  intro i hi
  have hiN := h4 i hi
  obtain ⟨a1, a2⟩ := h2 i hi
  constructor <;> intro eq
  · have := hother i hiN a1 (.inl (h.inj _ _ hj (by omega) eq)); omega
  · have := hother i hiN a1 (.inr (h.inj _ _ hj (by omega) eq)); omega

theorem Net.ready (hN : 0 < N) (h0 : (F 0).lo ≠ .gone) (hl : (F (N - 1)).hi ≠ .gone) {live : Cell → Bool} (l1 : ∀ j, 0 < j → j < N → live (cell j) = false)
    (l2 : live (cell 0) = decide ((F 0).lo = .kept)) (l3 : live (cell N) = decide ((F (N - 1)).hi = .kept)) : Ready (ks.map (lk cell F ι)) live [] := by
  refine ready_of fun pre l post e0 => ?_
  obtain ⟨ps, k, qs, e, rfl, rfl, -⟩ := split_map e0
  obtain ⟨h1, h2, h3, h4, h5⟩ := h.split e
  have freshLo : (F k).lo ≠ .gone → ∀ i ∈ ps, cell k ≠ cell i ∧ cell k ≠ cell (i + 1) := fun hr => h.fresh e (by omega) (.inl rfl) fun i hi hne hij => by
    have : k = i + 1 := by omega
    subst this
    rcases h.inner i h1 with ⟨-, e2, -⟩ | ⟨-, -, e3⟩
    · exact absurd e2 hr
    · exact e3
  have freshHi : (F k).hi ≠ .gone → ∀ i ∈ ps, cell (k + 1) ≠ cell i ∧ cell (k + 1) ≠ cell (i + 1) := fun hr => h.fresh e (by omega) (.inr rfl) fun i hi hne hij => by
    have : i = k + 1 := by omega
    subst this
    rcases h.inner k hi with ⟨-, -, e3⟩ | ⟨e2, -, -⟩
    · exact e3
    · exact absurd e2 hr
  have initLo : (F k).lo ≠ .gone → live (cell k) = decide ((F k).lo = .kept) := by
    intro hr
    rcases Nat.eq_zero_or_pos k with rfl | hk
    · exact l2
    · rw [l1 k hk h1]
      obtain ⟨i, rfl⟩ : ∃ i, k = i + 1 := ⟨k - 1, by omega⟩
      rcases h.inner i h1 with ⟨-, e2, -⟩ | ⟨-, e2, -⟩ <;> rw [e2] <;> rfl
  have initHi : (F k).hi ≠ .gone → live (cell (k + 1)) = decide ((F k).hi = .kept) := by
    intro hr
    by_cases hk : k + 1 = N
    · subst hk; exact l3
    · rw [l1 (k + 1) (by omega) (by omega)]
      rcases h.inner k (by omega) with ⟨e2, -, -⟩ | ⟨e2, -, -⟩ <;> rw [e2] <;> rfl
  have notD : ∀ q, (∀ i ∈ ps, q ≠ cell i ∧ q ≠ cell (i + 1)) → q ∉ finalD (ps.map (lk cell F ι)) [] := by
    intro q hq hd
    rcases mem_finalD.1 hd with hd | ⟨l, hl, hd⟩
    · cases hd
    · exact (h.notTouched hq l hl).1 hd
  refine ⟨fun q hq => ?_, fun q hq => ?_, fun q hq => ?_⟩
  · rcases mem_role.1 hq with ⟨hr, rfl⟩ | ⟨hr, rfl⟩
    · rcases Nat.eq_zero_or_pos k with rfl | hk
      · exact absurd hr h0
      · obtain ⟨i, rfl⟩ : ∃ i, k = i + 1 := ⟨k - 1, by omega⟩
        rcases h.inner i h1 with ⟨e1, e2, e3⟩ | ⟨-, e2, -⟩
        · exact h.liveBefore e (m := i) (by omega) (by omega) e3 (by omega) (by omega) (.inr ⟨e1, rfl⟩) (.inl rfl) live
        · rw [hr] at e2; cases e2
    · by_cases hk : k + 1 = N
      · subst hk; exact absurd hr hl
      · rcases h.inner k (by omega) with ⟨e1, -, -⟩ | ⟨-, e2, e3⟩
        · rw [hr] at e1; cases e1
        · exact h.liveBefore e (m := k + 1) (by omega) (by omega) e3 (by omega) (by omega) (.inl ⟨e2, rfl⟩) (.inr rfl) live
  · rcases mem_role.1 hq with ⟨hr, rfl⟩ | ⟨hr, rfl⟩
    · have hg : (F k).lo ≠ .gone := by rw [hr]; decide
      rw [finalLive_none (h.notTouched (freshLo hg)), initLo hg, hr]
      exact ⟨rfl, notD _ (freshLo hg)⟩
    · have hg : (F k).hi ≠ .gone := by rw [hr]; decide
      rw [finalLive_none (h.notTouched (freshHi hg)), initHi hg, hr]
      exact ⟨rfl, notD _ (freshHi hg)⟩
  · rcases mem_role.1 hq with ⟨hr, rfl⟩ | ⟨hr, rfl⟩
    · have hg : (F k).lo ≠ .gone := by rw [hr]; decide
      rw [finalLive_none (h.notTouched (freshLo hg)), initLo hg, hr]; rfl
    · have hg : (F k).hi ≠ .gone := by rw [hr]; decide
      rw [finalLive_none (h.notTouched (freshHi hg)), initHi hg, hr]; rfl

/-- Every cell between the ends is measured away once. -/
theorem Net.gone (h0 : (F 0).lo ≠ .gone) (hl : (F (N - 1)).hi ≠ .gone) :
    ((ks.map (lk cell F ι)).flatMap Link.gone).Perm ((List.range (N - 1)).map fun j => cell (j + 1)) := by
  have hone : ∀ k, (lk cell F ι k).gone = (if (F k).lo = .gone then [cell k] else []) ++ (if (F k).hi = .gone then [cell (k + 1)] else []) := fun _ => rfl
  refine (List.Perm.flatMap_right _ (h.perm.map _)).trans ?_
  have key : ∀ M, M + 1 ≤ N → (((List.range (M + 1)).map (lk cell F ι)).flatMap Link.gone).Perm
      (((List.range M).map fun j => cell (j + 1)) ++ (if (F M).hi = .gone then [cell (M + 1)] else [])) := by
    intro M
    induction M with
    | zero =>
      intro hM
      have : List.range (0 + 1) = [0] := rfl
      rw [this]
      simp only [List.map_cons, List.map_nil, List.flatMap_cons, List.flatMap_nil, List.append_nil, hone, if_neg h0]
      exact List.Perm.refl _
    | succ M ih =>
      intro hM
      rw [List.range_succ, List.map_append, List.flatMap_append]
      refine ((ih (by omega)).append_right _).trans ?_
      rw [List.range_succ, List.map_append]
      simp only [List.map_cons, List.map_nil, List.flatMap_cons, List.flatMap_nil, List.append_nil, hone, List.append_assoc]
      refine List.Perm.append_left _ ?_
      rcases h.inner M hM with ⟨e1, e2, -⟩ | ⟨e1, e2, -⟩ <;> rw [e1, e2] <;> simp
  rcases Nat.eq_zero_or_pos N with rfl | hN
  · exact List.Perm.refl _
  · obtain ⟨M, rfl⟩ : ∃ M, N = M + 1 := ⟨N - 1, by omega⟩
    have := key M (by omega)
    rw [Nat.add_sub_cancel] at hl ⊢
    rw [if_neg hl, List.append_nil] at this
    exact this

theorem Net.links : ks.map (lk cell F ι) |>.Perm ((List.range N).map (lk cell F ι)) := h.perm.map _

omit h in
theorem range_cons (hN : 0 < N) : List.range N = 0 :: List.range' 1 (N - 1) := by
  obtain ⟨M, rfl⟩ : ∃ M, N = M + 1 := ⟨N - 1, by omega⟩
  rw [List.range_eq_range', List.range'_succ, Nat.add_sub_cancel]

omit h in
theorem lpath_range (hr : ∀ k, 0 < k → k < N → (F k).lo ≠ .kept) : ∀ (d m : Nat), 0 < m → m + d ≤ N → LPath (cell m) ((List.range' m d).map (lk cell F ι)) (cell (m + d))
  | 0, _, _, _ => rfl
  | d + 1, m, h1, h2 => by
    rw [List.range'_succ, List.map_cons]
    refine ⟨rfl, hr m h1 (by omega), ?_⟩
    have := lpath_range hr d (m + 1) (by omega) (by omega)
    rw [show m + 1 + d = m + (d + 1) by omega] at this
    exact this

theorem Net.loInner {k : Nat} (h1 : 0 < k) (h2 : k < N) : (F k).lo ≠ .kept := by
  obtain ⟨i, rfl⟩ : ∃ i, k = i + 1 := ⟨k - 1, by omega⟩
  rcases h.inner i h2 with ⟨-, e, -⟩ | ⟨-, e, -⟩ <;> rw [e] <;> decide

theorem Net.hiInner {k : Nat} (h2 : k + 1 < N) : (F k).hi ≠ .kept := by
  rcases h.inner k h2 with ⟨e, -, -⟩ | ⟨e, -, -⟩ <;> rw [e] <;> decide

omit h in
theorem mid_eq (M : Nat) : ((List.range' 1 M).map (lk cell F ι)).map (·.u) = (List.range M).map fun j => cell (j + 1) := by
  rw [List.range'_eq_map_range, List.map_map, List.map_map]
  refine List.map_congr_left fun j _ => ?_
  show cell (1 + j) = cell (j + 1)
  rw [Nat.add_comm]

omit h in
theorem mem_mid {M : Nat} {q : Cell} : q ∈ ((List.range' 1 M).map (lk cell F ι)).map (·.u) ↔ ∃ j, 0 < j ∧ j ≤ M ∧ q = cell j := by
  rw [mid_eq]
  simp only [List.mem_map, List.mem_range]
  constructor
  · rintro ⟨j, hj, rfl⟩; exact ⟨j + 1, by omega, by omega, rfl⟩
  · rintro ⟨j, h1, h2, rfl⟩; exact ⟨j - 1, by omega, by rw [Nat.sub_add_cancel h1]⟩

theorem Net.midNodup (hN : 0 < N) : (((List.range' 1 (N - 1)).map (lk cell F ι)).map (·.u) ++ [cell N]).Nodup := by
  rw [mid_eq]
  have : ((List.range (N - 1)).map fun j => cell (j + 1)) ++ [cell N] = (List.range N).map fun j => cell (j + 1) := by
    obtain ⟨M, rfl⟩ : ∃ M, N = M + 1 := ⟨N - 1, by omega⟩
    rw [Nat.add_sub_cancel, List.range_succ, List.map_append]
    rfl
  rw [this]
  refine List.Pairwise.map _ ?_ (List.Pairwise.and_mem.1 (List.nodup_range (n := N)))
  rintro a b ⟨ha, hb, hab⟩ e
  rw [List.mem_range] at ha hb
  have := h.inj _ _ (by omega) (by omega) e
  omega

variable {K : Type} [Field K]

/-- Links from a target patch to a control patch. -/
theorem Net.cnot {w : K} (h2 : (2 : K) ≠ 0) (hN : 1 < N) {sd : Sides} (hr : ∀ k, k < N → HasRoles (cell k) (cell (k + 1)) (ι k) (F k).lo (F k).hi)
    (h0 : (F 0).lo = .kept) (hl : (F (N - 1)).hi = .kept) (s0 : sd (cell 0) (cell 1) = some .X) (sN : sd (cell N) (cell (N - 1)) = some .Z) (x : Nat → Run) :
    LDoes w sd (ks.map ι) x [cell 0, cell N] (((List.range' 1 (N - 1)).map (lk cell F ι)).map (·.u)) [] [cell N, cell 0] (gateCX (cell N) (cell 0)) := by
  have e1 : ks.map ι = (ks.map (lk cell F ι)).map (·.i) := by rw [List.map_map]; rfl
  have g0 : (F 0).lo ≠ .gone := by rw [h0]; decide
  have gl : (F (N - 1)).hi ≠ .gone := by rw [hl]; decide
  rw [e1]
  have hnot : ∀ j, j = 0 ∨ j = N → cell j ∉ ((List.range' 1 (N - 1)).map (lk cell F ι)).map (·.u) := by
    intro j hj hm
    obtain ⟨i, i1, i2, e⟩ := mem_mid.1 hm
    have := h.inj _ _ (by omega) (by omega) e
    omega
  have h0N : cell 0 ≠ cell N := fun e => by have := h.inj _ _ (by omega) (by omega) e; omega
  refine cnot_path (l0 := lk cell F ι 0) (rest := (List.range' 1 (N - 1)).map (lk cell F ι)) h2 ?_ ?_ h0 ?_ ?_ rfl (h.midNodup (by omega)) h0N ?_ ?_ x
  · intro l hl'
    obtain ⟨k, hk, rfl⟩ := List.mem_map.1 hl'
    rw [h.mem] at hk
    refine ⟨fun e => by have := h.inj _ _ (by omega) (by omega) e; omega, hr k hk, fun e => ?_, fun e => ?_, fun e => ?_, fun e => ?_⟩
    · have : k = 0 := by
        rcases Nat.eq_zero_or_pos k with e' | e'
        · exact e'
        · exact absurd e (h.loInner e' hk)
      subst this
      exact ⟨rfl, hnot 0 (.inl rfl), s0⟩
    · have : k + 1 = N := by
        by_cases e' : k + 1 < N
        · exact absurd e (h.hiInner e')
        · omega
      have hk' : k = N - 1 := by omega
      refine ⟨?_, ?_, ?_⟩
      · show sd (cell (k + 1)) (cell k) = _
        rw [this, hk']; exact sN
      · show cell (k + 1) ∉ _
        rw [this]; exact hnot N (.inr rfl)
      · show cell (k + 1) ≠ _
        rw [this]; exact Ne.symm h0N
    · refine mem_mid.2 ⟨k, ?_, by omega, rfl⟩
      rcases Nat.eq_zero_or_pos k with rfl | e'
      · exact absurd h0 e
      · exact e'
    · refine mem_mid.2 ⟨k + 1, by omega, ?_, rfl⟩
      by_cases e' : k + 1 < N
      · omega
      · have : k = N - 1 := by omega
        subst this
        exact absurd hl e
  · rw [← List.map_cons, ← range_cons (by omega : 0 < N)]
    exact h.links
  · have := lpath_range (N := N) (cell := cell) (ι := ι) (fun k a b => h.loInner a b) (N - 1) 1 (by omega) (by omega)
    rw [show 1 + (N - 1) = N by omega] at this
    exact this
  · obtain ⟨M, rfl⟩ : ∃ M, N = M + 1 + 1 := ⟨N - 2, by omega⟩
    simp
  · rw [mid_eq]; exact h.gone g0 gl
  · intro live a1 a2 a3
    refine h.ready (by omega) g0 gl (fun j b1 b2 => a3 _ (mem_mid.2 ⟨j, b1, by omega, rfl⟩)) ?_ ?_
    · rw [a1, h0]; rfl
    · rw [a2, hl]; rfl

/-- Links between cells without patches. -/
theorem Net.bell {w : K} (h2 : (2 : K) ≠ 0) (hN : 0 < N) {sd : Sides} (hr : ∀ k, k < N → HasRoles (cell k) (cell (k + 1)) (ι k) (F k).lo (F k).hi)
    (h0 : (F 0).lo = .made) (hl : (F (N - 1)).hi = .made) (x : Nat → Run) :
    LDoes w sd (ks.map ι) x [] (cell 0 :: ((List.range' 1 (N - 1)).map (lk cell F ι)).map (·.u) ++ [cell N]) [cell 0, cell N] [cell N] (bellPair (cell 0) (cell N)) := by
  have e1 : ks.map ι = (ks.map (lk cell F ι)).map (·.i) := by rw [List.map_map]; rfl
  have g0 : (F 0).lo ≠ .gone := by rw [h0]; decide
  have gl : (F (N - 1)).hi ≠ .gone := by rw [hl]; decide
  have all : ∀ j, j ≤ N → cell j ∈ cell 0 :: ((List.range' 1 (N - 1)).map (lk cell F ι)).map (·.u) ++ [cell N] := by
    intro j hj
    rw [List.cons_append, List.mem_cons, List.mem_append, mem_mid]
    rcases Nat.eq_zero_or_pos j with rfl | h1
    · exact .inl rfl
    · by_cases e : j = N
      · subst e; exact .inr (.inr (by simp))
      · exact .inr (.inl ⟨j, h1, by omega, rfl⟩)
  rw [e1]
  refine bell_path (l0 := lk cell F ι 0) (rest := (List.range' 1 (N - 1)).map (lk cell F ι)) h2 ?_ ?_ ?_ ?_ ?_ ?_ ?_ x
  · intro l hl'
    obtain ⟨k, hk, rfl⟩ := List.mem_map.1 hl'
    rw [h.mem] at hk
    refine ⟨fun e => by have := h.inj _ _ (by omega) (by omega) e; omega, hr k hk, fun e => ?_, fun e => ?_, fun _ => all k (by omega), fun _ => all (k + 1) (by omega)⟩
    · rcases Nat.eq_zero_or_pos k with rfl | e'
      · have e2 : (F 0).lo = .kept := e
        rw [h0] at e2; cases e2
      · exact absurd e (h.loInner e' hk)
    · by_cases e' : k + 1 < N
      · exact absurd e (h.hiInner e')
      · have : k = N - 1 := by omega
        subst this
        have e2 : (F (N - 1)).hi = .kept := e
        rw [hl] at e2; cases e2
  · rw [← List.map_cons, ← range_cons hN]
    exact h.links
  · have := lpath_range (N := N) (cell := cell) (ι := ι) (fun k a b => h.loInner a b) (N - 1) 1 (by omega) (by omega)
    rw [show 1 + (N - 1) = N by omega] at this
    exact this
  · rw [List.cons_append, List.nodup_cons]
    refine ⟨fun hm => ?_, h.midNodup hN⟩
    rw [List.mem_append, mem_mid] at hm
    rcases hm with ⟨i, i1, i2, e⟩ | e
    · have := h.inj _ _ (by omega) (by omega) e; omega
    · have := h.inj 0 N (by omega) (by omega) (List.mem_singleton.1 e); omega
  · rw [mid_eq]; exact h.gone g0 gl
  · intro live a
    refine h.ready hN g0 gl (fun j b1 b2 => a _ (all j (by omega))) ?_ ?_
    · rw [a _ (all 0 (by omega)), h0]; rfl
    · rw [a _ (all N (by omega)), hl]; rfl
  · intro live a
    have one : ∀ (k j : Nat), k < N → j = k ∨ j = k + 1 → (∀ i, i < N → (j = i ∨ j = i + 1) → i = k) → cell j ∈ (lk cell F ι k).made →
        finalLive (ks.map (lk cell F ι)) live (cell j) = true := by
      intro k j hk hj ho hm
      obtain ⟨p1, p2, e⟩ := List.append_of_mem (h.mem.2 hk)
      have hn := h.nodup
      rw [e, List.nodup_append, List.nodup_cons] at hn
      rw [e, List.map_append, List.map_cons]
      refine finalLive_made hm (h.notTouched fun i hi => ?_)
      have hiN : i < N := h.mem.1 (by rw [e]; simp [hi])
      have hik : i ≠ k := by rintro rfl; exact hn.2.1.1 hi
      constructor <;> intro eq
      · exact hik (ho i hiN (.inl (h.inj _ _ (by omega) (by omega) eq)))
      · exact hik (ho i hiN (.inr (h.inj _ _ (by omega) (by omega) eq)))
    refine ⟨one 0 0 hN (.inl rfl) (by omega) (mem_role.2 (.inl ⟨h0, rfl⟩)), one (N - 1) N (by omega) (by omega) (by omega) (mem_role.2 (.inr ⟨hl, by rw [Nat.sub_add_cancel hN]⟩))⟩

end

end Verif.Quantum
