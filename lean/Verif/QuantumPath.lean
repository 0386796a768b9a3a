import Verif.QuantumChain

/-!
# Chains of local instructions: lemmas

Running a list of local instructions keeps the amplitudes in the form of a sum, over the values of the cells measured away, of a
product of factors times an amplitude of the initial state. Along a path of cells the sum has one term.
-/

namespace Verif.Quantum

variable {K : Type} [Field K]

theorem mem_pick {t : Role} {u v q : Cell} {r1 r2 : Role} : q ∈ pick t u v r1 r2 ↔ (r1 = t ∧ q = u) ∨ (r2 = t ∧ q = v) := by
  unfold pick
  split <;> split <;> simp_all

section
variable {w : K} (h2 : (2 : K) ≠ 0) {sd : Sides} {u v : Cell} (huv : u ≠ v) (x : Run)
include h2 huv

theorem step_z {i : LocalInstr} {r1 r2 : Role} (hr : HasRoles u v i r1 r2) (hk1 : r1 ≠ .kept) (hk2 : r2 = .kept → sd v u = some .Z) :
    ∃ k : Ker K, k.c ≠ 0 ∧ ∀ s : LSt K, LProper s → (∀ q ∈ pick .gone u v r1 r2, s.live q = true) → (∀ q ∈ pick .made u v r1 r2, s.live q = false) →
      (∀ q ∈ pick .kept u v r1 r2, s.live q = true) → ∃ s', LActs w sd i x s s' ∧ s'.live = after s.live u v r1 r2 ∧
      ∀ β, s'.amp β = if (∀ q ∈ pick .gone u v r1 r2, β q = false) then
        sumOver (pick .gone u v r1 r2) (fun β => k.val u v β * s.amp (zero (pick .made u v r1 r2) β)) β else 0 := by
  have hvu := Ne.symm huv
  cases r1 <;> cases r2 <;> simp only [HasRoles] at hr
  · obtain ⟨p, q, rfl | rfl⟩ := hr
    · obtain ⟨k, hk, h⟩ := prepare_ker (w := w) (sd := sd) h2 huv x p q
      refine ⟨k, hk, fun s hs _ hm _ => ?_⟩
      obtain ⟨s', h1, h3, h4⟩ := h s hs (hm u (by simp [pick])) (hm v (by simp [pick]))
      refine ⟨s', h1, ?_, fun β => ?_⟩
      · rw [h3]; funext q; simp only [after, mem_pick, upd]; split <;> split <;> simp_all
      · rw [h4]; simp [pick, sumOver, zero_pair]
    · obtain ⟨k, hk, h⟩ := prepare_ker (w := w) (sd := sd) h2 hvu x p q
      refine ⟨k.swap, Ker.swap_ne hk, fun s hs _ hm _ => ?_⟩
      obtain ⟨s', h1, h3, h4⟩ := h s hs (hm v (by simp [pick])) (hm u (by simp [pick]))
      refine ⟨s', h1, ?_, fun β => ?_⟩
      · rw [h3]; funext q; simp only [after, mem_pick, upd]; split <;> split <;> simp_all
      · rw [h4]; simp [pick, sumOver, zero_pair, Ker.swap_val, upd_swap _ huv]
  · obtain ⟨n, rfl⟩ := hr
    obtain ⟨k, hk, h⟩ := move_ker (w := w) (sd := sd) h2 hvu x n
    refine ⟨k.swap, Ker.swap_ne hk, fun s hs hg hm _ => ?_⟩
    obtain ⟨s', h1, h3, h4⟩ := h s hs (hg v (by simp [pick])) (hm u (by simp [pick]))
    refine ⟨s', h1, ?_, fun β => ?_⟩
    · rw [h3]; funext q; simp only [after, mem_pick, upd]; split <;> split <;> simp_all
    · rw [h4]; simp [pick, zero_single, Ker.swap_val]
  · obtain ⟨n, rfl⟩ := hr
    obtain ⟨k, hk, h⟩ := extend_ker (w := w) h2 hvu x n (hk2 rfl)
    refine ⟨k.swap, Ker.swap_ne hk, fun s hs _ hm hp => ?_⟩
    obtain ⟨s', h1, h3, h4⟩ := h s (hp v (by simp [pick])) (hm u (by simp [pick]))
    refine ⟨s', h1, ?_, fun β => ?_⟩
    · rw [h3]; funext q; simp only [after, mem_pick, upd]; split <;> simp_all
    · rw [h4]; simp [pick, sumOver, zero_single, Ker.swap_val]
  · obtain ⟨n, rfl⟩ := hr
    obtain ⟨k, hk, h⟩ := move_ker (w := w) (sd := sd) h2 huv x n
    refine ⟨k, hk, fun s hs hg hm _ => ?_⟩
    obtain ⟨s', h1, h3, h4⟩ := h s hs (hg u (by simp [pick])) (hm v (by simp [pick]))
    refine ⟨s', h1, ?_, fun β => ?_⟩
    · rw [h3]; funext q; simp only [after, mem_pick, upd]; split <;> split <;> simp_all
    · rw [h4]; simp [pick, zero_single]
  · rcases hr with rfl | rfl
    · obtain ⟨k, hk, h⟩ := measure_ker (w := w) (sd := sd) h2 huv x
      refine ⟨k, hk, fun s hs hg hm _ => ?_⟩
      obtain ⟨s', h1, h3, h4⟩ := h s (hg u (by simp [pick])) (hg v (by simp [pick]))
      refine ⟨s', h1, ?_, fun β => ?_⟩
      · rw [h3]; funext q; simp only [after, mem_pick, upd]; split <;> split <;> simp_all
      · rw [h4]; simp [pick]
    · obtain ⟨k, hk, h⟩ := measure_ker (w := w) (sd := sd) h2 hvu x
      refine ⟨k.swap, Ker.swap_ne hk, fun s hs hg hm _ => ?_⟩
      obtain ⟨s', h1, h3, h4⟩ := h s (hg v (by simp [pick])) (hg u (by simp [pick]))
      refine ⟨s', h1, ?_, fun β => ?_⟩
      · rw [h3]; funext q; simp only [after, mem_pick, upd]; split <;> split <;> simp_all
      · rw [h4]
        simp only [pick, if_true, reduceCtorEq, if_false, List.append_nil, zero_nil, Ker.swap_val]
        rw [sumOver_perm (List.Perm.swap u v [])]
        simp [and_comm]
  · subst hr
    obtain ⟨k, hk, h⟩ := contract_ker (w := w) h2 hvu x (hk2 rfl)
    refine ⟨k.swap, Ker.swap_ne hk, fun s hs hg _ hp => ?_⟩
    obtain ⟨s', h1, h3, h4⟩ := h s (hp v (by simp [pick])) (hg u (by simp [pick]))
    refine ⟨s', h1, ?_, fun β => ?_⟩
    · rw [h3]; funext q; simp only [after, mem_pick, upd]; split <;> simp_all
    · rw [h4]; simp [pick, Ker.swap_val]
  all_goals exact absurd rfl hk1

omit h2 in
theorem step_x {i : LocalInstr} {r2 : Role} (hr : HasRoles u v i .kept r2) (hk : sd u v = some .X) :
    ∃ z ρ : Bool, ∃ c : K, c ≠ 0 ∧ ∀ s : LSt K, LProper s → (∀ q ∈ pick .gone u v .kept r2, s.live q = true) → (∀ q ∈ pick .made u v .kept r2, s.live q = false) →
      (∀ q ∈ pick .kept u v .kept r2, s.live q = true) → ∃ s', LActs w sd i x s s' ∧ s'.live = after s.live u v .kept r2 ∧
      ∀ β, s'.amp β = if (∀ q ∈ pick .gone u v .kept r2, β q = false) then
        sumOver (pick .gone u v .kept r2) (fun β => c * sg (z && β v) * s.amp (upd (zero (pick .made u v .kept r2) β) u (xor (β u) (xor (β v) ρ)))) β else 0 := by
  cases r2 <;> simp only [HasRoles] at hr
  · obtain ⟨n, rfl⟩ := hr
    obtain ⟨z, ρ, c, hc, h⟩ := extend_x (K := K) (w := w) huv x n hk
    refine ⟨z, ρ, c, hc, fun s hs _ hm hp => ?_⟩
    obtain ⟨s', h1, h3, h4⟩ := h s hs (hp u (by simp [pick])) (hm v (by simp [pick]))
    refine ⟨s', h1, ?_, fun β => ?_⟩
    · rw [h3]; funext q; simp only [after, mem_pick, upd]; split <;> simp_all
    · rw [h4]; simp [pick, sumOver, zero_single]
  · subst hr
    obtain ⟨z, ρ, c, hc, h⟩ := contract_x (K := K) (w := w) huv x hk
    refine ⟨z, ρ, c, hc, fun s hs hg _ hp => ?_⟩
    obtain ⟨s', h1, h3, h4⟩ := h s (hp u (by simp [pick])) (hg v (by simp [pick]))
    refine ⟨s', h1, ?_, fun β => ?_⟩
    · rw [h3]; funext q; simp only [after, mem_pick, upd]; split <;> simp_all
    · rw [h4]; simp [pick]

end

/-! ## Links and runs -/

/-- An instruction on two cells with the roles of the cells. -/
structure Link where
  u : Cell
  v : Cell
  r1 : Role
  r2 : Role
  i : LocalInstr

/-- The factor of a link. -/
structure Fac (K : Type) where
  k : Ker K
  ρ : Bool

def Link.gone (l : Link) : List Cell := pick .gone l.u l.v l.r1 l.r2
def Link.made (l : Link) : List Cell := pick .made l.u l.v l.r1 l.r2
def Link.kept (l : Link) : List Cell := pick .kept l.u l.v l.r1 l.r2

/-- The first cell is kept only at the target patch `t`, over a boundary for X, the second only over a boundary for Z; the other
cells are in `I`. -/
structure Good (sd : Sides) (I : List Cell) (t : Cell) (l : Link) : Prop where
  ne : l.u ≠ l.v
  roles : HasRoles l.u l.v l.i l.r1 l.r2
  left : l.r1 = .kept → l.u = t ∧ t ∉ I ∧ sd l.u l.v = some .X
  right : l.r2 = .kept → sd l.v l.u = some .Z ∧ l.v ∉ I ∧ l.v ≠ t
  leftI : l.r1 ≠ .kept → l.u ∈ I
  rightI : l.r2 ≠ .kept → l.v ∈ I

/-- The links can be used in this order: cells in `D` have been measured away. -/
def Ready : List Link → (Cell → Bool) → List Cell → Prop
  | [], _, _ => True
  | l :: ls, live, D => (∀ q ∈ l.gone, live q = true) ∧ (∀ q ∈ l.made, live q = false ∧ q ∉ D) ∧ (∀ q ∈ l.kept, live q = true) ∧
      Ready ls (after live l.u l.v l.r1 l.r2) (l.gone ++ D)

def finalLive : List Link → (Cell → Bool) → Cell → Bool
  | [], live => live
  | l :: ls, live => finalLive ls (after live l.u l.v l.r1 l.r2)

def finalD : List Link → List Cell → List Cell
  | [], D => D
  | l :: ls, D => finalD ls (l.gone ++ D)

def fac (x : Link × Fac K) (β : Cell → Bool) : K :=
  if x.1.r1 = .kept then x.2.k.c * sg (x.2.k.z && β x.1.v) else x.2.k.val x.1.u x.1.v β

def shf (x : Link × Fac K) (β : Cell → Bool) : Bool := if x.1.r1 = .kept then xor (β x.1.v) x.2.ρ else false

def weight : List (Link × Fac K) → (Cell → Bool) → K
  | [], _ => 1
  | x :: xs, β => fac x β * weight xs β

def shift : List (Link × Fac K) → (Cell → Bool) → Bool
  | [], _ => false
  | x :: xs, β => xor (shf x β) (shift xs β)

/-- The values for the initial state. -/
def sub (I : List Cell) (t : Cell) (sh : Bool) (β : Cell → Bool) : Cell → Bool := fun q =>
  if q ∈ I then false else if q = t then xor (β t) sh else β q

/-- The form of the amplitudes. -/
structure Rep (I : List Cell) (t : Cell) (ψ : Vec Cell K) (D : List Cell) (W : Vec Cell K) (sh : (Cell → Bool) → Bool) (s : LSt K) : Prop where
  amp : ∀ β, s.amp β = if (∀ q ∈ I, s.live q = false → β q = false) then sumOver D (fun β => W β * ψ (sub I t (sh β) β)) β else 0
  used : ∀ q ∈ D, q ∈ I ∧ s.live q = false
  fresh : ∀ q ∈ I, s.live q = false → q ∉ D → ∀ β v, W (upd β q v) = W β ∧ sh (upd β q v) = sh β
  target : t ∉ I → ∀ β v, W (upd β t v) = W β ∧ sh (upd β t v) = sh β
  proper : LProper s

theorem sumOver_none : ∀ {D : List Cell} {f : Vec Cell K} {b : Cell → Bool}, (∀ β, (∀ q, q ∉ D → β q = b q) → f β = 0) → sumOver D f b = 0
  | [], f, b, h => h b fun _ _ => rfl
  | x :: xs, f, b, h => by
    simp only [sumOver]
    rw [sumOver_none, sumOver_none, add_zero]
    all_goals
      intro β hβ
      refine h β fun q hq => ?_
      simp only [List.mem_cons, not_or] at hq
      rw [hβ q hq.2, upd_ne _ _ hq.1]

theorem zero_cons (x : Cell) (N : List Cell) (β : Cell → Bool) : zero (x :: N) β = upd (zero N β) x false := by
  funext q; unfold zero upd; by_cases e : q = x <;> simp [e]

/-- Cells the function does not depend on may be set to zero. -/
theorem sumOver_zero {D : List Cell} {f : Vec Cell K} : ∀ {N : List Cell} {b : Cell → Bool}, (∀ q ∈ N, q ∉ D ∧ ∀ β v, f (upd β q v) = f β) →
    sumOver D f (zero N b) = sumOver D f b
  | [], b, _ => by rw [zero_nil]
  | x :: N, b, h => by
    rw [zero_cons, sumOver_out (h x (by simp)).1, ← sumOver_zero (N := N) (b := b) fun q hq => h q (List.mem_cons_of_mem _ hq)]
    exact sumOver_congr fun β _ => (h x (by simp)).2 β false

theorem sub_upd_mem {I : List Cell} {t q : Cell} (hq : q ∈ I) (sh : Bool) (β : Cell → Bool) (v : Bool) : sub I t sh (upd β q v) = sub I t sh β := by
  funext p
  unfold sub
  split
  · rfl
  · rename_i hp
    split
    · rename_i e
      rw [upd_ne]
      rintro rfl
      exact hp (e ▸ hq)
    · rw [upd_ne]
      rintro rfl
      exact hp hq

theorem sub_upd_target {I : List Cell} {t : Cell} (sh y : Bool) (β : Cell → Bool) : sub I t sh (upd β t (xor (β t) y)) = sub I t (xor y sh) β := by
  funext p
  unfold sub
  split
  · rfl
  · split
    · rename_i e; rw [upd_same, Bool.xor_assoc]
    · rename_i e; rw [upd_ne _ _ e]

theorem val_upd (k : Ker K) {u v q : Cell} (h1 : q ≠ u) (h2 : q ≠ v) (β : Cell → Bool) (x : Bool) : k.val u v (upd β q x) = k.val u v β := by
  unfold Ker.val
  rw [upd_ne _ _ (Ne.symm h1), upd_ne _ _ (Ne.symm h2)]

theorem after_gone {live : Cell → Bool} {l : Link} (hne : l.u ≠ l.v) {q : Cell} (h : q ∈ l.gone) : after live l.u l.v l.r1 l.r2 q = false := by
  unfold Link.gone at h
  have : q ∉ pick .made l.u l.v l.r1 l.r2 := by
    rw [mem_pick] at h ⊢
    rcases h with ⟨h1, rfl⟩ | ⟨h1, rfl⟩ <;> simp [h1, hne, Ne.symm hne]
  unfold after
  rw [if_neg this, if_pos h]

theorem after_other {live : Cell → Bool} {l : Link} {q : Cell} (h1 : q ∉ l.gone) (h2 : q ∉ l.made) : after live l.u l.v l.r1 l.r2 q = live q := by
  unfold after
  unfold Link.gone at h1
  unfold Link.made at h2
  rw [if_neg h2, if_neg h1]

theorem after_made {live : Cell → Bool} {l : Link} {q : Cell} (h2 : q ∈ l.made) : after live l.u l.v l.r1 l.r2 q = true := by
  unfold after
  unfold Link.made at h2
  rw [if_pos h2]

theorem dead_iff {live : Cell → Bool} {l : Link} (hne : l.u ≠ l.v) {q : Cell} (hg : ∀ q ∈ l.gone, live q = true) :
    after live l.u l.v l.r1 l.r2 q = false ↔ q ∈ l.gone ∨ (live q = false ∧ q ∉ l.made) := by
  constructor
  · intro h
    by_cases h1 : q ∈ l.gone
    · exact .inl h1
    · by_cases h3 : q ∈ l.made
      · rw [after_made h3] at h; cases h
      · rw [after_other h1 h3] at h; exact .inr ⟨h, h3⟩
  · rintro (h | ⟨h1, h3⟩)
    · exact after_gone hne h
    · rw [after_other (fun h => by rw [hg q h] at h1; cases h1) h3, h1]

theorem link_cell {l : Link} {q : Cell} (h : q = l.u ∨ q = l.v) : q ∈ l.gone ∨ q ∈ l.made ∨ q ∈ l.kept := by
  simp only [Link.gone, Link.made, Link.kept, mem_pick]
  rcases h with rfl | rfl
  · cases l.r1 <;> simp
  · cases l.r2 <;> simp

/-- A link with a kernel, in general: the factor `T` depends on the two cells only, and the target is shifted by `y`. -/
theorem rep_step {sd : Sides} {I : List Cell} {t : Cell} {ψ : Vec Cell K} {D : List Cell} {W : Vec Cell K} {sh : (Cell → Bool) → Bool} {s s' : LSt K}
    {l : Link} (hl : Good sd I t l) (hr : Rep I t ψ D W sh s) (h1 : ∀ q ∈ l.gone, s.live q = true) (h2 : ∀ q ∈ l.made, s.live q = false ∧ q ∉ D)
    (h3 : ∀ q ∈ l.kept, s.live q = true) (hs : s'.live = after s.live l.u l.v l.r1 l.r2) {T : Vec Cell K} {y : (Cell → Bool) → Bool}
    (hT : ∀ q, q ≠ l.v → (q ≠ l.u ∨ q = t ∧ t ∉ I) → ∀ β x, T (upd β q x) = T β) (hy : ∀ q, q ≠ l.v → ∀ β x, y (upd β q x) = y β)
    (hy3 : (t ∉ I ∧ s.live t = true) ∨ ∀ β, y β = false)
    (h : ∀ β, s'.amp β = if (∀ q ∈ l.gone, β q = false) then sumOver l.gone (fun β => T β * s.amp (upd (zero l.made β) t (xor (zero l.made β t) (y β)))) β else 0) :
    Rep I t ψ (l.gone ++ D) (fun β => T β * W β) (fun β => xor (y β) (sh β)) s' := by
  have inI : ∀ q, q ∈ l.gone ∨ q ∈ l.made → q ∈ I := by
    intro q hq
    simp only [Link.gone, Link.made, mem_pick] at hq
    rcases hq with (⟨e, rfl⟩ | ⟨e, rfl⟩) | (⟨e, rfl⟩ | ⟨e, rfl⟩)
    · exact hl.leftI (by rw [e]; simp)
    · exact hl.rightI (by rw [e]; simp)
    · exact hl.leftI (by rw [e]; simp)
    · exact hl.rightI (by rw [e]; simp)
  have cellD : ∀ q, q = l.u ∨ q = l.v → q ∉ D := by
    intro q hq hD
    rcases link_cell hq with h' | h' | h'
    · have := (hr.used q hD).2; rw [h1 q h'] at this; cases this
    · exact (h2 q h').2 hD
    · have := (hr.used q hD).2; rw [h3 q h'] at this; cases this
  have dead := fun q => dead_iff (q := q) hl.ne h1
  rw [← hs] at dead
  have hy2 : t ∈ I → ∀ β, y β = false := fun hti => hy3.resolve_left fun hh => hh.1 hti
  -- the amplitudes of the state before, with the new cells zero
  have inner : ∀ β, s.amp (upd (zero l.made β) t (xor (zero l.made β t) (y β))) = if (∀ q ∈ I, s.live q = false → q ∉ l.made → β q = false) then
      sumOver D (fun γ => W γ * ψ (sub I t (xor (y β) (sh γ)) γ)) β else 0 := by
    intro β
    rw [hr.amp]
    have cond : (∀ q ∈ I, s.live q = false → upd (zero l.made β) t (xor (zero l.made β t) (y β)) q = false) ↔ ∀ q ∈ I, s.live q = false → q ∉ l.made → β q = false := by
      constructor
      · intro hh q hq hd hm
        have := hh q hq hd
        by_cases e : q = t
        · subst e
          rw [upd_same, hy2 hq] at this
          simpa [zero, hm] using this
        · rw [upd_ne _ _ e] at this
          simpa [zero, hm] using this
      · intro hh q hq hd
        have hz : zero l.made β q = false := by
          unfold zero
          split
          · rfl
          · rename_i hm; exact hh q hq hd hm
        by_cases e : q = t
        · subst e
          rw [upd_same, hz, hy2 hq]; rfl
        · rw [upd_ne _ _ e, hz]
    by_cases hc : ∀ q ∈ I, s.live q = false → q ∉ l.made → β q = false
    · rw [if_pos (cond.2 hc), if_pos hc]
      have ha : ∀ γ : Cell → Bool, sumOver D (fun γ => W γ * ψ (sub I t (sh γ) γ)) (zero l.made γ) = sumOver D (fun γ => W γ * ψ (sub I t (sh γ) γ)) γ := by
        intro γ
        refine sumOver_zero fun q hq => ⟨(h2 q hq).2, fun δ x => ?_⟩
        have hqi := inI q (.inr hq)
        obtain ⟨e1, e2⟩ := hr.fresh q hqi (h2 q hq).1 (h2 q hq).2 δ x
        rw [e1, e2, sub_upd_mem hqi]
      by_cases hti : t ∈ I
      · rw [hy2 hti, Bool.xor_false, upd_id rfl, ha]
        simp
      · have htm : t ∉ l.made := fun hm => hti (inI t (.inr hm))
        have htD : t ∉ D := fun hd => hti (hr.used t hd).1
        have ez : zero l.made β t = β t := by unfold zero; rw [if_neg htm]
        have eu : upd (zero l.made β) t (xor (β t) (y β)) = zero l.made (upd β t (xor (β t) (y β))) := by
          funext q
          by_cases e : q = t
          · subst e; rw [upd_same]; unfold zero; rw [if_neg htm, upd_same]
          · rw [upd_ne _ _ e]; unfold zero; rw [upd_ne _ _ e]
        rw [ez, eu, ha, sumOver_out htD]
        refine sumOver_congr fun γ hγ => ?_
        obtain ⟨e1, e2⟩ := hr.target hti γ (xor (β t) (y β))
        rw [e1, e2]
        have : xor (β t) (y β) = xor (γ t) (y β) := by rw [hγ t htD]
        rw [this, sub_upd_target]
    · rw [if_neg (fun h => hc (cond.1 h)), if_neg hc]
  have amp' : ∀ β, s'.amp β = if (∀ q ∈ I, s'.live q = false → β q = false) then
      sumOver (l.gone ++ D) (fun β => T β * W β * ψ (sub I t (xor (y β) (sh β)) β)) β else 0 := by
    intro β
    rw [h]
    have cond : (∀ q ∈ I, s'.live q = false → β q = false) ↔ (∀ q ∈ l.gone, β q = false) ∧ ∀ q ∈ I, s.live q = false → q ∉ l.made → β q = false := by
      constructor
      · intro hh
        exact ⟨fun q hq => hh q (inI q (.inl hq)) ((dead q).2 (.inl hq)), fun q hq hd hm => hh q hq ((dead q).2 (.inr ⟨hd, hm⟩))⟩
      · rintro ⟨ha, hb⟩ q hq hd
        rcases (dead q).1 hd with hd | ⟨hd, hm⟩
        · exact ha q hd
        · exact hb q hq hd hm
    by_cases hg : ∀ q ∈ l.gone, β q = false
    · rw [if_pos hg]
      by_cases hc : ∀ q ∈ I, s.live q = false → q ∉ l.made → β q = false
      · rw [if_pos (cond.2 ⟨hg, hc⟩), sumOver_append]
        refine sumOver_congr fun γ hγ => ?_
        have hc' : ∀ q ∈ I, s.live q = false → q ∉ l.made → γ q = false := by
          intro q hq hd hm
          rw [hγ q (fun hgq => by rw [h1 q hgq] at hd; cases hd)]
          exact hc q hq hd hm
        rw [inner, if_pos hc', ← sumOver_mul (g := T)]
        · refine sumOver_congr fun δ hδ => ?_
          rw [mul_assoc]
          congr 3
          have hv : δ l.v = γ l.v := hδ _ (cellD _ (.inr rfl))
          have : y δ = y γ := by
            have key : ∀ (f g : Cell → Bool), f l.v = g l.v → (∃ E : List Cell, ∀ q, q ∉ E → f q = g q) → y f = y g := by
              rintro f g hfg ⟨E, hE⟩
              induction E generalizing f with
              | nil => rw [show f = g from funext fun q => hE q (by simp)]
              | cons e E ih =>
                by_cases hev : e = l.v
                · refine ih f hfg fun q hq => ?_
                  by_cases hqe : q = e
                  · rw [hqe, hev, hfg]
                  · exact hE q (by simp [hqe, hq])
                · rw [← hy e hev f (g e)]
                  refine ih _ (by rw [upd_ne _ _ (Ne.symm hev), hfg]) fun q hq => ?_
                  by_cases hqe : q = e
                  · rw [hqe, upd_same]
                  · rw [upd_ne _ _ hqe]; exact hE q (by simp [hqe, hq])
            exact key δ γ hv ⟨D, hδ⟩
          rw [this]
        · intro q hq γ' x'
          exact hT q (fun e => cellD q (.inr e) hq) (.inl fun e => cellD q (.inl e) hq) _ _
      · rw [if_neg (fun hh => hc (cond.1 hh).2)]
        refine sumOver_none fun γ hγ => ?_
        rw [inner, if_neg, mul_zero]
        intro hc'
        refine hc fun q hq hd hm => ?_
        rw [← hγ q (fun hgq => by rw [h1 q hgq] at hd; cases hd)]
        exact hc' q hq hd hm
    · rw [if_neg hg, if_neg (fun hh => hg (cond.1 hh).1)]
  refine ⟨amp', ?_, ?_, ?_, ?_⟩
  · intro q hq
    rcases List.mem_append.1 hq with hq | hq
    · exact ⟨inI q (.inl hq), (dead q).2 (.inl hq)⟩
    · refine ⟨(hr.used q hq).1, (dead q).2 (.inr ⟨(hr.used q hq).2, fun hm => (h2 q hm).2 hq⟩)⟩
  · intro q hq hd hn β x
    simp only [List.mem_append, not_or] at hn
    rcases (dead q).1 hd with hd | ⟨hd, hm⟩
    · exact absurd hd hn.1
    · have hne : q ≠ l.u ∧ q ≠ l.v := by
        constructor <;> intro e
        · rcases link_cell (l := l) (.inl e) with h' | h' | h'
          · exact hn.1 h'
          · exact hm h'
          · rw [h3 q h'] at hd; cases hd
        · rcases link_cell (l := l) (.inr e) with h' | h' | h'
          · exact hn.1 h'
          · exact hm h'
          · rw [h3 q h'] at hd; cases hd
      obtain ⟨e1, e2⟩ := hr.fresh q hq hd hn.2 β x
      refine ⟨?_, ?_⟩
      · rw [hT q hne.2 (.inl hne.1), e1]
      · rw [hy q hne.2, e2]
  · intro hti β x
    obtain ⟨e1, e2⟩ := hr.target hti β x
    have htv : t ≠ l.v := by
      intro e
      by_cases hk : l.r2 = .kept
      · exact (hl.right hk).2.2 e.symm
      · exact hti (e ▸ hl.rightI hk)
    refine ⟨?_, ?_⟩
    · rw [hT t htv (.inr ⟨rfl, hti⟩), e1]
    · rw [hy t htv, e2]
  · intro q hd β hb
    rw [h]
    by_cases hg : ∀ q ∈ l.gone, β q = false
    · rw [if_pos hg]
      rcases (dead q).1 hd with hd | ⟨hd, hm⟩
      · rw [hg q hd] at hb; cases hb
      · refine sumOver_none fun γ hγ => ?_
        have hz : zero l.made γ q = true := by
          unfold zero
          rw [if_neg hm, hγ q (fun hgq => by rw [h1 q hgq] at hd; cases hd), hb]
        rw [hr.proper q hd _ _, mul_zero]
        by_cases e : q = t
        · subst e
          rcases hy3 with hy3 | hy3
          · rw [hy3.2] at hd; cases hd
          · rw [upd_same, hz, hy3]; rfl
        · rw [upd_ne _ _ e, hz]
    · rw [if_neg hg]

theorem fac_weight (x : Link × Fac K) (xs : List (Link × Fac K)) (β : Cell → Bool) : weight (x :: xs) β = fac x β * weight xs β := rfl

/-- One link. -/
theorem link_step {w : K} (h2 : (2 : K) ≠ 0) {sd : Sides} {I : List Cell} {t : Cell} {l : Link} (hl : Good sd I t l) (x : Run) :
    ∃ f : Fac K, f.k.c ≠ 0 ∧ ∀ {ψ : Vec Cell K} {D : List Cell} {W : Vec Cell K} {sh : (Cell → Bool) → Bool} {s : LSt K}, Rep I t ψ D W sh s →
      (∀ q ∈ l.gone, s.live q = true) → (∀ q ∈ l.made, s.live q = false ∧ q ∉ D) → (∀ q ∈ l.kept, s.live q = true) →
      ∃ s', LActs w sd l.i x s s' ∧ s'.live = after s.live l.u l.v l.r1 l.r2 ∧
        Rep I t ψ (l.gone ++ D) (fun β => fac (l, f) β * W β) (fun β => xor (shf (l, f) β) (sh β)) s' := by
  by_cases hk : l.r1 = .kept
  · obtain ⟨e1, e2, e3⟩ := hl.left hk
    have hro := hl.roles
    rw [hk] at hro
    obtain ⟨z, ρ, c, hc, h⟩ := step_x (K := K) (w := w) hl.ne x hro e3
    refine ⟨⟨⟨c, false, z⟩, ρ⟩, hc, fun {ψ D W sh s} hr h1 h2 h3 => ?_⟩
    have g1 : l.gone = pick .gone l.u l.v .kept l.r2 := by unfold Link.gone; rw [hk]
    have g2 : l.made = pick .made l.u l.v .kept l.r2 := by unfold Link.made; rw [hk]
    have g3 : l.kept = pick .kept l.u l.v .kept l.r2 := by unfold Link.kept; rw [hk]
    obtain ⟨s', i1, i2, i3⟩ := h s hr.proper (g1 ▸ h1) (fun q hq => (h2 q (g2 ▸ hq)).1) (g3 ▸ h3)
    refine ⟨s', i1, by rw [hk]; exact i2, ?_⟩
    have hlt : s.live t = true := by
      rw [← e1]
      exact h3 _ (by unfold Link.kept; rw [mem_pick]; exact .inl ⟨hk, rfl⟩)
    have hvt : t ≠ l.v := by rw [← e1]; exact hl.ne
    have := rep_step hl hr h1 h2 h3 (by rw [hk]; exact i2) (T := fac (l, ⟨⟨c, false, z⟩, ρ⟩)) (y := shf (l, ⟨⟨c, false, z⟩, ρ⟩)) ?_ ?_ (.inl ⟨e2, hlt⟩) ?_
    · exact this
    · intro q hq _ β b
      unfold fac
      rw [if_pos hk, if_pos hk]
      dsimp only
      rw [upd_ne _ _ (Ne.symm hq)]
    · intro q hq β b
      unfold shf
      rw [if_pos hk, if_pos hk]
      dsimp only
      rw [upd_ne _ _ (Ne.symm hq)]
    · intro β
      rw [i3, g1, g2]
      have htm : t ∉ pick .made l.u l.v .kept l.r2 := by
        rw [mem_pick, ← e1]
        simp [hl.ne]
      by_cases hg : ∀ q ∈ pick .gone l.u l.v .kept l.r2, β q = false
      · rw [if_pos hg, if_pos hg]
        refine sumOver_congr fun γ _ => ?_
        unfold fac shf
        rw [if_pos hk, if_pos hk]
        dsimp only
        rw [e1, show zero (pick .made t l.v .kept l.r2) γ t = γ t by unfold zero; rw [if_neg (e1 ▸ htm)]]
      · rw [if_neg hg, if_neg hg]
  · obtain ⟨k, hc, h⟩ := step_z (w := w) (sd := sd) h2 hl.ne x hl.roles hk fun e => (hl.right e).1
    refine ⟨⟨k, false⟩, hc, fun {ψ D W sh s} hr h1 h2 h3 => ?_⟩
    obtain ⟨s', i1, i2, i3⟩ := h s hr.proper h1 (fun q hq => (h2 q hq).1) h3
    refine ⟨s', i1, i2, ?_⟩
    have htu : t ∉ I → t ≠ l.u := fun hti e => hti (e ▸ hl.leftI hk)
    have hy : ∀ β, shf (l, (⟨k, false⟩ : Fac K)) β = false := by
      intro β; unfold shf; rw [if_neg hk]
    have := rep_step hl hr h1 h2 h3 i2 (T := fac (l, ⟨k, false⟩)) (y := shf (l, (⟨k, false⟩ : Fac K))) ?_ ?_ (.inr hy) ?_
    · exact this
    · intro q hq hq' β b
      unfold fac
      rw [if_neg hk, if_neg hk]
      dsimp only
      refine val_upd _ ?_ hq _ _
      rcases hq' with hq' | ⟨rfl, hq'⟩
      · exact hq'
      · exact htu hq'
    · intro q hq β b
      rw [hy, hy]
    · intro β
      rw [i3]
      by_cases hg : ∀ q ∈ l.gone, β q = false
      · rw [if_pos hg, if_pos (show ∀ q ∈ pick .gone l.u l.v l.r1 l.r2, β q = false from hg)]
        refine sumOver_congr fun γ _ => ?_
        rw [hy, Bool.xor_false, upd_id rfl]
        unfold fac
        rw [if_neg hk]
        rfl
      · rw [if_neg hg, if_neg (show ¬∀ q ∈ pick .gone l.u l.v l.r1 l.r2, β q = false from hg)]

theorem Rep.congr {I : List Cell} {t : Cell} {ψ : Vec Cell K} {D : List Cell} {W W' : Vec Cell K} {sh sh' : (Cell → Bool) → Bool} {s : LSt K}
    (h : Rep I t ψ D W sh s) (h1 : ∀ β, W' β = W β) (h2 : ∀ β, sh' β = sh β) : Rep I t ψ D W' sh' s := by
  rw [show W' = W from funext h1, show sh' = sh from funext h2]
  exact h

/-- A list of links. -/
theorem chain_run {w : K} (h2 : (2 : K) ≠ 0) {sd : Sides} {I : List Cell} {t : Cell} : ∀ {ls : List Link} (_ : ∀ l ∈ ls, Good sd I t l) (x : Nat → Run),
    ∃ fs : List (Link × Fac K), fs.map (·.1) = ls ∧ (∀ f ∈ fs, f.2.k.c ≠ 0) ∧
      ∀ {ψ : Vec Cell K} {D : List Cell} {W : Vec Cell K} {sh : (Cell → Bool) → Bool} {s : LSt K}, Rep I t ψ D W sh s → Ready ls s.live D →
        ∃ s', LRuns w sd (ls.map (·.i)) x s s' ∧ s'.live = finalLive ls s.live ∧
          Rep I t ψ (finalD ls D) (fun β => weight fs β * W β) (fun β => xor (shift fs β) (sh β)) s'
  | [], _, _ => ⟨[], rfl, by simp, fun {ψ D W sh s} hr _ => ⟨s, rfl, rfl, hr.congr (by simp [weight]) (by simp [shift])⟩⟩
  | l :: ls, hl, x => by
    obtain ⟨f, hf, h⟩ := link_step (w := w) h2 (hl l (by simp)) (x 0)
    obtain ⟨fs, e1, e2, h'⟩ := chain_run (w := w) h2 (fun l' hl' => hl l' (List.mem_cons_of_mem _ hl')) fun n => x (n + 1)
    refine ⟨(l, f) :: fs, by simp [e1], fun y hy => ?_, fun {ψ D W sh s} hr hd => ?_⟩
    · rcases List.mem_cons.1 hy with rfl | hy
      · exact hf
      · exact e2 y hy
    · obtain ⟨d1, d2, d3, d4⟩ := hd
      obtain ⟨m, a1, a2, a3⟩ := h hr d1 d2 d3
      obtain ⟨s', b1, b2, b3⟩ := h' a3 (by rw [a2]; exact d4)
      refine ⟨s', ⟨m, a1, b1⟩, by rw [b2, a2]; rfl, b3.congr (fun β => ?_) fun β => ?_⟩
      · simp only [weight]; ring
      · simp only [shift]
        cases shf (l, f) β <;> cases shift fs β <;> cases sh β <;> rfl

/-- The form of the initial state. -/
theorem rep_start {I : List Cell} (t : Cell) {s : LSt K} (hs : LProper s) (hI : ∀ q ∈ I, s.live q = false) : Rep I t s.amp [] (fun _ => 1) (fun _ => false) s := by
  refine ⟨fun β => ?_, by simp, by simp, by simp, hs⟩
  simp only [sumOver, one_mul]
  by_cases h : ∀ q ∈ I, s.live q = false → β q = false
  · rw [if_pos h]
    congr 1
    funext q
    unfold sub
    split
    · rename_i hq; rw [h q hq (hI q hq)]
    · split
      · rename_i e; rw [e, Bool.xor_false]
      · rfl
  · rw [if_neg h]
    have : ∃ q ∈ I, β q = true := by
      apply Classical.byContradiction
      intro hn
      refine h fun q hq _ => ?_
      cases hb : β q
      · rfl
      · exact absurd ⟨q, hq, hb⟩ hn
    obtain ⟨q, hq, hb⟩ := this
    exact hs q (hI q hq) β hb

/-! ## Order does not matter for the result -/

theorem weight_perm {xs ys : List (Link × Fac K)} (h : xs.Perm ys) (β : Cell → Bool) : weight xs β = weight ys β := by
  induction h with
  | nil => rfl
  | cons x _ ih => simp only [weight, ih]
  | swap x y l => simp only [weight]; ring
  | trans _ _ ih1 ih2 => rw [ih1, ih2]

theorem shift_perm {xs ys : List (Link × Fac K)} (h : xs.Perm ys) (β : Cell → Bool) : shift xs β = shift ys β := by
  induction h with
  | nil => rfl
  | cons x _ ih => simp only [shift, ih]
  | swap x y l => simp only [shift]; cases shf x β <;> cases shf y β <;> cases shift l β <;> rfl
  | trans _ _ ih1 ih2 => rw [ih1, ih2]

theorem lift_perm {α β : Type} {xs : List (α × β)} {as bs : List α} (h : as.Perm bs) : xs.map (·.1) = as → ∃ ys, xs.Perm ys ∧ ys.map (·.1) = bs := by
  induction h generalizing xs with
  | nil => intro e; exact ⟨xs, .refl _, e⟩
  | cons a _ ih =>
    intro e
    match xs, e with
    | y :: ys, e =>
      simp only [List.map_cons, List.cons.injEq] at e
      obtain ⟨zs, h1, h2⟩ := ih e.2
      exact ⟨y :: zs, h1.cons y, by simp [h2, e.1]⟩
  | swap a b l =>
    intro e
    match xs, e with
    | y :: z :: ys, e =>
      simp only [List.map_cons, List.cons.injEq] at e
      exact ⟨z :: y :: ys, .swap _ _ _, by simp [e]⟩
  | trans _ _ ih1 ih2 =>
    intro e
    obtain ⟨ys, h1, h2⟩ := ih1 e
    obtain ⟨zs, h3, h4⟩ := ih2 h2
    exact ⟨zs, h1.trans h3, h4⟩

theorem finalD_perm : ∀ (ls : List Link) (D : List Cell), (finalD ls D).Perm (ls.flatMap Link.gone ++ D)
  | [], D => .refl _
  | l :: ls, D => by
    rw [finalD, List.flatMap_cons]
    refine (finalD_perm ls _).trans ?_
    rw [← List.append_assoc]
    exact List.Perm.append_right D List.perm_append_comm

/-! ## Paths -/

/-- Links from the cell `x` to the cell `c`, one after the other. -/
def Path : Cell → List (Link × Fac K) → Cell → Prop
  | x, [], c => x = c
  | x, f :: fs, c => f.1.u = x ∧ f.1.r1 ≠ .kept ∧ Path f.1.v fs c

theorem weight_upd {q : Cell} {b : Bool} : ∀ {fs : List (Link × Fac K)} {x c : Cell} (_ : Path x fs c) (_ : q ∉ fs.map (·.1.u)) (_ : q ≠ c) (β : Cell → Bool),
    weight fs (upd β q b) = weight fs β
  | [], _, _, _, _, _, _ => rfl
  | f :: fs, x, c, h, h1, h2, β => by
    simp only [List.map_cons, List.mem_cons, not_or] at h1
    obtain ⟨h3, h4, h5⟩ := h
    have hv : q ≠ f.1.v := by
      match fs, h5, h1 with
      | [], h5, _ => rw [show f.1.v = c from h5]; exact h2
      | g :: gs, h5, h1 =>
        rw [← h5.1]
        simp only [List.map_cons, List.mem_cons, not_or] at h1
        exact h1.2.1
    simp only [weight]
    rw [weight_upd h5 h1.2 h2]
    unfold fac
    rw [if_neg h4, if_neg h4, val_upd _ h1.1 hv]

/-- Summing over the values along a path. -/
theorem path_sum : ∀ {fs : List (Link × Fac K)} {x c : Cell} (_ : Path x fs c) (_ : fs ≠ []) (_ : (fs.map (·.1.u) ++ [c]).Nodup) (_ : ∀ f ∈ fs, f.2.k.c ≠ 0),
    ∃ (C : K) (S Z : Bool), C ≠ 0 ∧ ∀ (g : Vec Cell K) (b : Cell → Bool), (∀ q ∈ (fs.map (·.1.u)).tail, ∀ β v, g (upd β q v) = g β) →
      sumOver (fs.map (·.1.u)).reverse (fun β => weight fs β * g β) b = C * sg (Z && b c) * g (upd b x (xor (b c) S))
  | [f], x, c, h, _, hn, hc => by
    obtain ⟨h1, h2, h3⟩ := h
    have h3 : f.1.v = c := h3
    simp only [List.map_cons, List.map_nil, List.cons_append, List.nil_append, List.nodup_cons, List.mem_singleton] at hn
    have hcx : c ≠ x := by rw [← h1]; exact Ne.symm hn.1
    refine ⟨f.2.k.c * sg (f.2.k.z && f.2.k.s), f.2.k.s, f.2.k.z, mul_ne_zero (hc f (by simp)) (sg_ne _), fun g b _ => ?_⟩
    simp only [List.map_cons, List.map_nil, List.reverse_cons, List.reverse_nil, List.nil_append, sumOver, weight, mul_one, fac, if_neg h2, Ker.val, h1, h3, upd_same,
      upd_ne _ _ hcx]
    rcases f with ⟨l, ⟨k, s, z⟩, ρ⟩
    dsimp only
    cases b c <;> cases s <;> cases z <;> simp [sg]
  | f :: f' :: fs, x, c, h, _, hn, hc => by
    obtain ⟨h1, h2, h3⟩ := h
    have hy : f'.1.u = f.1.v := h3.1
    have hn' : ((f' :: fs).map (·.1.u) ++ [c]).Nodup := by
      simp only [List.map_cons, List.cons_append, List.nodup_cons] at hn ⊢
      exact hn.2
    have hx : f.1.u ∉ (f' :: fs).map (·.1.u) ∧ f.1.u ≠ c := by
      simp only [List.map_cons, List.cons_append, List.nodup_cons, List.mem_cons, List.mem_append, not_or, List.not_mem_nil, not_false_eq_true, and_true] at hn ⊢
      exact ⟨⟨hn.1.1, hn.1.2.1⟩, hn.1.2.2⟩
    rw [h1] at hx
    obtain ⟨C, S, Z, hC, ih⟩ := path_sum h3 (by simp) hn' fun g hg => hc g (List.mem_cons_of_mem _ hg)
    have hyx : f.1.v ≠ x := by
      rw [← hy]
      intro e
      exact hx.1 (by simp [e])
    have hcx : c ≠ x := Ne.symm hx.2
    refine ⟨C * f.2.k.c * sg (f.2.k.z && (xor S f.2.k.s)), xor S f.2.k.s, xor Z f.2.k.z, mul_ne_zero (mul_ne_zero hC (hc f (by simp))) (sg_ne _), fun g b hg => ?_⟩
    rw [List.map_cons, List.reverse_cons, sumOver_append]
    have key : ∀ β, sumOver [f.1.u] (fun β => weight (f :: f' :: fs) β * g β) β =
        weight (f' :: fs) β * (f.2.k.c * sg (f.2.k.z && xor (β f.1.v) f.2.k.s) * g (upd β x (xor (β f.1.v) f.2.k.s))) := by
      intro β
      simp only [sumOver, h1]
      rw [fac_weight f, fac_weight f, weight_upd h3 hx.1 hx.2, weight_upd h3 hx.1 hx.2]
      simp only [fac, if_neg h2, Ker.val, h1, upd_same, upd_ne _ _ hyx]
      rcases f with ⟨l, ⟨k, s, z⟩, ρ⟩
      dsimp only
      cases β l.v <;> cases s <;> cases z <;> simp [sg] <;> ring
    rw [sumOver_congr (g := fun β => weight (f' :: fs) β * (f.2.k.c * sg (f.2.k.z && xor (β f.1.v) f.2.k.s) * g (upd β x (xor (β f.1.v) f.2.k.s))))
      fun β _ => key β]
    rw [ih]
    · rw [upd_same]
      have hgy : ∀ β v, g (upd β f.1.v v) = g β := by
        intro β v
        rw [← hy]
        exact hg f'.1.u (by simp) β v
      rw [← upd_swap _ hyx, hgy]
      rw [show xor (xor (b c) S) f.2.k.s = xor (b c) (xor S f.2.k.s) by rw [Bool.xor_assoc]]
      cases b c <;> cases S <;> cases f.2.k.s <;> cases f.2.k.z <;> cases Z <;> simp [sg] <;> ring
    · intro q hq β v
      have hq' : q ∈ (f' :: fs).map (·.1.u) := List.mem_of_mem_tail hq
      have hqx : q ≠ x := fun e => hx.1 (e ▸ hq')
      have hqv : f.1.v ≠ q := by
        rintro e
        simp only [List.map_cons, List.tail_cons] at hq
        simp only [List.map_cons, List.cons_append, List.nodup_cons] at hn'
        exact hn'.1 (List.mem_append_left _ (by rw [hy, e]; exact hq))
      rw [upd_ne _ _ hqv, ← upd_swap β hqx v, hg q (by simpa using hq')]

end Verif.Quantum
