import Verif.QuantumPath

/-!
# What chains of local instructions do: lemmas

A chain from a target patch (boundary for X) to a control patch (boundary for Z) is a CNOT; a chain of cells without patches is a
Bell pair.
-/

namespace Verif.Quantum

variable {K : Type} [Field K]

/-- Links one after the other, the first cell of none of which is kept. -/
def LPath : Cell → List Link → Cell → Prop
  | x, [], c => x = c
  | x, l :: ls, c => l.u = x ∧ l.r1 ≠ .kept ∧ LPath l.v ls c

theorem path_of : ∀ {fs : List (Link × Fac K)} {x c : Cell}, LPath x (fs.map (·.1)) c → Path x fs c
  | [], _, _, h => h
  | _ :: _, _, _, h => ⟨h.1, h.2.1, path_of h.2.2⟩

theorem finalLive_other {sd : Sides} {I : List Cell} {t q : Cell} (hq : q ∉ I) : ∀ {ls : List Link} {live : Cell → Bool}, (∀ l ∈ ls, Good sd I t l) → finalLive ls live q = live q
  | [], _, _ => rfl
  | l :: ls, live, h => by
    rw [finalLive, finalLive_other hq fun l' hl' => h l' (List.mem_cons_of_mem _ hl')]
    have hl := h l (by simp)
    apply after_other <;> intro hm <;> simp only [Link.gone, Link.made, mem_pick] at hm <;> rcases hm with ⟨e, rfl⟩ | ⟨e, rfl⟩
    · exact hq (hl.leftI (by rw [e]; simp))
    · exact hq (hl.rightI (by rw [e]; simp))
    · exact hq (hl.leftI (by rw [e]; simp))
    · exact hq (hl.rightI (by rw [e]; simp))

theorem shift_path : ∀ {fs : List (Link × Fac K)} {x c : Cell} (_ : Path x fs c) (β : Cell → Bool), shift fs β = false
  | [], _, _, _, _ => rfl
  | f :: fs, _, _, h, β => by
    rw [shift, shift_path h.2.2]
    unfold shf
    rw [if_neg h.2.1]
    rfl

/-- Up to `Z` on the first and `X` on the second cell. -/
theorem paulis_zx (w : K) (z x : Bool) (c t : Cell) (v : Vec Cell K) (b : Cell → Bool) :
    paulis w ((if z then [(c, .Z)] else []) ++ (if x then [(t, .X)] else [])) v b = sg (z && b c) * v (if x then flip b t else b) := by
  cases z <;> cases x <;> simp [paulis, pauli, gateZ, gateX, sg]

theorem paulis_zx_mem {z x : Bool} {c t : Cell} {p : Cell × Pauli} (h : p ∈ (if z then [(c, .Z)] else []) ++ (if x then [(t, .X)] else [])) : p.1 = c ∨ p.1 = t := by
  cases z <;> cases x <;> simp at h
  · exact .inr (by rw [h])
  · exact .inl (by rw [h])
  · rcases h with h | h <;> simp [h]

theorem sign_cnot (C a m : K) (Z z S y : Bool) :
    C * sg (Z && y) * (a * sg (z && xor y S) * m) = C * a * sg (z && S) * (sg (xor Z z && y) * m) := by
  cases Z <;> cases z <;> cases S <;> cases y <;> simp [sg] <;> ring

theorem sign_bell (C a m : K) (Z z S s u y : Bool) : C * sg (Z && y) * ((if xor u (xor y S) = s then a * sg (z && u) else 0) * m) =
    C * a * sg (z && xor S s) * sg (xor Z z && y) * ((if xor u y = xor S s then 1 else 0) * m) := by
  cases u <;> cases y <;> cases S <;> cases s <;> cases z <;> cases Z <;> simp [sg] <;> ring

theorem some_true {I : List Cell} {b : Cell → Bool} (h : ¬∀ q ∈ I, b q = false) : ∃ q ∈ I, b q = true := by
  apply Classical.byContradiction
  intro hcon
  refine h fun q hq => ?_
  cases hb : b q
  · rfl
  · exact absurd ⟨q, hq, hb⟩ hcon

/-- The values after the target has been shifted are those of a CNOT. -/
theorem sub_cnot {I : List Cell} {t c : Cell} (htc : t ≠ c) (htI : t ∉ I) {b : Cell → Bool} (hz : ∀ q ∈ I, b q = false) (x y : Bool) (hy : y = xor (b c) x) :
    sub I t y b = (if (if x then flip b t else b) c then flip (if x then flip b t else b) t else if x then flip b t else b) := by
  subst hy
  have hfc : flip b t c = b c := by unfold flip; rw [upd_ne _ _ (Ne.symm htc)]
  have hbc : (if x then flip b t else b) c = b c := by split <;> simp [hfc]
  rw [hbc]
  funext q
  by_cases hq : q ∈ I
  · have hqt : q ≠ t := fun e => htI (e ▸ hq)
    unfold sub
    rw [if_pos hq]
    cases x <;> cases b c <;> simp [flip, upd_ne _ _ hqt, hz q hq]
  · unfold sub
    rw [if_neg hq]
    by_cases hqt : q = t
    · subst hqt
      rw [if_pos rfl]
      cases x <;> cases b c <;> simp [flip]
    · rw [if_neg hqt]
      cases x <;> cases b c <;> simp [flip, upd_ne _ _ hqt]

theorem cnot_path {w : K} (h2 : (2 : K) ≠ 0) {sd : Sides} {I : List Cell} {t c : Cell} {l0 : Link} {rest ls : List Link}
    (hg : ∀ l ∈ ls, Good sd I t l) (hp : ls.Perm (l0 :: rest)) (h0 : l0.r1 = .kept) (hpath : LPath l0.v rest c) (hne : rest ≠ []) (hI : I = rest.map (·.u))
    (hn : (I ++ [c]).Nodup) (htc : t ≠ c) (hgone : (ls.flatMap Link.gone).Perm I)
    (hready : ∀ live : Cell → Bool, live t = true → live c = true → (∀ q ∈ I, live q = false) → Ready ls live []) (x : Nat → Run) :
    LDoes w sd (ls.map (·.i)) x [t, c] I [] [c, t] (gateCX c t) := by
  obtain ⟨fs, e1, e2, h⟩ := chain_run (w := w) h2 hg x
  obtain ⟨fs', hfp, e3⟩ := lift_perm hp e1
  match fs', hfp, e3 with
  | f0 :: fr, hfp, e3 =>
    simp only [List.map_cons, List.cons.injEq] at e3
    obtain ⟨e3, e4⟩ := e3
    have hpa : Path l0.v fr c := path_of (by rw [e4]; exact hpath)
    have hus : fr.map (·.1.u) = I := by rw [hI, ← e4, List.map_map]; rfl
    have hfr : fr ≠ [] := by rintro rfl; exact hne (by rw [← e4]; rfl)
    have hc' : ∀ f ∈ f0 :: fr, f.2.k.c ≠ 0 := fun f hf => e2 f (hfp.mem_iff.2 hf)
    obtain ⟨C, S, Z, hC, hsum⟩ := path_sum hpa hfr (by rw [hus]; exact hn) fun f hf => hc' f (List.mem_cons_of_mem _ hf)
    rw [hus] at hsum
    have hl0 : Good sd I t l0 := hg l0 (hp.mem_iff.2 (by simp))
    obtain ⟨g1, g2, g3⟩ := hl0.left h0
    have hv0 : l0.v ∈ I ∧ l0.v ∉ I.tail := by
      match fr, hpa, hus, hfr with
      | f1 :: fs1, hpa, hus, _ =>
        rw [← hus, ← hpa.1]
        refine ⟨by simp, ?_⟩
        rw [← hus] at hn
        simp only [List.map_cons, List.cons_append, List.nodup_cons] at hn
        simp only [List.map_cons, List.tail_cons]
        exact fun hm => hn.1 (List.mem_append_left _ hm)
    have hcI : c ∉ I := fun hm => (List.nodup_append.1 hn).2.2 c hm c (by simp) rfl
    refine ⟨C * f0.2.k.c * sg (f0.2.k.z && S), (if xor Z f0.2.k.z then [(c, .Z)] else []) ++ (if xor S f0.2.ρ then [(t, .X)] else []),
      mul_ne_zero (mul_ne_zero hC (hc' f0 (by simp))) (sg_ne _), ?_, fun s hs hd hf => ?_⟩
    · intro p hp
      rcases paulis_zx_mem hp with e | e <;> simp [e]
    · have hr := rep_start (K := K) t hs hf
      obtain ⟨s', r1, r2, r3⟩ := h hr (hready _ (hd t (by simp)) (hd c (by simp)) hf)
      have hD : (finalD ls []).Perm I := (finalD_perm ls []).trans (by rw [List.append_nil]; exact hgone)
      refine ⟨s', r1, fun q => ?_, fun b => ?_⟩
      · by_cases hq : q ∈ I
        · rw [(r3.used q (hD.mem_iff.2 hq)).2, hf q hq]; simp
        · rw [r2, finalLive_other hq hg]; simp
      · rw [r3.amp, paulis_zx]
        by_cases hz : ∀ q ∈ I, b q = false
        · rw [if_pos fun q hq _ => hz q hq, sumOver_perm (hD.trans (List.reverse_perm I).symm)]
          have hform : ∀ β : Cell → Bool, weight fs β * 1 * s.amp (sub I t (xor (shift fs β) false) β) =
              weight fr β * (f0.2.k.c * sg (f0.2.k.z && β l0.v) * s.amp (sub I t (xor (β l0.v) f0.2.ρ) β)) := by
            intro β
            rw [weight_perm hfp, shift_perm hfp, weight, shift, shift_path hpa]
            unfold fac shf
            rw [if_pos (by rw [e3]; exact h0), if_pos (by rw [e3]; exact h0), e3, Bool.xor_false, Bool.xor_false]
            ring
          rw [sumOver_congr (g := fun β => weight fr β * (f0.2.k.c * sg (f0.2.k.z && β l0.v) * s.amp (sub I t (xor (β l0.v) f0.2.ρ) β))) fun β _ => hform β]
          rw [hsum]
          · rw [upd_same, sub_upd_mem hv0.1]
            rw [sign_cnot, sub_cnot htc g2 hz (xor S f0.2.ρ) _ (by rw [Bool.xor_assoc])]
            rfl
          · intro q hq β v
            have hqI : q ∈ I := List.mem_of_mem_tail hq
            have hqv : l0.v ≠ q := fun e => hv0.2 (e ▸ hq)
            rw [upd_ne _ _ hqv, sub_upd_mem hqI]
        · rw [if_neg fun hh => hz fun q hq => hh q hq (r3.used q (hD.mem_iff.2 hq)).2]
          obtain ⟨q, hq, hb⟩ := some_true hz
          have hqt : q ≠ t := fun e => g2 (e ▸ hq)
          unfold gateCX
          rw [hs q (hf q hq), mul_zero, mul_zero]
          have key : ∀ β : Cell → Bool, β q = b q → (if β c = true then flip β t else β) q = b q := by
            intro β hβ
            split
            · rw [flip, upd_ne _ _ hqt, hβ]
            · exact hβ
          rw [key, hb]
          split
          · rw [flip, upd_ne _ _ hqt]
          · rfl

theorem bellPair_form {u c : Cell} (hcu : c ≠ u) (S : Bool) (v : Vec Cell K) (dead : ∀ β : Cell → Bool, β c = true → v β = 0) (b : Cell → Bool) :
    bellPair u c v (if S then flip b c else b) = (if xor (b u) (b c) = S then 1 else 0) * v (upd (upd b u false) c false) := by
  unfold bellPair gateCX prepare
  have hfu : (if S then flip b c else b) u = b u := by split <;> simp [flip, upd_ne _ _ (Ne.symm hcu)]
  rw [hfu]
  have hfc : ∀ x, upd (flip b c) u x = upd (upd b u x) c (!b c) := fun x => by unfold flip; rw [upd_swap _ (Ne.symm hcu)]
  have hff : flip (flip b c) c = b := flip_flip b c
  have zk : b c = false → upd (upd b u false) c false = upd b u false := fun e => upd_id (by rw [upd_ne _ _ hcu, e])
  have dk : b c = true → ∀ x, v (upd b u x) = 0 := fun e x => dead _ (by rw [upd_ne _ _ hcu, e])
  cases hbu : b u <;> cases hbc : b c <;> cases S <;> simp only [Bool.false_eq_true, if_false, if_true, hfc, hff, hbc, Bool.xor_false, Bool.false_xor, Bool.not_true,
    Bool.not_false, reduceCtorEq, one_mul, zero_mul, Bool.xor_self, if_false, ite_self]
  all_goals first
    | rfl
    | rw [zk hbc]
    | exact dk hbc _
    | exact dead _ (upd_same _ _ _)

/-- Summing over the values between the ends. -/
theorem bell_sum {f0 : Link × Fac K} {fr : List (Link × Fac K)} {l0 : Link} {us : List Cell} {c : Cell} (hpa : Path l0.v fr c) (hus : fr.map (·.1.u) = us)
    (hc' : ∀ f ∈ f0 :: fr, f.2.k.c ≠ 0) (hn : (us ++ [c]).Nodup) (hu : l0.u ∉ us) :
    ∃ (C : K) (S Z : Bool), C ≠ 0 ∧ ∀ (g : Vec Cell K) (b : Cell → Bool), (∀ q ∈ us, ∀ β v, g (upd β q v) = g β) →
        sumOver us.reverse (fun β => weight fr β * (f0.2.k.val l0.u l0.v β * g β)) b =
          C * sg (Z && b c) * ((if xor (b l0.u) (b c) = S then 1 else 0) * g b) := by
  by_cases hfr : fr = []
  · subst hfr
    have hr' : us = [] := by rw [← hus]; rfl
    have hv : l0.v = c := hpa
    refine ⟨f0.2.k.c * sg (f0.2.k.z && f0.2.k.s), f0.2.k.s, f0.2.k.z, mul_ne_zero (hc' f0 (by simp)) (sg_ne _), fun g b _ => ?_⟩
    rw [hr', hv]
    simp only [List.reverse_nil, sumOver, weight, Ker.val]
    have := sign_bell (K := K) 1 f0.2.k.c (g b) false f0.2.k.z false f0.2.k.s (b l0.u) (b c)
    simpa [sg] using this
  · obtain ⟨C, S, Z, hC, hsum⟩ := path_sum hpa hfr (by rw [hus]; exact hn) fun f hf => hc' f (List.mem_cons_of_mem _ hf)
    rw [hus] at hsum
    have hv0 : l0.v ∈ us ∧ l0.v ∉ us.tail := by
      match fr, hpa, hus, hfr with
      | f1 :: fs1, hpa, hus, _ =>
        have := hn
        rw [← hus] at this ⊢
        rw [← hpa.1]
        refine ⟨by simp, ?_⟩
        simp only [List.map_cons, List.cons_append, List.nodup_cons] at this
        simp only [List.map_cons, List.tail_cons]
        exact fun hm => this.1 (List.mem_append_left _ hm)
    have huv : l0.u ≠ l0.v := fun e => hu (e ▸ hv0.1)
    refine ⟨C * f0.2.k.c * sg (f0.2.k.z && xor S f0.2.k.s), xor S f0.2.k.s, xor Z f0.2.k.z, mul_ne_zero (mul_ne_zero hC (hc' f0 (by simp))) (sg_ne _), fun g b hgq => ?_⟩
    rw [hsum]
    · rw [hgq _ hv0.1]
      simp only [Ker.val, upd_same, upd_ne _ _ huv]
      exact sign_bell ..
    · intro q hq β v
      have hqI : q ∈ us := List.mem_of_mem_tail hq
      have hqv : q ≠ l0.v := fun e => hv0.2 (e ▸ hq)
      have hqu : q ≠ l0.u := fun e => hu (e ▸ hqI)
      rw [val_upd _ hqu hqv, hgq q hqI]
theorem bell_path {w : K} (h2 : (2 : K) ≠ 0) {sd : Sides} {c : Cell} {l0 : Link} {rest ls : List Link}
    (hg : ∀ l ∈ ls, Good sd (l0.u :: rest.map (·.u) ++ [c]) l0.u l) (hp : ls.Perm (l0 :: rest)) (hpath : LPath l0.v rest c)
    (hn : (l0.u :: rest.map (·.u) ++ [c]).Nodup) (hgone : (ls.flatMap Link.gone).Perm (rest.map (·.u)))
    (hready : ∀ live : Cell → Bool, (∀ q ∈ l0.u :: rest.map (·.u) ++ [c], live q = false) → Ready ls live [])
    (hends : ∀ live : Cell → Bool, (∀ q ∈ l0.u :: rest.map (·.u) ++ [c], live q = false) → finalLive ls live l0.u = true ∧ finalLive ls live c = true) (x : Nat → Run) :
    LDoes w sd (ls.map (·.i)) x [] (l0.u :: rest.map (·.u) ++ [c]) [l0.u, c] [c] (bellPair l0.u c) := by
  obtain ⟨fs, e1, e2, h⟩ := chain_run (w := w) h2 hg x
  obtain ⟨fs', hfp, e3⟩ := lift_perm hp e1
  match fs', hfp, e3 with
  | f0 :: fr, hfp, e3 =>
    simp only [List.map_cons, List.cons.injEq] at e3
    obtain ⟨e3, e4⟩ := e3
    have hpa : Path l0.v fr c := path_of (by rw [e4]; exact hpath)
    have hus : fr.map (·.1.u) = rest.map (·.u) := by rw [← e4, List.map_map]; rfl
    have hc' : ∀ f ∈ f0 :: fr, f.2.k.c ≠ 0 := fun f hf => e2 f (hfp.mem_iff.2 hf)
    have hn2 : (rest.map (·.u) ++ [c]).Nodup ∧ l0.u ∉ rest.map (·.u) ∧ l0.u ≠ c ∧ c ∉ rest.map (·.u) := by
      simp only [List.cons_append, List.nodup_cons, List.mem_append, List.mem_singleton, not_or] at hn
      exact ⟨hn.2, hn.1.1, hn.1.2, fun hm => (List.nodup_append.1 hn.2).2.2 c hm c (by simp) rfl⟩
    have h0 : l0.r1 ≠ .kept := fun e => ((hg l0 (hp.mem_iff.2 (by simp))).left e).2.1 (by simp)
    have hsum := bell_sum (f0 := f0) hpa hus hc' hn2.1 hn2.2.1
    obtain ⟨C, S, Z, hC, hsum⟩ := hsum
    refine ⟨C, (if Z then [(c, .Z)] else []) ++ (if S then [(c, .X)] else []), hC, ?_, fun s hs _ hf => ?_⟩
    · intro p hp
      rcases paulis_zx_mem hp with e | e <;> simp [e]
    · have hr := rep_start (K := K) l0.u hs hf
      obtain ⟨s', r1, r2, r3⟩ := h hr (hready _ hf)
      have hD : (finalD ls []).Perm (rest.map (·.u)) := (finalD_perm ls []).trans (by rw [List.append_nil]; exact hgone)
      obtain ⟨v1, v2⟩ := hends _ hf
      have hlive : ∀ q, s'.live q = (s.live q || decide (q ∈ [l0.u, c])) := by
        intro q
        by_cases hq0 : q = l0.u
        · rw [hq0, r2, v1]; simp
        · by_cases hqc : q = c
          · rw [hqc, r2, v2]; simp
          · by_cases hq : q ∈ rest.map (·.u)
            · rw [(r3.used q (hD.mem_iff.2 hq)).2, hf q (by simp only [List.cons_append, List.mem_cons, List.mem_append]; exact .inr (.inl hq))]
              simp [hq0, hqc]
            · rw [r2, finalLive_other (I := l0.u :: rest.map (·.u) ++ [c]) (by simp only [List.cons_append, List.mem_cons, List.mem_append, List.not_mem_nil, or_false, not_or]; exact ⟨hq0, hq, hqc⟩) hg]
              simp [hq0, hqc]
      refine ⟨s', r1, hlive, fun b => ?_⟩
      rw [r3.amp, paulis_zx]
      have hcond : (∀ q ∈ l0.u :: rest.map (·.u) ++ [c], s'.live q = false → b q = false) ↔ ∀ q ∈ rest.map (·.u), b q = false := by
        constructor
        · intro hh q hq
          refine hh q (by simp only [List.cons_append, List.mem_cons, List.mem_append]; exact .inr (.inl hq)) ?_
          exact (r3.used q (hD.mem_iff.2 hq)).2
        · intro hh q hq hd
          simp only [List.cons_append, List.mem_cons, List.mem_append, List.mem_singleton, List.not_mem_nil, or_false] at hq
          rcases hq with hq | hq | hq
          · rw [hlive, hq] at hd; simp at hd
          · exact hh q hq
          · rw [hlive, hq] at hd; simp at hd
      have hcu : c ≠ l0.u := Ne.symm hn2.2.2.1
      have hbell := bellPair_form hcu S s.amp (hs c (hf c (by simp))) b
      rw [hbell]
      by_cases hz : ∀ q ∈ rest.map (·.u), b q = false
      · rw [if_pos (hcond.2 hz), sumOver_perm (hD.trans (List.reverse_perm _).symm)]
        have hform : ∀ β : Cell → Bool, weight fs β * 1 * s.amp (sub (l0.u :: rest.map (·.u) ++ [c]) l0.u (xor (shift fs β) false) β) =
            weight fr β * (f0.2.k.val l0.u l0.v β * s.amp (zero (l0.u :: rest.map (·.u) ++ [c]) β)) := by
          intro β
          rw [weight_perm hfp, weight]
          have : sub (l0.u :: rest.map (·.u) ++ [c]) l0.u (xor (shift fs β) false) β = zero (l0.u :: rest.map (·.u) ++ [c]) β := by
            funext q
            unfold sub zero
            split
            · rfl
            · rename_i hq
              rw [if_neg]
              rintro rfl
              exact hq (by simp)
          rw [this]
          unfold fac
          rw [if_neg (by rw [e3]; exact h0), e3]
          ring
        rw [sumOver_congr (g := fun β => weight fr β * (f0.2.k.val l0.u l0.v β * s.amp (zero (l0.u :: rest.map (·.u) ++ [c]) β))) fun β _ => hform β, hsum]
        · have : zero (l0.u :: rest.map (·.u) ++ [c]) b = upd (upd b l0.u false) c false := by
            funext q
            unfold zero upd
            by_cases hqc : q = c
            · simp [hqc]
            · by_cases hq0 : q = l0.u
              · simp [hq0]
              · by_cases hq : q ∈ rest.map (·.u)
                · rw [if_pos (by simp only [List.cons_append, List.mem_cons, List.mem_append]; exact .inr (.inl hq)), if_neg hqc, if_neg hq0, hz q hq]
                · rw [if_neg (by simp only [List.cons_append, List.mem_cons, List.mem_append, List.not_mem_nil, or_false, not_or]; exact ⟨hq0, hq, hqc⟩), if_neg hqc, if_neg hq0]
          rw [this]
          ring
        · intro q hq β v
          congr 1
          funext p
          unfold zero
          split
          · rfl
          · rename_i hp'
            rw [upd_ne]
            rintro rfl
            exact hp' (by simp only [List.cons_append, List.mem_cons, List.mem_append]; exact .inr (.inl hq))
      · rw [if_neg fun hh => hz (hcond.1 hh)]
        obtain ⟨q, hq, hb⟩ := some_true hz
        rw [hs q (hf q (by simp only [List.cons_append, List.mem_cons, List.mem_append]; exact .inr (.inl hq))), mul_zero, mul_zero, mul_zero]
        have n1 : q ≠ c := by rintro rfl; exact hn2.2.2.2 hq
        have n2 : q ≠ l0.u := by rintro rfl; exact hn2.2.1 hq
        rw [upd_ne _ _ n1, upd_ne _ _ n2, hb]

end Verif.Quantum
