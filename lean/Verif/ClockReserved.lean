import Verif.ClockSlicer

/-! # Cells reserved for magic states (C73) -/

namespace Verif.Clock

open Verif Verif.DSlice Verif.Apply Verif.Wave Verif.Pipe Verif.Pipe.Spec Verif.Real Verif.Real.Spec

/-- The cell makes a magic state: what it holds and its time before, and its time when it is empty. -/
inductive Cooks (T : Nat) : Option DensePatch → Nat → Bool → Nat → Prop
  /-- An empty cell starts anew. -/
  | empty {t : Nat} : Cooks T none t (decide (T = 0)) T
  /-- One that is at work counts down. -/
  | work {t : Nat} {p : DensePatch} (h : p.type = .distillation) : Cooks T (some p) t (decide (t = 1)) (dec32 t)
  /-- One that is taken stays as it is, -/
  | taken {t : Nat} {p : DensePatch} (h : p.type = .preparedState ∨ p.type = .qubit) : Cooks T (some p) t false t
  /-- unless something else than a qubit or a prepared state lies there and its time is over. -/
  | other {t : Nat} {p : DensePatch} (h : p.type ≠ .distillation) (h1 : p.type ≠ .preparedState) (h2 : p.type ≠ .qubit) : Cooks T (some p) t (decide (t = 0)) t

/-- What an advance does to one reserved cell. -/
structure Kept (L : Layout) (i : Nat) (c : Cell) (s s' : DSlice) : Prop where
  make : ∃ t T t' b, s.times[i]? = some t ∧ L.times[i]? = some T ∧ s'.times[i]? = some t' ∧ Cooks T (s.cells c) t b t' ∧
    (c ∈ s'.magic ↔ c ∈ s.magic ∨ b = true) ∧ s'.cells c = if b = true then some magicPatch else match s.cells c with
      | none => some (distillationPatch (.all ⟨.connected, false⟩))
      | some p => some p

theorem place_one {i : Nat} {c : Cell} {a b : DSlice} (h : respawnPlace a i c = .ok b) :
    ∃ (t : Nat) (p : DensePatch), a.times[i]? = some t ∧ a.cells c = some p ∧ b.times = a.times ∧
      (∀ x, b.cells x = if x = c ∧ t = 0 ∧ p.type ≠ .preparedState ∧ p.type ≠ .qubit then some magicPatch else a.cells x) ∧
      ∀ x, x ∈ b.magic ↔ x ∈ a.magic ∨ x = c ∧ t = 0 ∧ p.type ≠ .preparedState ∧ p.type ≠ .qubit := by
  unfold respawnPlace at h
  split at h
  · rename_i t p ht hp
    refine ⟨t, p, ht, hp, ?_⟩
    split at h
    · rename_i hc
      have e := spawn_ok h
      refine ⟨by rw [e]; rfl, fun x => ?_, fun x => ?_⟩
      · rw [e]
        by_cases ex : x = c
        · subst ex; simp [hc]
        · simp only [put_cells]; rw [upd_other _ _ ex, if_neg (by tauto)]
      · rw [e]
        refine mem_setInsert.trans ?_
        tauto
    · rename_i hc
      cases h
      refine ⟨rfl, fun x => by rw [if_neg (by tauto)], fun x => by tauto⟩
  · cases h

theorem respawn_one {L : Layout} {i : Nat} {c : Cell} {s a b : DSlice} (h1 : respawnCount L s i c = .ok a) (h2 : respawnPlace a i c = .ok b) (hL : s.times.length = L.times.length) :
    Kept L i c s b ∧ (∀ j, j ≠ i → b.times[j]? = s.times[j]?) ∧ (∀ x, x ≠ c → b.cells x = s.cells x ∧ (x ∈ b.magic ↔ x ∈ s.magic)) ∧ b.times.length = s.times.length := by
  obtain ⟨t, p, g1, g2, g3, g4, g5⟩ := place_one h2
  have hT : ∀ {x : Nat}, s.times[i]? = some x → ∃ T, L.times[i]? = some T := by
    intro x hx
    have := (List.getElem?_eq_some_iff.1 hx).1
    exact ⟨_, List.getElem?_eq_getElem (by omega)⟩
  unfold respawnCount at h1
  obtain ⟨o, h0, h1⟩ := Outcome.bind_eq_ok.1 h1
  obtain ⟨hr, hp⟩ := patchAt_ok h0
  cases o with
  | none =>
    dsimp only at h1
    split at h1
    · rename_i t0 T e1 e2
      cases h1
      have e3 := (List.getElem?_eq_some_iff.1 e1).1
      have g1' : (s.times.set i T)[i]? = some t := g1
      rw [List.getElem?_set_self e3] at g1'
      cases g1'
      have g2' : (s.put c (some (distillationPatch (.all ⟨.connected, false⟩)))).cells c = some p := g2
      rw [put_cells, upd_same] at g2'
      cases g2'
      refine ⟨⟨t0, t, t, decide (t = 0), e1, e2, by rw [g3]; exact g1, by rw [hp]; exact .empty, ?_, ?_⟩, ?_, ?_, ?_⟩
      · rw [g5 c]
        show c ∈ s.magic ∨ _ ↔ _
        simp [distillationPatch]
      · rw [g4 c, hp]
        by_cases e : t = 0
        · rw [if_pos (by simp [e, distillationPatch]), if_pos (by simp [e])]
        · rw [if_neg (by simp [e]), if_neg (by simp [e])]
          exact g2
      · intro j hj
        rw [g3]
        exact List.getElem?_set_ne (Ne.symm hj)
      · intro x hx
        refine ⟨?_, (g5 x).trans (or_iff_left fun h => hx h.1)⟩
        rw [g4 x, if_neg (by simp [hx])]
        exact upd_other _ _ hx
      · rw [g3]; exact List.length_set
    · cases h1
  | some q =>
    dsimp only at h1
    split at h1
    · rename_i hd
      split at h1
      · rename_i t0 e1
        cases h1
        have e3 := (List.getElem?_eq_some_iff.1 e1).1
        have g1' : (s.times.set i (dec32 t0))[i]? = some t := g1
        rw [List.getElem?_set_self e3] at g1'
        cases g1'
        have g2' : s.cells c = some p := g2
        rw [hp] at g2'
        cases g2'
        obtain ⟨T, e2⟩ := hT e1
        have hk : (x : Cell) → (x = c ∧ dec32 t0 = 0 ∧ p.type ≠ .preparedState ∧ p.type ≠ .qubit ↔ x = c ∧ t0 = 1) := by
          intro x; rw [dec32_zero, hd]; simp
        refine ⟨⟨t0, T, dec32 t0, decide (t0 = 1), e1, e2, by rw [g3]; exact g1, by rw [hp]; exact .work hd, ?_, ?_⟩, ?_, ?_, ?_⟩
        · rw [g5 c, hk]
          show c ∈ s.magic ∨ _ ↔ _
          simp
        · rw [g4 c, hp]
          by_cases e : t0 = 1
          · rw [if_pos ((hk c).2 ⟨rfl, e⟩), if_pos (by simp [e])]
          · rw [if_neg (fun h => e ((hk c).1 h).2), if_neg (by simp [e])]
        · intro j hj
          rw [g3]
          exact List.getElem?_set_ne (Ne.symm hj)
        · intro x hx
          refine ⟨?_, by rw [g5 x]; simp [hx]⟩
          rw [g4 x, if_neg (by simp [hx])]
        · rw [g3]; exact List.length_set
      · cases h1
    · rename_i hd
      cases h1
      rw [hp] at g2
      cases g2
      obtain ⟨T, e2⟩ := hT g1
      refine ⟨?_, fun j _ => by rw [g3], fun x hx => ⟨by rw [g4 x, if_neg (by simp [hx])], by rw [g5 x]; simp [hx]⟩, by rw [g3]⟩
      by_cases hk : p.type = .preparedState ∨ p.type = .qubit
      · refine ⟨t, T, t, false, g1, e2, by rw [g3]; exact g1, by rw [hp]; exact .taken hk, ?_, ?_⟩
        · rw [g5 c]; simp only [true_and, Bool.false_eq_true, or_false]; tauto
        · rw [g4 c, hp, if_neg (by tauto)]; rfl
      · refine ⟨t, T, t, decide (t = 0), g1, e2, by rw [g3]; exact g1, by rw [hp]; exact .other hd (by tauto) (by tauto), ?_, ?_⟩
        · rw [g5 c]; simp only [true_and, decide_eq_true_eq]; tauto
        · rw [g4 c, hp]
          by_cases e : t = 0
          · rw [if_pos (by tauto), if_pos (by simp [e])]
          · rw [if_neg (by tauto), if_neg (by simp [e])]

theorem respawn_all {L : Layout} : ∀ {cs : List Cell} {i : Nat} {s s' : DSlice}, respawn L cs i s = .ok s' → cs.Nodup → s.times.length = L.times.length →
    (∀ k c, cs[k]? = some c → Kept L (i + k) c s s') ∧ (∀ x, x ∉ cs → s'.cells x = s.cells x ∧ (x ∈ s'.magic ↔ x ∈ s.magic)) ∧ ∀ j, j < i → s'.times[j]? = s.times[j]?
  | [], i, s, s', h, _, _ => by
    cases h
    exact ⟨fun k c h => (by cases h), fun _ _ => ⟨rfl, Iff.rfl⟩, fun _ _ => rfl⟩
  | c :: cs, i, s, s', h, hn, hL => by
    rw [respawn] at h
    obtain ⟨a, h1, h⟩ := Outcome.bind_eq_ok.1 h
    obtain ⟨b, h2, h⟩ := Outcome.bind_eq_ok.1 h
    obtain ⟨k1, k2, k3, k4⟩ := respawn_one h1 h2 hL
    rw [List.nodup_cons] at hn
    obtain ⟨i1, i2, i3⟩ := respawn_all h hn.2 (by rw [k4]; exact hL)
    refine ⟨?_, ?_, ?_⟩
    · intro k x hx
      cases k with
      | zero =>
        simp only [List.getElem?_cons_zero, Option.some.injEq] at hx
        subst hx
        obtain ⟨t, T, t', bb, e1, e2, e3, e4, e5, e6⟩ := k1.make
        obtain ⟨j1, j2⟩ := i2 c hn.1
        exact ⟨t, T, t', bb, e1, e2, by rw [Nat.add_zero, i3 i (by omega)]; exact e3, e4, j2.trans e5, j1.trans e6⟩
      | succ k =>
        rw [List.getElem?_cons_succ] at hx
        have hxc : x ≠ c := by rintro rfl; exact hn.1 (List.mem_of_getElem? hx)
        obtain ⟨t, T, t', bb, e1, e2, e3, e4, e5, e6⟩ := (i1 k x hx).make
        obtain ⟨j1, j2⟩ := k3 x hxc
        rw [show i + (k + 1) = i + 1 + k by omega]
        exact ⟨t, T, t', bb, by rw [← k2 _ (by omega)]; exact e1, e2, e3, j1 ▸ e4, e5.trans (or_congr_left j2), by rw [e6, j1]⟩
    · intro x hx
      rw [List.mem_cons, not_or] at hx
      obtain ⟨j1, j2⟩ := k3 x hx.1
      obtain ⟨j3, j4⟩ := i2 x hx.2
      exact ⟨j3.trans j1, j4.trans j2⟩
    · intro j hj
      rw [i3 j (by omega), k2 j (by omega)]

namespace Spec

section
variable {ρ : Type} {ctx : Ctx ρ} {realloc : Nat → Bool} {P : List Instr} {ids : List Nat} {s : DSlice} {rs : ρ} {n : Nat} {k : Loop} {A B : List (Obs (Mach ρ))} {m : Mach ρ}

/-- A magic state is being made on the cell. -/
def Busy (p : DensePatch) : Prop := p.type = .distillation

/-- C73 on layouts with reserved cells: between a slice shown and the next attempt, each reserved cell
* that is empty, once what has been measured is gone, starts a new magic state that takes the time of the layout;
* that is at work has one slice less to go, and holds a magic state if that was the last;
* that holds a qubit or a prepared state stays as it is, and so does its time;
* that holds anything else gets a magic state in its place if its time is zero.
All other cells and their places in the queue stay as they are. -/
theorem c73_reserved (hm : ctx.layout.magicReserved = true) (hd : ctx.layout.reserved.Nodup) (hs : DSlice.init ctx.layout ids = .ok s)
    (h : Account (env ctx realloc) P ⟨s, rs, n⟩ k (A ++ .slice m :: B)) (hB : B ≠ []) :
    ∃ r u B' t, Play (env ctx realloc) r u B' t ∧ (B = B' ∨ B = B' ++ [.slice t]) ∧
      (∀ (i : Nat) c, ctx.layout.reserved[i]? = some c → ∃ t T, m.slice.times[i]? = some t ∧ ctx.layout.times[i]? = some T ∧
        (cleared m.slice c = true → u.slice.times[i]? = some T ∧ ∃ p, u.slice.cells c = some p ∧ (0 < T → Busy p) ∧ (T = 0 → Magic p ∧ c ∈ u.slice.magic)) ∧
        ∀ p, m.slice.cells c = some p → cleared m.slice c = false →
          (Busy p → u.slice.times[i]? = some (if t = 0 then 2 ^ 32 - 1 else t - 1) ∧ ∃ q, u.slice.cells c = some q ∧ (t ≠ 1 → Busy q) ∧ (t = 1 → Magic q ∧ c ∈ u.slice.magic)) ∧
          (p.type = .preparedState ∨ p.type = .qubit → u.slice.times[i]? = some t ∧ ∃ q, u.slice.cells c = some q ∧ q.type = p.type ∧ q.id = p.id ∧ q.label = p.label) ∧
          (p.type ≠ .preparedState → p.type ≠ .qubit → ¬ Busy p → u.slice.times[i]? = some t ∧
            ∃ q, u.slice.cells c = some q ∧ (t = 0 → Magic q ∧ c ∈ u.slice.magic) ∧ (t ≠ 0 → q.type = p.type ∧ q.id = p.id ∧ q.label = p.label))) ∧
      (∀ c, c ∉ ctx.layout.reserved → (c ∈ u.slice.magic ↔ c ∈ m.slice.magic) ∧ (u.slice.cells c = none ↔ cleared m.slice c = true) ∧
        ∀ p, m.slice.cells c = some p → cleared m.slice c = false → ∃ q, u.slice.cells c = some q ∧ q.type = p.type ∧ q.id = p.id ∧ q.label = p.label) := by
  obtain ⟨r, h1, h2⟩ := account_play h rfl
  obtain ⟨u, B', t, h2, h3, h4⟩ := h2.resolve_left hB
  refine ⟨r, u, B', t, h3, h4, ?_⟩
  have hlen := play_length (start_clock hs).1 h1
  have hadv := step_advance h2
  unfold advance at hadv
  dsimp only at hadv
  rw [hm, if_pos rfl] at hadv
  obtain ⟨a, g, hadv⟩ := Outcome.bind_eq_ok.1 hadv
  have hu : u.slice.times = a.times ∧ u.slice.cells = a.cells ∧ u.slice.magic = a.magic := by
    have := Outcome.ok.inj hadv
    rw [← this]
    exact ⟨rfl, rfl, rfl⟩
  obtain ⟨hu1, hu2, hu3⟩ := hu
  rw [hu1, hu2, hu3]
  obtain ⟨j1, j2, -⟩ := respawn_all g hd hlen
  have hcc : ∀ c, m.slice.ageAll.cells c = none ↔ cleared m.slice c = true := by
    intro c
    rw [age_free]
    unfold cleared
    cases m.slice.cells c with
    | none => simp
    | some p => simp
  have haged : ∀ c p, m.slice.cells c = some p → cleared m.slice c = false → ∃ q, m.slice.ageAll.cells c = some q ∧ q.type = p.type ∧ q.id = p.id ∧ q.label = p.label := by
    intro c p hp hx
    have : m.slice.ageAll.cells c = age p := by unfold ageAll; dsimp only; rw [hp, Option.bind_some]
    cases ha : age p with
    | none => rw [← this, hcc c, hx] at ha; cases ha
    | some q =>
      obtain ⟨a1, a2, a3, -⟩ := (age_ok p).2 q ha
      exact ⟨q, this.trans ha, a1, a2, a3⟩
  have hmagic : Magic magicPatch := ⟨rfl, rfl, rfl, rfl⟩
  refine ⟨fun i c hc => ?_, fun c hc => ?_⟩
  · obtain ⟨t, T, t', b, e1, e2, e3, e4, e5, e6⟩ := (j1 i c hc).make
    rw [Nat.zero_add] at e1 e2 e3
    refine ⟨t, T, e1, e2, fun hx => ?_, fun p hp hx => ?_⟩
    · have hn := (hcc c).2 hx
      rw [hn] at e4 e6
      cases e4
      refine ⟨e3, ?_⟩
      by_cases hT : T = 0
      · rw [if_pos (by simp [hT])] at e6
        exact ⟨_, e6, fun h => by omega, fun _ => ⟨hmagic, e5.2 (.inr (by simp [hT]))⟩⟩
      · rw [if_neg (by simp [hT])] at e6
        exact ⟨_, e6, fun _ => rfl, fun h => absurd h hT⟩
    · obtain ⟨q, hq, q1, q2, q3⟩ := haged c p hp hx
      rw [hq] at e4 e6
      have hty : ∀ {x : PatchType}, q.type = x → p.type = x := fun h => q1 ▸ h
      refine ⟨fun hb => ?_, fun hk => ?_, fun n1 n2 n3 => ?_⟩
      · have hb : p.type = .distillation := hb
        cases e4 with
        | work hw =>
          refine ⟨e3, ?_⟩
          by_cases ht : t = 1
          · rw [if_pos (by simp [ht])] at e6
            exact ⟨_, e6, fun h => absurd ht h, fun _ => ⟨hmagic, e5.2 (.inr (by simp [ht]))⟩⟩
          · rw [if_neg (by simp [ht])] at e6
            exact ⟨_, e6, fun _ => hw, fun h => absurd h ht⟩
        | taken hw => rcases hw with hw | hw <;> (rw [hty hw] at hb; cases hb)
        | other hw _ _ => exact absurd (q1.trans hb) hw
      · cases e4 with
        | work hw => rcases hk with hk | hk <;> (rw [hty hw] at hk; cases hk)
        | taken hw => exact ⟨e3, _, e6, q1, q2, q3⟩
        | other hw w1 w2 => rcases hk with hk | hk <;> rw [← q1] at hk <;> contradiction
      · cases e4 with
        | work hw => exact absurd (hty hw) n3
        | taken hw => rcases hw with hw | hw <;> (have := hty hw; contradiction)
        | other hw w1 w2 =>
          refine ⟨e3, ?_⟩
          by_cases ht : t = 0
          · rw [if_pos (by simp [ht])] at e6
            exact ⟨_, e6, fun _ => ⟨hmagic, e5.2 (.inr (by simp [ht]))⟩, fun h => absurd ht h⟩
          · rw [if_neg (by simp [ht])] at e6
            exact ⟨_, e6, fun h => absurd h ht, fun _ => ⟨q1, q2, q3⟩⟩
  · obtain ⟨k1, k2⟩ := j2 c hc
    refine ⟨k2, by rw [k1]; exact hcc c, fun p hp hx => ?_⟩
    obtain ⟨q, hq, q1⟩ := haged c p hp hx
    exact ⟨q, k1.trans hq, q1⟩

end

/-- The reserved cells of a layout drawn as a grid are different ones. -/
theorem reserved_nodup {g : Layouts.Grid} {o : Layouts.Options} {L : Layout} (h : Layouts.fromGrid g o = .ok L) : L.reserved.Nodup := by
  obtain ⟨a, b, k, hl⟩ := Layouts.fromGrid_inv h
  rw [hl.eq]
  exact Layouts.findAll_nodup _ _

theorem ex_edpc_clock : clockOf (Slicer.program Slicer.Spec.edpcArgs Slicer.Spec.exWorld) = some (.finished, true, List.replicate 12 10, [10, 9, 8, 7, 6], 0, 5) := by decide +kernel

/-- The hypotheses of `c73_reserved`. -/
example : ∃ (ρ : Type) (ctx : Ctx ρ) (P : List Instr) (realloc : Nat → Bool) (ids : List Nat) (s : DSlice) (rs : ρ) (l : Loop) (A B : List (Obs (Mach ρ))) (m : Mach ρ),
    ctx.layout.magicReserved = true ∧ ctx.layout.reserved.Nodup ∧ ctx.layout.times.length = 12 ∧ DSlice.init ctx.layout ids = .ok s ∧
      Account (env ctx realloc) P ⟨s, rs, 1⟩ l (A ++ .slice m :: B) ∧ B ≠ [] := by
  obtain ⟨j, P, r, t, h, h1, h2, h3, h4, h5, h6⟩ := clock_sliced ex_edpc_clock
  obtain ⟨ρ, ctx, s, rs, l, A, B, m, e1, e2, e3, e4, e5⟩ := account_of (k := 2) h (by omega)
  obtain ⟨g, hg⟩ := (Slicer.prepared (Slicer.program_sliced h).1).grid
  exact ⟨ρ, ctx, P, _, _, s, rs, l, A, B, m, by rw [e1]; exact h2, by rw [e1]; exact reserved_nodup hg, by rw [e1, h3]; rfl, e2, e3, e5⟩

end Spec

end Verif.Clock
