import Verif.Compiled
import Verif.LayoutProps

/-! # Programs that come from the compiler (C56, C62, C63)

The theorems on slices shown in a run have hypotheses on the program. Here they are replaced by the hypothesis that the program was
compiled from gates, and those on the first slice by the hypothesis that the layout was made from a grid. -/

namespace Verif.Compiled.Spec

open Verif Verif.Stream Verif.Stream.Spec Verif.Apply Verif.Wave Verif.Pipe Verif.Pipe.Spec Verif.Router Verif.Layouts Verif.Layouts.Spec Verif.Real Verif.Real.Spec

/-- A run starts with the router that searches a new route each time, be it edge-disjoint or not, or with the router that stores routes and has
stored none yet, or with the router that uses Boost, and that may store routes too. -/
inductive Usual : {ρ : Type} → Ctx ρ → ρ → Prop
  | search {ctx : Ctx Unit} (pick : Search.Pick) (stop edpc : Bool) (h : ctx.router = dpRouter ctx.layout pick stop edpc) : Usual ctx ()
  | stored {ctx : Ctx Cache} (pick : Search.Pick) (stop : Bool) (h : ctx.router = cachedRouter ctx.layout pick stop) : Usual ctx fun _ => none
  | boost {ctx : Ctx Unit} (pick : Boost.Pick) (h : ctx.router = Boost.boostRouter ctx.layout pick) : Usual ctx ()
  | storedBoost {ctx : Ctx Cache} (pick : Boost.Pick) (h : ctx.router = Boost.storedRouter ctx.layout pick) : Usual ctx fun _ => none

/-- `P` is compiled from a program for a register of `n` qubits, and there are ids for all patches it makes. -/
structure Made (n : Nat) (P : List Instr) : Prop where
  comes : ∃ m ex prog, Compiles m n ex prog P
  size : n < 2 ^ 32
  fits : n + (introduced P).length ≤ 2 ^ 32

theorem core_nodup (n : Nat) : (coreQubits n).Nodup := List.nodup_range

theorem grid_core {g : Grid} {o : Options} {L : Layout} (h : fromGrid g o = .ok L) : ∀ p ∈ L.core, p.activity ≠ .edpc := by
  obtain ⟨a, b, k, hl⟩ := fromGrid_inv h
  rw [hl.eq]
  intro p hp
  obtain ⟨c, -, rfl⟩ := List.mem_map.1 hp
  simp [basicSquare]

theorem Made.block {n : Nat} {P : List Instr} (h : Made n P) : Block P := by
  obtain ⟨m, ex, prog, hc⟩ := h.comes
  exact compiled_block hc

theorem Made.fresh {n : Nat} {P : List Instr} (h : Made n P) : (introduced P).Nodup ∧ ∀ x ∈ introduced P, n ≤ x := by
  obtain ⟨m, ex, prog, hc⟩ := h.comes
  exact c11_fresh m n ex prog P hc h.fits h.size

theorem Made.proper {n : Nat} {P : List Instr} (h : Made n P) : Real.Proper (fun _ => True) (coreQubits n) P :=
  h.block.proper h.fresh.1 fun x hx hc => by have := h.fresh.2 x hx; have := List.mem_range.1 hc; omega

section
variable {ρ : Type} {ctx : Ctx ρ} {realloc : Nat → Bool} {rs : ρ} {g : Grid} {o : Options} {n : Nat} {P : List Instr} {s : DSlice}

/-- C62 for compiled programs: in every pipeline, the qubits of the register stay on the qubit cells of the grid, the first on the first one in
reading order, and so on. On every slice shown, each is on its cell or that cell is kept busy by a rotation; and it is on no other cell. -/
theorem c62_compiled (hu : Usual ctx rs) (hL : fromGrid g o = .ok ctx.layout) (hP : Made n P) (hs : DSlice.init ctx.layout (coreQubits n) = .ok s) :
    ∃ cs : List Cell, cs.Pairwise Before ∧ (∀ c, c ∈ cs ↔ At g c .qubit) ∧ ∀ q, q < n → ∃ c, cs[q]? = some c ∧
      ∀ k A m B, Account (env ctx realloc) P ⟨s, rs, 1⟩ k (A ++ .slice m :: B) →
        (There m.slice c q ∨ Rotates m.slice c) ∧ ∀ x p, m.slice.cells x = some p → p.id = some q → x = c := by
  have hn : (coreQubits n).length ≤ ctx.layout.core.length := by
    apply Nat.le_of_not_lt; intro hlt; rw [c53_too_many hlt] at hs; cases hs
  obtain ⟨s', h1, hsh, -⟩ := c53_first_slice hL hn
  rw [h1] at hs
  cases hs
  obtain ⟨cs, hb, hcs, hq, -⟩ := hsh.qubits
  refine ⟨cs, hb, hcs, fun q hqn => ?_⟩
  obtain ⟨c, p, e1, e2, e3, e4, e5, -⟩ := hq q q (by simp [coreQubits, hqn])
  refine ⟨c, e1, fun k A m B h => ?_⟩
  have hfree : q ∉ introduced P := fun hx => by have := hP.fresh.2 q hx; omega
  have hkeep := fun i hi => hP.block.keeps hfree (i := i) hi
  have hA : ∀ i ∈ instrs A, ¬ Spec.Removes q i := fun i hi hr =>
    account_harmless (fun i hi => (hkeep i hi).1) h i hi (removes_iff.2 hr)
  have hPl : ∀ i ∈ P, Slices.Spec.Plain i ∧ ¬ Spec.Makes q i := fun i hi =>
    ⟨(sound_iff.1 (hP.block.sound i hi)).1, fun hm => (hkeep i hi).2 (makes_iff.2 hm)⟩
  cases hu with
  | search pick stop edpc hr =>
    cases edpc with
    | false => exact c62_home hr (core_nodup n) hPl (grid_core hL) h1 ⟨p, e2, e5, e3, e4⟩ h hA
    | true => exact c62_edpc hr (core_nodup n) hPl (grid_core hL) h1 ⟨p, e2, e5, e3, e4⟩ h hA
  | stored pick stop hr => exact c62_cached hr (core_nodup n) hPl (grid_core hL) h1 ⟨p, e2, e5, e3, e4⟩ h hA
  | boost pick hr => exact c62_boost hr (core_nodup n) hPl (grid_core hL) h1 ⟨p, e2, e5, e3, e4⟩ h hA
  | storedBoost pick hr => exact c62_stored hr (core_nodup n) hPl (grid_core hL) h1 ⟨p, e2, e5, e3, e4⟩ h hA

/-- C59 for layouts made from a grid: in every pipeline and with every router, the qubits that a run starts with are on the qubit cells of the grid in reading order,
and each stays there until an instruction is shown that measures it, rotates it or hands it back. -/
theorem c59_grid (hu : Usual ctx rs) (hL : fromGrid g o = .ok ctx.layout) {ids : List Nat} (hids : ids.Nodup) (hP : ∀ i ∈ P, Slices.Spec.Plain i) (hs : DSlice.init ctx.layout ids = .ok s) :
    ∃ cs : List Cell, cs.Pairwise Before ∧ (∀ c, c ∈ cs ↔ At g c .qubit) ∧ ∀ (j : Nat) q, ids[j]? = some q → ∃ c, cs[j]? = some c ∧
      ∀ k A m B, Account (env ctx realloc) P ⟨s, rs, 1⟩ k (A ++ .slice m :: B) → (∀ i ∈ instrs A, ¬ Spec.Takes q i) → There m.slice c q := by
  have hn : ids.length ≤ ctx.layout.core.length := by
    apply Nat.le_of_not_lt; intro hlt; rw [c53_too_many hlt] at hs; cases hs
  obtain ⟨s', h1, hsh, -⟩ := c53_first_slice hL hn
  rw [h1] at hs
  cases hs
  obtain ⟨cs, hb, hcs, hq, -⟩ := hsh.qubits
  refine ⟨cs, hb, hcs, fun j q hj => ?_⟩
  obtain ⟨c, p, e1, e2, e3, e4, e5, -⟩ := hq j q hj
  refine ⟨c, e1, fun k A m B h hA => ?_⟩
  cases hu with
  | search pick stop edpc hr =>
    cases edpc with
    | false => exact c59_stays hr hids hP (grid_core hL) h1 ⟨p, e2, e5, e3, e4⟩ h hA
    | true => exact c59_edpc hr hids hP (grid_core hL) h1 ⟨p, e2, e5, e3, e4⟩ h hA
  | stored pick stop hr => exact c59_cached hr hids hP (grid_core hL) h1 ⟨p, e2, e5, e3, e4⟩ h hA
  | boost pick hr => exact c59_boost hr hids hP (grid_core hL) h1 ⟨p, e2, e5, e3, e4⟩ h hA
  | storedBoost pick hr => exact c59_stored hr hids hP (grid_core hL) h1 ⟨p, e2, e5, e3, e4⟩ h hA

theorem shown_by {k : Loop} {A : List (Obs (Mach ρ))} {m : Mach ρ} (hd : k = .wave → ctx.router.edpc = false) (hs : DSlice.init ctx.layout (coreQubits n) = .ok s)
    (h : Account (env ctx realloc) P ⟨s, rs, 1⟩ k A) (hm : m ∈ slices A) : ShownBy ctx realloc (coreQubits n) P m := by
  cases h with
  | streamed k h =>
    refine .streamed hs rs 1 k h ?_
    obtain ⟨x, hx, e⟩ := List.mem_filterMap.1 hm
    obtain ⟨y, hy, e'⟩ := List.mem_filterMap.1 hx
    cases x with
    | instr i => cases e
    | slice z =>
      cases e
      cases y <;> simp [Ev.obs] at e'
      subst e'
      exact hy
  | dag k h0 h =>
    refine .dag hs rs 1 k h0 h ?_
    rw [← (c57_dag _ _ _ _ _ _ h0 h).2.2]
    exact hm
  | wave d k hf h =>
    refine .wave hs rs 1 k d (hd rfl) hf h ?_
    rw [← (c57_wave _ _ _ _ _ _ h).2.2]
    exact hm

/-- C56 for compiled programs: outside of edge-disjoint routing every slice shown has all its patches inside the grid and each id at most once. -/
theorem c56_compiled (hP : Made n P) (hs : DSlice.init ctx.layout (coreQubits n) = .ok s) {k : Loop} (hd : k = .wave → ctx.router.edpc = false) {A : List (Obs (Mach ρ))}
    (h : Account (env ctx realloc) P ⟨s, rs, 1⟩ k A) {m : Mach ρ} (hm : m ∈ slices A) {c : Cell} {p : DensePatch} (hc : m.slice.cells c = some p) :
    (0 ≤ c.row ∧ c.row < m.slice.rows ∧ 0 ≤ c.col ∧ c.col < m.slice.cols) ∧ ∀ n, p.id = some n → ∀ c' p', m.slice.cells c' = some p' → p'.id = some n → c' = c := by
  obtain ⟨h1, h2⟩ := c56_ids (core_nodup n) hP.proper (shown_by hd hs h hm) hc
  exact ⟨h1, fun x hx => (h2 x hx).2⟩

/-- C63 for compiled programs: whatever has been shown up to a slice can be written. -/
theorem c63_compiled (hP : Made n P) {x : Mach ρ} {k : Loop} {A B : List (Obs (Mach ρ))} {m : Mach ρ} (h : Account (env ctx realloc) P x k (A ++ .slice m :: B)) :
    ∃ t, Sliced.slicedLli (A ++ [.slice m]) = .ok t :=
  Sliced.Spec.c63_defined (fun i hi => ⟨(sound_iff.1 (hP.block.sound i hi)).1, (sound_iff.1 (hP.block.sound i hi)).2.1⟩) h

end

end Verif.Compiled.Spec
