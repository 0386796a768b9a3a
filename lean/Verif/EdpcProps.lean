import Verif.EdpcRun
import Verif.CourseProps
import Verif.StayRun

/-! # The sides of patches under edge-disjoint routing (C77) -/

namespace Verif.Edpc.Spec

open Verif Apply Router.Spec

/-- No route is being marked: no cell holds a routing mark of this slice, and nothing is noted. Cells still reserved by routes of earlier slices may be there. -/
structure Unrouted (s : DSlice) : Prop where
  marks : ∀ c p, s.cells c = some p → p.activity ≠ .edpc
  noted : s.markedRough = [] ∧ s.markedSmooth = []
  crossings : s.crossing = []

/-- Attempts at CNOTs based on Bell pairs, any number of them, each of one that has no local instructions yet. -/
inductive Attempted (ctx : Ctx Unit) : Mach Unit → Mach Unit → Prop where
  | none (m : Mach Unit) : Attempted ctx m m
  | more {m m1 : Mach Unit} {i : Instr} {c : BellCNOT} {r : Wave.Res (Mach Unit)} (h : Attempted ctx m m1) (hi : i.op = .bellCnot c) (hc : c.counterPairs = none)
      (ha : Apply.apply ctx m1 i = .ok r) : Attempted ctx m r.slice

theorem bare_of {t : DSlice} (h : Unrouted t) : Bare t := ⟨h.marks, h.noted.1, h.noted.2, h.crossings⟩

theorem attempted_inv {ctx : Ctx Unit} {pick : Search.Pick} {stop : Bool} (hr : ctx.router = Router.dpRouter ctx.layout pick stop true) {m m' : Mach Unit} (hf : Router.Spec.Fits ctx.layout m.slice)
    (hu : Unrouted m.slice) (h : Attempted ctx m m') : Inv m.slice m'.slice (fun _ _ => False) (fun _ _ => False) := by
  have ht := bare_of hu
  induction h with
  | none => exact Inv.start ht
  | @more m1 i c r h hi hc ha ih =>
    rw [Apply.apply, hi] at ha
    change applyCnot ctx m1 i c = .ok r at ha
    unfold applyCnot at ha
    split at ha
    · cases ha
    · split at ha
      · split at ha
        · cases ha; exact ih
        · rw [if_pos (by rw [hr]; rfl)] at ha
          unfold applyCnotEdpc at ha
          rw [hc] at ha
          split at ha
          · unfold cnotRoute at ha
            obtain ⟨x, h1, ha⟩ := Outcome.bind_eq_ok.1 ha
            rw [hr] at h1
            obtain ⟨o, h2, h3⟩ := Outcome.bind_eq_ok.1 h1
            cases h3
            dsimp only at ha
            cases o with
            | none => cases ha; exact ih
            | some region =>
              dsimp only at ha
              split at ha
              · cases ha
              · rename_i hlen
                obtain ⟨R, h4, ha⟩ := Outcome.bind_eq_ok.1 ha
                obtain ⟨y, h5, ha⟩ := Outcome.bind_eq_ok.1 ha
                cases ha
                have hf' : Router.Spec.Fits ctx.layout m1.slice := by
                  unfold Router.Spec.Fits at hf ⊢
                  rw [ih.rows, ih.cols]; exact hf
                exact inv_route ht ih hf' h2 hlen h4 h5
          · unfold cnotDecompose at ha
            obtain ⟨e, -, ha⟩ := Outcome.bind_eq_ok.1 ha
            obtain ⟨p, -, ha⟩ := Outcome.bind_eq_ok.1 ha
            cases ha
            exact ih
      · cases ha; exact ih

/-- C77: whatever routes are marked, and however they cross, resetting the noted sides succeeds and gives every patch back exactly as it was. -/
theorem c77_restored {ctx : Ctx Unit} {pick : Search.Pick} {stop : Bool} (hr : ctx.router = Router.dpRouter ctx.layout pick stop true) {m m' : Mach Unit} (hf : Router.Spec.Fits ctx.layout m.slice)
    (hu : Unrouted m.slice) (h : Attempted ctx m m') :
    ∃ s, resetMarked m'.slice = .ok s ∧ s.markedRough = [] ∧ s.markedSmooth = [] ∧ (∀ c p, m.slice.cells c = some p → s.cells c = some p) ∧
      ∀ c p, m.slice.cells c = none → s.cells c = some p → p.activity = .edpc ∧ p.id = none :=
  (attempted_inv hr hf hu h).reset

/-- C77: the patches themselves stay, and all that can differ is the label of a side; the active flag of the side is kept. -/
theorem c77_sides {ctx : Ctx Unit} {pick : Search.Pick} {stop : Bool} (hr : ctx.router = Router.dpRouter ctx.layout pick stop true) {m m' : Mach Unit} (hf : Router.Spec.Fits ctx.layout m.slice)
    (hu : Unrouted m.slice) (h : Attempted ctx m m') {c : Cell} {p : DensePatch} (hp : m.slice.cells c = some p) :
    ∃ q, m'.slice.cells c = some q ∧ q.toPatch = p.toPatch ∧ ∀ d, q.bounds.get d = p.bounds.get d ∨
      (((p.bounds.get d).ty = .rough ∨ (p.bounds.get d).ty = .smooth) ∧ ((q.bounds.get d).ty = .reserved1 ∨ (q.bounds.get d).ty = .reserved2) ∧
        (q.bounds.get d).active = (p.bounds.get d).active) := by
  have hi := attempted_inv hr hf hu h
  obtain ⟨q, h1, h2⟩ := hi.data c p hp
  refine ⟨q, h1, h2, fun d => ?_⟩
  obtain ⟨b, g1, g2, g3⟩ := hi.kept c p d hp
  rw [side_some h1] at g1
  cases g1
  rcases g3 with ⟨g3, g4⟩ | ⟨-, g4⟩
  · right
    refine ⟨?_, by simpa [DSlice.reservedType] using g4, g2⟩
    rcases g3 with g | g
    · exact .inl g.2.2
    · exact .inr g.2.2
  · exact .inl (g4.resolve_right id)

/-- C77: where the side of a cell of a route is labelled, the cell beyond it holds a patch too, and its side carries the same label. -/
theorem c77_labels {ctx : Ctx Unit} {pick : Search.Pick} {stop : Bool} (hr : ctx.router = Router.dpRouter ctx.layout pick stop true) {m m' : Mach Unit} (hf : Router.Spec.Fits ctx.layout m.slice)
    (hu : Unrouted m.slice) (h : Attempted ctx m m') {c n : Cell} {p : DensePatch} {d e : CellDirection} (hp : m'.slice.cells c = some p) (ha : p.activity = .edpc)
    (hl : (p.bounds.get d).ty = .reserved1 ∨ (p.bounds.get d).ty = .reserved2) (hn : Faces c n d) (hc : Faces n c e) :
    ∃ q, m'.slice.cells n = some q ∧ (q.bounds.get e).ty = (p.bounds.get d).ty := by
  have hi := attempted_inv hr hf hu h
  have ht := bare_of hu
  have htc : m.slice.cells c = none := by
    cases hq : m.slice.cells c with
    | none => rfl
    | some q =>
      obtain ⟨p', g1, g2⟩ := hi.data c q hq
      rw [hp] at g1; cases g1
      exact absurd ((congrArg Patch.activity g2).symm.trans ha) (hu.marks c q hq)
  have hrs : rsv m'.slice c d := by unfold rsv; rw [ty_some hp]; simpa [DSlice.reservedType] using hl
  have he : e = d.flip := faces_dir hc (faces_back hn)
  subst he
  have h1 := (hi.edge c n d htc hrs hn id).1
  obtain ⟨q, hq⟩ := rsv_patch (rsv_of (s := m'.slice) h1 hrs)
  refine ⟨q, hq, ?_⟩
  rw [ty_some hq, ty_some hp] at h1
  exact h1

/-! ### Three routes that cross -/

open Verif.Course.Spec

def ringAttempt (m : Mach Unit) (i : Instr) : Outcome (Mach Unit) := do
  let r ← Apply.apply ringCtx m i
  .ok r.slice

/-- The three CNOTs are given their routes. -/
def ringMarked : Outcome (DSlice × Mach Unit) := do
  let s ← DSlice.init ringLayout (List.range 6)
  let m ← ringAttempt ⟨s, (), 0⟩ (ringCnot 5 3 100)
  let m ← ringAttempt m (ringCnot 1 4 102)
  let m ← ringAttempt m (ringCnot 0 2 104)
  .ok (s, m)

theorem ring_marked : ∃ s m, ringMarked = .ok (s, m) ∧ m.slice.crossing = [⟨2, 2⟩, ⟨2, 1⟩] ∧ m.slice.markedRough.length = 3 ∧ m.slice.markedSmooth.length = 3 := by
  obtain ⟨⟨s, m⟩, h1, h2⟩ := Pipe.Spec.of_view ringMarked (fun x => (x.2.slice.crossing, x.2.slice.markedRough.length, x.2.slice.markedSmooth.length))
    ([⟨2, 2⟩, ⟨2, 1⟩], 3, 3) (by decide +kernel)
  simp only [Prod.mk.injEq] at h2
  exact ⟨s, m, h1, h2⟩

/-- The first slice has no route, if none is in the layout. -/
theorem init_unrouted {L : Layout} {ids : List Nat} {s : DSlice} (h : DSlice.init L ids = .ok s) (hL : ∀ p ∈ L.core, p.activity ≠ .edpc) : Unrouted s := by
  have hput : ∀ {a : DSlice} {c : Cell} {p : DensePatch}, Unrouted a → p.activity ≠ .edpc → Unrouted (a.put c (some p)) := by
    intro a c p ha hp
    refine ⟨fun x q hx => ?_, ha.noted, ha.crossings⟩
    rw [DSlice.put_cells] at hx
    by_cases hxc : x = c
    · subst hxc; rw [upd_same] at hx; cases hx; exact hp
    · rw [upd_other _ _ hxc] at hx; exact ha.marks x q hx
  have hcore : ∀ (ps : List SparsePatch) (is : List Nat) (a b : DSlice), (∀ p ∈ ps, p.activity ≠ .edpc) → Unrouted a → DSlice.placeCore ps is a = .ok b → Unrouted b := by
    intro ps
    induction ps with
    | nil => intro is a b _ ha h; rw [DSlice.placeCore] at h <;> first | (cases h; exact ha) | simp
    | cons p ps ih =>
      intro is a b hps ha h
      cases is with
      | nil => rw [DSlice.placeCore] at h <;> first | (cases h; exact ha) | simp
      | cons i is =>
        rw [DSlice.placeCore] at h
        obtain ⟨r, h1, h⟩ := Outcome.bind_eq_ok.1 h
        obtain ⟨o, ho⟩ := placeSingle_single h1
        obtain ⟨-, -, rfl⟩ := DSlice.placeSingle_ok ho h1
        refine ih _ _ _ (fun q hq => hps q (List.mem_cons_of_mem _ hq)) ?_ h
        unfold DSlice.modPatch
        rw [DSlice.put_cells, upd_same]
        exact hput (hput ha (hps p (List.mem_cons_self ..))) (hps p (List.mem_cons_self ..))
  have hy : ∀ (cs : List Cell) (a b : DSlice), Unrouted a → DSlice.placeY cs a = .ok b → Unrouted b := by
    intro cs
    induction cs with
    | nil => intro a b ha h; cases h; exact ha
    | cons c cs ih =>
      intro a b ha h
      rw [DSlice.placeY] at h
      obtain ⟨r, h1, h⟩ := Outcome.bind_eq_ok.1 h
      obtain ⟨-, -, rfl⟩ := DSlice.placeSingle_ok rfl h1
      refine ih _ _ ?_ h
      have hk : ∀ (b : CellBoundaries) (n : Nat), Unrouted { a.put c (some ⟨(basicSquare c none none).toPatch, b⟩) with yAvail := n } := by
        intro b n
        have := hput (c := c) (p := ⟨(basicSquare c none none).toPatch, b⟩) ha (show PatchActivity.none ≠ .edpc by decide)
        exact ⟨this.marks, this.noted, this.crossings⟩
      exact hk _ _
  have has : ∀ (cs : List (Cell × DensePatch)) (a b : DSlice), (∀ x ∈ cs, x.2.activity ≠ .edpc) → Unrouted a → DSlice.assignAll cs a = .ok b → Unrouted b := by
    intro cs
    induction cs with
    | nil => intro a b _ ha h; cases h; exact ha
    | cons c cs ih =>
      intro a b hcs ha h
      rw [DSlice.assignAll] at h
      obtain ⟨r, h1, h⟩ := Outcome.bind_eq_ok.1 h
      unfold DSlice.assign at h1
      split at h1
      · cases h1
        exact ih _ _ (fun x hx => hcs x (List.mem_cons_of_mem _ hx)) (hput ha (hcs c (List.mem_cons_self ..))) h
      · cases h1
  unfold DSlice.init at h
  split at h
  · cases h
  · obtain ⟨s1, h1, h⟩ := Outcome.bind_eq_ok.1 h
    obtain ⟨s2, h2, h⟩ := Outcome.bind_eq_ok.1 h
    obtain ⟨s3, h3, h⟩ := Outcome.bind_eq_ok.1 h
    obtain ⟨s4, h4, h⟩ := Outcome.bind_eq_ok.1 h
    have k1 := hcore _ _ _ _ hL ⟨fun c p hp => (by cases hp), ⟨rfl, rfl⟩, rfl⟩ h1
    have k2 := hy _ _ _ k1 h2
    have k3 := has _ _ _ (by simp only [List.mem_map]; rintro x ⟨o, -, rfl⟩; simp [DSlice.distillationPatch]) k2 h3
    have k4 := has _ _ _ (by simp only [List.mem_map]; rintro x ⟨o, -, rfl⟩; simp [DSlice.distillationPatch]) k3 h4
    refine has (L.dead.map fun c => (c, DSlice.deadPatch)) { s4 with times := L.times } _ ?_ ⟨k4.marks, k4.noted, k4.crossings⟩ h
    simp only [List.mem_map]; rintro x ⟨o, -, rfl⟩; simp [DSlice.deadPatch]

/-- The hypotheses of the theorems: three routes are marked that cross in two cells. -/
example : ∃ m m' : Mach Unit, ringCtx.router = Router.dpRouter ringCtx.layout Router.pickMin false true ∧ Router.Spec.Fits ringCtx.layout m.slice ∧ Unrouted m.slice ∧ Attempted ringCtx m m' ∧
    m'.slice.crossing = [⟨2, 2⟩, ⟨2, 1⟩] ∧ m'.slice.markedRough.length = 3 ∧ m'.slice.markedSmooth.length = 3 := by
  obtain ⟨s, m, h, g⟩ := ring_marked
  unfold ringMarked at h
  obtain ⟨s0, h0, h⟩ := Outcome.bind_eq_ok.1 h
  obtain ⟨m1, h1, h⟩ := Outcome.bind_eq_ok.1 h
  obtain ⟨m2, h2, h⟩ := Outcome.bind_eq_ok.1 h
  obtain ⟨m3, h3, h⟩ := Outcome.bind_eq_ok.1 h
  cases h
  unfold ringAttempt at h1 h2 h3
  obtain ⟨r1, a1, k1⟩ := Outcome.bind_eq_ok.1 h1
  obtain ⟨r2, a2, k2⟩ := Outcome.bind_eq_ok.1 h2
  obtain ⟨r3, a3, k3⟩ := Outcome.bind_eq_ok.1 h3
  cases k1; cases k2; cases k3
  refine ⟨⟨s, (), 0⟩, r3.slice, rfl, ?_, init_unrouted h0 (by decide +kernel), .more (.more (.more (.none _) rfl rfl a1) rfl rfl a2) rfl rfl a3, g⟩
  have h9 := init_size h0
  have e1 : ringLayout.furthest = ⟨4, 3⟩ := by decide +kernel
  rw [e1] at h9
  simp only [Prod.mk.injEq] at h9
  show Router.Spec.Fits ringLayout s
  unfold Router.Spec.Fits
  rw [e1, h9.1, h9.2]
  decide

end Verif.Edpc.Spec
