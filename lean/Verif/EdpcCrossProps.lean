import Verif.EdpcCross
import Verif.EdpcProps
import Verif.BellRun

/-! # Edge-disjoint routes (C78) -/

namespace Verif.Edpc.Spec

open Verif Apply Router.Spec

/-- Attempts at CNOTs based on Bell pairs, each of one that has no local instructions yet, and the routes they were given, the last one first. The route is read off the
instruction that is to be carried on with. -/
inductive Laid (ctx : Ctx Unit) (m : Mach Unit) : List (List Cell) → Mach Unit → Prop where
  | none : Laid ctx m [] m
  | route {m1 : Mach Unit} {Rs : List (List Cell)} {i j : Instr} {c c' : BellCNOT} {region : RoutingRegion} {r : Wave.Res (Mach Unit)} (h : Laid ctx m Rs m1) (hi : i.op = .bellCnot c)
      (hc : c.route = none) (ha : Apply.apply ctx m1 i = .ok r) (hj : j ∈ r.followups) (hjc : j.op = .bellCnot c') (hr : c'.route = some region) :
      Laid ctx m (region.cells.map (·.cell) :: Rs) r.slice
  | refused {m1 : Mach Unit} {Rs : List (List Cell)} {i : Instr} {c : BellCNOT} {r : Wave.Res (Mach Unit)} (h : Laid ctx m Rs m1) (hi : i.op = .bellCnot c) (hc : c.route = none)
      (ha : Apply.apply ctx m1 i = .ok r) (hj : r.followups = []) : Laid ctx m Rs r.slice
  | compiled {m1 : Mach Unit} {Rs : List (List Cell)} {i : Instr} {c : BellCNOT} {r : Wave.Res (Mach Unit)} (h : Laid ctx m Rs m1) (hi : i.op = .bellCnot c) (hc : c.route ≠ none)
      (hp : c.counterPairs = none) (ha : Apply.apply ctx m1 i = .ok r) : Laid ctx m Rs r.slice

theorem linked_step {R : Cell → Cell → Prop} : ∀ {l : List Cell} {u v : Cell}, Linked R l → Step l u v → R u v
  | l, u, v, h, ⟨[], q, e⟩ => by subst e; exact h.1
  | l, u, v, h, ⟨x :: p, q, e⟩ => by
    subst e
    cases p with
    | nil => exact linked_step (l := u :: v :: q) h.2 ⟨[], q, rfl⟩
    | cons y p => exact linked_step (l := y :: (p ++ u :: v :: q)) h.2 ⟨y :: p, q, rfl⟩

theorem laid_inv {ctx : Ctx Unit} {pick : Search.Pick} {stop : Bool} (hr : ctx.router = Router.dpRouter ctx.layout pick stop true) {m m' : Mach Unit} {Rs : List (List Cell)}
    (hf : Router.Spec.Fits ctx.layout m.slice) (hu : Unrouted m.slice) (h : Laid ctx m Rs m') :
    Inv m.slice m'.slice (fun _ _ => False) (fun _ _ => False) ∧ Tracked m.slice Rs [] .reserved1 m'.slice ∧
      Rs.Pairwise (fun l k => ∀ u v, Step l u v → ¬ Step k u v ∧ ¬ Step k v u) ∧ ∀ l ∈ Rs, Linked Touching l ∧ ∃ b mid a, l = b :: (mid ++ [a]) ∧ 2 ≤ mid.length ∧ mid.Nodup ∧
        (∀ y ∈ mid, m.slice.cells y = none) ∧ m.slice.cells a ≠ none ∧ m.slice.cells b ≠ none := by
  have ht := bare_of hu
  induction h with
  | none =>
    refine ⟨Inv.start ht, ⟨fun l hl u v hst => ?_, fun c hc => ?_, fun _ => ?_⟩, .nil, by simp⟩
    · rw [List.mem_singleton] at hl; subst hl; exact absurd hst step_nil
    · rw [hc, ht.crossing]; simp [through]
    · refine ⟨fun c hc => ?_, .cons (by simp) .nil, fun z hz => by cases hz⟩
      rw [ht.crossing] at hc; cases hc
  | @route m1 Rs i j c c' region r h hi hc ha hj hjc hrt ih =>
    obtain ⟨i1, i2, i3, i4⟩ := ih
    rw [Apply.apply, hi] at ha
    change applyCnot ctx m1 i c = .ok r at ha
    unfold applyCnot at ha
    split at ha
    · cases ha
    · split at ha
      · split at ha
        · cases ha; cases hj
        · rw [if_pos (by rw [hr]; rfl)] at ha
          unfold applyCnotEdpc at ha
          rw [hc] at ha
          dsimp only at ha
          unfold cnotRoute at ha
          obtain ⟨x, h1, ha⟩ := Outcome.bind_eq_ok.1 ha
          rw [hr] at h1
          obtain ⟨o, h2, h3⟩ := Outcome.bind_eq_ok.1 h1
          cases h3
          dsimp only at ha
          cases o with
          | none => cases ha; cases hj
          | some reg =>
            dsimp only at ha
            split at ha
            · cases ha
            · rename_i hlen
              obtain ⟨R, h4, ha⟩ := Outcome.bind_eq_ok.1 ha
              obtain ⟨y, h5, ha⟩ := Outcome.bind_eq_ok.1 ha
              cases ha
              rw [List.mem_singleton] at hj
              subst hj
              cases hjc
              cases hrt
              have hf' : Router.Spec.Fits ctx.layout m1.slice := by
                unfold Router.Spec.Fits at hf ⊢
                rw [i1.rows, i1.cols]; exact hf
              obtain ⟨⟨k1, l, k2⟩, k3, k4, k5⟩ := inv_route_follows (tracked_follows (Rs := Rs)) i2 ht i1 hf' h2 hlen h4 h5
              have ec : y.2.cells.map (·.cell) = R.cells.map (·.cell) := mark_cells h5
              rw [ec]
              refine ⟨k1, ⟨fun l hl u v hst => ?_, fun c hc => ?_, fun hap => ?_⟩, .cons (fun k hk u v hst => ?_) i3, fun l hl => ?_⟩
              · rcases List.mem_cons.1 hl with rfl | hl
                · exact absurd hst step_nil
                · exact k2.steps l hl u v hst
              · have e0 : through ([] :: R.cells.map (·.cell) :: Rs) c = through (R.cells.map (·.cell) :: Rs) c := by rw [through_cons]; simp
                rw [e0]
                exact k2.count c hc
              · obtain ⟨u1, u2, -⟩ := k2.uniform hap
                have hno : ∀ x d, ¬ On [] x d := by rintro x d ⟨n, -, g | g⟩ <;> exact step_nil g
                refine ⟨fun x hx l hl d e a b => ?_, .cons (fun k _ x _ d e a => absurd a (hno x d)) u2, fun z hz => by cases hz⟩
                rcases List.mem_cons.1 hl with rfl | hl
                · exact absurd a (hno x d)
                · exact u1 x hx l hl d e a b
              · obtain ⟨d, hd⟩ := linked_step k4 hst
                have hfree := linked_step k3 hst d hd
                refine ⟨fun g => ?_, fun g => ?_⟩
                · have := i2.steps k (List.mem_cons_of_mem _ hk) u v g d hd
                  rcases hfree with q | q
                  · exact q this.1
                  · exact q this.2
                · have := i2.steps k (List.mem_cons_of_mem _ hk) v u g d.flip (faces_back hd)
                  rw [flip_flip] at this
                  rcases hfree with q | q
                  · exact q this.2
                  · exact q this.1
              · rcases List.mem_cons.1 hl with rfl | hl
                · exact ⟨k4, k5⟩
                · exact i4 l hl
      · cases ha; cases hj
  | @refused m1 Rs i c r h hi hc ha hj ih =>
    have : r.slice.slice = m1.slice := by
      rw [Apply.apply, hi] at ha
      change applyCnot ctx m1 i c = .ok r at ha
      unfold applyCnot at ha
      split at ha
      · cases ha
      · split at ha
        · split at ha
          · cases ha; rfl
          · rw [if_pos (by rw [hr]; rfl)] at ha
            unfold applyCnotEdpc at ha
            rw [hc] at ha
            dsimp only at ha
            unfold cnotRoute at ha
            obtain ⟨x, h1, ha⟩ := Outcome.bind_eq_ok.1 ha
            rw [hr] at h1
            obtain ⟨o, h2, h3⟩ := Outcome.bind_eq_ok.1 h1
            cases h3
            dsimp only at ha
            cases o with
            | none => cases ha; rfl
            | some reg =>
              dsimp only at ha
              split at ha
              · cases ha
              · obtain ⟨R, h4, ha⟩ := Outcome.bind_eq_ok.1 ha
                obtain ⟨y, h5, ha⟩ := Outcome.bind_eq_ok.1 ha
                cases ha
                cases hj
        · cases ha; rfl
    rw [this]; exact ih
  | @compiled m1 Rs i c r h hi hc hp ha ih =>
    have : r.slice.slice = m1.slice := by
      rw [Apply.apply, hi] at ha
      change applyCnot ctx m1 i c = .ok r at ha
      unfold applyCnot at ha
      split at ha
      · cases ha
      · split at ha
        · split at ha
          · cases ha; rfl
          · rw [if_pos (by rw [hr]; rfl)] at ha
            unfold applyCnotEdpc at ha
            rw [hp] at ha
            split at ha
            · rename_i hn; exact absurd hn hc
            · unfold cnotDecompose at ha
              obtain ⟨e, -, ha⟩ := Outcome.bind_eq_ok.1 ha
              obtain ⟨p, -, ha⟩ := Outcome.bind_eq_ok.1 ha
              cases ha
              rfl
        · cases ha; rfl
    rw [this]; exact ih

/-- C78: no two routes go between the same two cells, in one direction or the other. -/
theorem c78_disjoint {ctx : Ctx Unit} {pick : Search.Pick} {stop : Bool} (hr : ctx.router = Router.dpRouter ctx.layout pick stop true) {m m' : Mach Unit} {Rs : List (List Cell)}
    (hf : Router.Spec.Fits ctx.layout m.slice) (hu : Unrouted m.slice) (h : Laid ctx m Rs m') {i j : Nat} (hij : i ≠ j) {A B : List Cell} (hA : Rs[i]? = some A) (hB : Rs[j]? = some B)
    {u v : Cell} (hs : Step A u v) : ¬ Step B u v ∧ ¬ Step B v u := by
  obtain ⟨-, -, hp, -⟩ := laid_inv hr hf hu h
  obtain ⟨hi, rfl⟩ := List.getElem?_eq_some_iff.1 hA
  obtain ⟨hj, rfl⟩ := List.getElem?_eq_some_iff.1 hB
  rcases Nat.lt_or_gt_of_ne hij with g | g
  · exact List.pairwise_iff_getElem.1 hp i j hi hj g u v hs
  · have := List.pairwise_iff_getElem.1 hp j i hj hi g
    exact ⟨fun k => (this u v k).1 hs, fun k => (this v u k).2 hs⟩

/-- C78: a route goes from one patch to another, from cell to neighbouring cell, by way of cells that were free, none of them twice. -/
theorem c78_shape {ctx : Ctx Unit} {pick : Search.Pick} {stop : Bool} (hr : ctx.router = Router.dpRouter ctx.layout pick stop true) {m m' : Mach Unit} {Rs : List (List Cell)}
    (hf : Router.Spec.Fits ctx.layout m.slice) (hu : Unrouted m.slice) (h : Laid ctx m Rs m') {l : List Cell} (hl : l ∈ Rs) :
    (∀ u v, Step l u v → Touching u v) ∧ ∃ b mid a, l = b :: (mid ++ [a]) ∧ 2 ≤ mid.length ∧ mid.Nodup ∧ (∀ y ∈ mid, m.slice.cells y = none) ∧ m.slice.cells a ≠ none ∧ m.slice.cells b ≠ none := by
  obtain ⟨-, -, -, h4⟩ := laid_inv hr hf hu h
  exact ⟨fun u v hst => linked_step (h4 l hl).1 hst, (h4 l hl).2⟩

/-- C78: a cell that was free is on at most two of the routes; it is occupied just when it is on one of them, and is recorded as a crossing just when it is on two. -/
theorem c78_twice {ctx : Ctx Unit} {pick : Search.Pick} {stop : Bool} (hr : ctx.router = Router.dpRouter ctx.layout pick stop true) {m m' : Mach Unit} {Rs : List (List Cell)}
    (hf : Router.Spec.Fits ctx.layout m.slice) (hu : Unrouted m.slice) (h : Laid ctx m Rs m') {c : Cell} (hc : m.slice.cells c = none) :
    (Rs.filter (c ∈ ·)).length ≤ 2 ∧ (m'.slice.cells c = none ↔ ∀ l ∈ Rs, c ∉ l) ∧ (c ∈ m'.slice.crossing ↔ (Rs.filter (c ∈ ·)).length = 2) := by
  obtain ⟨-, hk, -, -⟩ := laid_inv hr hf hu h
  obtain ⟨k1, k2, k3⟩ := hk.count c hc
  rw [through_cons, if_neg (by simp), Nat.zero_add] at k1 k2 k3
  have e : through Rs c = (Rs.filter (c ∈ ·)).length := List.countP_eq_length_filter
  rw [e] at k1 k2 k3
  refine ⟨k1, k2.trans ?_, k3⟩
  rw [List.length_eq_zero_iff, List.filter_eq_nil_iff]
  simp

/-- C78: where a route goes from one cell to the next, the sides of both are labelled for routes, with the same label. -/
theorem c78_labelled {ctx : Ctx Unit} {pick : Search.Pick} {stop : Bool} (hr : ctx.router = Router.dpRouter ctx.layout pick stop true) {m m' : Mach Unit} {Rs : List (List Cell)}
    (hf : Router.Spec.Fits ctx.layout m.slice) (hu : Unrouted m.slice) (h : Laid ctx m Rs m') {l : List Cell} (hl : l ∈ Rs) {u v : Cell} (hs : Step l u v) :
    ∃ d p q, Faces u v d ∧ m'.slice.cells u = some p ∧ m'.slice.cells v = some q ∧ ((p.bounds.get d).ty = .reserved1 ∨ (p.bounds.get d).ty = .reserved2) ∧
      (q.bounds.get d.flip).ty = (p.bounds.get d).ty := by
  obtain ⟨hi, hk, -, h4⟩ := laid_inv hr hf hu h
  obtain ⟨d, hd⟩ := linked_step (h4 l hl).1 hs
  obtain ⟨k1, k2⟩ := hk.steps l (List.mem_cons_of_mem _ hl) u v hs d hd
  obtain ⟨p, hp⟩ := rsv_patch k1
  obtain ⟨q, hq⟩ := rsv_patch k2
  refine ⟨d, p, q, hd, hp, hq, ?_, ?_⟩
  · unfold rsv at k1; rw [ty_some hp] at k1
    simpa [DSlice.reservedType] using k1
  · rw [← ty_some hp, ← ty_some hq]
    by_cases hu0 : m.slice.cells u = none
    · exact (hi.edge u v d hu0 k1 hd id).1
    · have hv0 : m.slice.cells v = none := by
        obtain ⟨-, b, mid, a, e, hlen, -, hmid, -, -⟩ := h4 l hl
        subst e
        obtain ⟨P, Q, e⟩ := hs
        cases P with
        | nil =>
          simp only [List.nil_append, List.cons.injEq] at e
          cases mid with
          | nil => simp at hlen
          | cons y mid =>
            simp only [List.cons_append, List.cons.injEq] at e
            rw [← e.2.1]; exact hmid y (List.mem_cons_self ..)
        | cons z P =>
          simp only [List.cons_append, List.cons.injEq] at e
          have hum : u ∈ mid := by
            rcases List.eq_nil_or_concat Q with rfl | ⟨Q', w, rfl⟩
            · have e1 : mid ++ [a] = (P ++ [u]) ++ [v] := by simpa using e.2
              rw [(List.append_inj' e1 rfl).1]; simp
            · have e1 : mid ++ [a] = (P ++ u :: v :: Q') ++ [w] := by simpa [List.concat_eq_append] using e.2
              rw [(List.append_inj' e1 rfl).1]; simp
          exact absurd (hmid u hum) hu0
      have k2' := (hi.edge v u d.flip hv0 k2 (faces_back hd) id).1
      rw [flip_flip] at k2'
      exact k2'.symm

/-- C78, for routes whose crossings do not touch one another: at a crossing, the sides used by one route have one label and those used by another route the other. Where
crossings touch this can fail, see `c78_mixed`. -/
theorem c78_apart_partial {ctx : Ctx Unit} {pick : Search.Pick} {stop : Bool} (hr : ctx.router = Router.dpRouter ctx.layout pick stop true) {m m' : Mach Unit} {Rs : List (List Cell)}
    (hf : Router.Spec.Fits ctx.layout m.slice) (hu : Unrouted m.slice) (h : Laid ctx m Rs m')
    (hap : ∀ c n : Cell, m.slice.cells c = none → m.slice.cells n = none → (Rs.filter (c ∈ ·)).length = 2 → (Rs.filter (n ∈ ·)).length = 2 → ¬ Touching c n)
    {c : Cell} (hc : m.slice.cells c = none) (hc2 : (Rs.filter (c ∈ ·)).length = 2) {p : DensePatch} (hp : m'.slice.cells c = some p) {i j : Nat} {A B : List Cell} (hA : Rs[i]? = some A)
    (hB : Rs[j]? = some B) {d e : CellDirection} (hd : On A c d) (he : On B c e) : ((p.bounds.get d).ty = (p.bounds.get e).ty ↔ i = j) := by
  obtain ⟨hi, hk, -, -⟩ := laid_inv hr hf hu h
  have hin : ∀ x ∈ m'.slice.crossing, m.slice.cells x = none ∧ (Rs.filter (x ∈ ·)).length = 2 := fun x hx =>
    ⟨(hi.cross x hx).1, (c78_twice hr hf hu h (hi.cross x hx).1).2.2.1 hx⟩
  obtain ⟨u1, u2, -⟩ := hk.uniform (fun x hx n hn => hap x n (hin x hx).1 (hin n hn).1 (hin x hx).2 (hin n hn).2)
  have hcc : c ∈ m'.slice.crossing := (c78_twice hr hf hu h hc).2.2.2 hc2
  rw [← ty_some hp, ← ty_some hp]
  have hpw := (List.pairwise_cons.1 u2).2
  obtain ⟨hi', rfl⟩ := List.getElem?_eq_some_iff.1 hA
  obtain ⟨hj', rfl⟩ := List.getElem?_eq_some_iff.1 hB
  constructor
  · intro hty
    refine Classical.byContradiction fun hij => ?_
    rcases Nat.lt_or_gt_of_ne hij with g | g
    · exact List.pairwise_iff_getElem.1 hpw i j hi' hj' g c hcc d e hd he hty
    · exact List.pairwise_iff_getElem.1 hpw j i hj' hi' g c hcc e d he hd hty.symm
  · rintro rfl
    exact u1 c hcc _ (List.mem_cons_of_mem _ (List.getElem_mem hi')) d e hd he

/-! ### Routes laid -/

open Verif.Course.Spec

/-- The CNOTs, control and target, are attempted one after the other; the routes are returned with the last one first. -/
def lay (ctx : Ctx Unit) : List (Nat × Nat) → Mach Unit → List (List Cell) → Outcome (Mach Unit × List (List Cell))
  | [], m, Rs => .ok (m, Rs)
  | (c, t) :: l, m, Rs => do
    let r ← Apply.apply ctx m (ringCnot c t (100 + 2 * l.length))
    match r.followups with
    | [j] =>
      match j.op with
      | .bellCnot x =>
        match x.route with
        | some region => lay ctx l r.slice (region.cells.map (·.cell) :: Rs)
        | none => .throws
      | _ => .throws
    | _ => .throws

theorem lay_laid {ctx : Ctx Unit} {m : Mach Unit} : ∀ {l : List (Nat × Nat)} {m1 : Mach Unit} {Rs : List (List Cell)} {x : Mach Unit × List (List Cell)},
    Laid ctx m Rs m1 → lay ctx l m1 Rs = .ok x → Laid ctx m x.2 x.1
  | [], _, _, _, h, hx => by cases hx; exact h
  | (c, t) :: l, m1, Rs, x, h, hx => by
    rw [lay] at hx
    obtain ⟨r, h1, hx⟩ := Outcome.bind_eq_ok.1 hx
    split at hx
    · rename_i j hj
      split at hx
      · rename_i y hy
        split at hx
        · rename_i region hreg
          exact lay_laid (.route h rfl rfl h1 (by rw [hj]; exact List.mem_singleton_self _) hy hreg) hx
        · cases hx
      · cases hx
    · cases hx

def wideLayout : Layout :=
  match Layouts.fromText "rQQQr\nrrrrr\nQrrrQ\nQrrrQ\nrrrrr\nrQQQr".toList {} with
  | .ok L => L
  | _ => { furthest := ⟨0, 0⟩ }

def wideCtx : Ctx Unit :=
  { localInstrs := true, twists := true, genIds := true, asserts := true, layout := wideLayout, router := Router.dpRouter wideLayout Router.pickMin false true }

def wideLay (l : List (Nat × Nat)) : Outcome (Mach Unit × Mach Unit × List (List Cell)) := do
  let s ← DSlice.init wideLayout (List.range 10)
  let x ← lay wideCtx l ⟨s, (), 0⟩ []
  .ok (⟨s, (), 0⟩, x)

theorem wide_laid {l : List (Nat × Nat)} {y : Mach Unit × Mach Unit × List (List Cell)} (h : wideLay l = .ok y) :
    wideCtx.router = Router.dpRouter wideCtx.layout Router.pickMin false true ∧ Router.Spec.Fits wideCtx.layout y.1.slice ∧ Unrouted y.1.slice ∧ Laid wideCtx y.1 y.2.2 y.2.1 := by
  unfold wideLay at h
  obtain ⟨s, h0, h⟩ := Outcome.bind_eq_ok.1 h
  obtain ⟨x, h1, h⟩ := Outcome.bind_eq_ok.1 h
  cases h
  refine ⟨rfl, ?_, init_unrouted h0 (by decide +kernel), lay_laid .none h1⟩
  have h9 := init_size h0
  have e1 : wideLayout.furthest = ⟨5, 4⟩ := by decide +kernel
  rw [e1] at h9
  simp only [Prod.mk.injEq] at h9
  show Router.Spec.Fits wideLayout s
  unfold Router.Spec.Fits
  rw [e1, h9.1, h9.2]
  decide



/-- The hypotheses of the theorems, those of the partial one included: two routes that cross in one cell, where each turns a corner. -/
example : ∃ (m m' : Mach Unit) (A B : List Cell), wideCtx.router = Router.dpRouter wideCtx.layout Router.pickMin false true ∧ Router.Spec.Fits wideCtx.layout m.slice ∧ Unrouted m.slice ∧
    Laid wideCtx m [A, B] m' ∧ (∀ c n : Cell, m.slice.cells c = none → m.slice.cells n = none → ([A, B].filter (c ∈ ·)).length = 2 → ([A, B].filter (n ∈ ·)).length = 2 → ¬ Touching c n) ∧
    m.slice.cells ⟨2, 2⟩ = none ∧ ([A, B].filter (⟨2, 2⟩ ∈ ·)).length = 2 ∧ On A ⟨2, 2⟩ .right ∧ On A ⟨2, 2⟩ .bottom ∧ On B ⟨2, 2⟩ .left ∧ On B ⟨2, 2⟩ .top := by
  obtain ⟨⟨m, m', Rs⟩, h1, h2⟩ := Pipe.Spec.of_view (wideLay [(1, 3), (7, 4)]) (fun y => (y.2.2, (y.1.slice.cells ⟨2, 2⟩).isNone))
    ([[⟨2, 4⟩, ⟨2, 3⟩, ⟨2, 2⟩, ⟨3, 2⟩, ⟨3, 1⟩, ⟨4, 1⟩, ⟨5, 1⟩], [⟨2, 0⟩, ⟨2, 1⟩, ⟨2, 2⟩, ⟨1, 2⟩, ⟨0, 2⟩]], true) (by decide +kernel)
  simp only [Prod.mk.injEq] at h2
  obtain ⟨rfl, h3⟩ := h2
  obtain ⟨k1, k2, k3, k4⟩ := wide_laid h1
  refine ⟨m, m', _, _, k1, k2, k3, k4, ?_, by simpa using h3, by decide, ⟨⟨2, 3⟩, by simp [Faces], .inr ⟨[⟨2, 4⟩], _, rfl⟩⟩, ⟨⟨3, 2⟩, by simp [Faces], .inl ⟨[⟨2, 4⟩, ⟨2, 3⟩], _, rfl⟩⟩,
    ⟨⟨2, 1⟩, by simp [Faces], .inr ⟨[⟨2, 0⟩], _, rfl⟩⟩, ⟨⟨1, 2⟩, by simp [Faces], .inl ⟨[⟨2, 0⟩, ⟨2, 1⟩], _, rfl⟩⟩⟩
  have hone : ∀ c : Cell, ([([⟨2, 4⟩, ⟨2, 3⟩, ⟨2, 2⟩, ⟨3, 2⟩, ⟨3, 1⟩, ⟨4, 1⟩, ⟨5, 1⟩] : List Cell), [⟨2, 0⟩, ⟨2, 1⟩, ⟨2, 2⟩, ⟨1, 2⟩, ⟨0, 2⟩]].filter (c ∈ ·)).length = 2 → c = ⟨2, 2⟩ := by
    intro c hc
    have hall := (List.length_filter_eq_length_iff.1 hc)
    have ha := hall _ (List.mem_cons_self ..)
    have hb := hall _ (List.mem_cons_of_mem _ (List.mem_cons_self ..))
    simp only [List.mem_cons, List.not_mem_nil, or_false, decide_eq_true_eq] at ha hb
    rcases ha with rfl | rfl | rfl | rfl | rfl | rfl | rfl <;> first | rfl | (revert hb; decide)
  rintro c n - - hc hn ⟨d, hd⟩
  rw [hone c hc, hone n hn] at hd
  exact faces_ne hd rfl

/-- C78 fails where crossings touch: at the crossing of two routes one of them has one label on one of its sides and the other label on its other side. -/
theorem c78_mixed : ∃ (m m' : Mach Unit) (Rs : List (List Cell)) (l : List Cell) (c : Cell) (p : DensePatch) (d e : CellDirection),
    wideCtx.router = Router.dpRouter wideCtx.layout Router.pickMin false true ∧ Router.Spec.Fits wideCtx.layout m.slice ∧ Unrouted m.slice ∧ Laid wideCtx m Rs m' ∧ l ∈ Rs ∧
      (Rs.filter (c ∈ ·)).length = 2 ∧ m'.slice.cells c = some p ∧ On l c d ∧ On l c e ∧ (p.bounds.get d).ty = .reserved1 ∧ (p.bounds.get e).ty = .reserved2 := by
  obtain ⟨⟨m, m', Rs⟩, h1, h2⟩ := Pipe.Spec.of_view (wideLay [(2, 7), (1, 6), (8, 4)]) (fun y => (y.2.2, ty y.2.1.slice ⟨2, 3⟩ .top, ty y.2.1.slice ⟨2, 3⟩ .bottom))
    ([[⟨2, 4⟩, ⟨2, 3⟩, ⟨2, 2⟩, ⟨2, 1⟩, ⟨3, 1⟩, ⟨3, 2⟩, ⟨4, 2⟩, ⟨5, 2⟩], [⟨3, 4⟩, ⟨3, 3⟩, ⟨3, 2⟩, ⟨2, 2⟩, ⟨1, 2⟩, ⟨0, 2⟩],
      [⟨5, 1⟩, ⟨5, 0⟩, ⟨4, 0⟩, ⟨4, 1⟩, ⟨4, 2⟩, ⟨4, 3⟩, ⟨3, 3⟩, ⟨2, 3⟩, ⟨1, 3⟩, ⟨0, 3⟩]], .reserved1, .reserved2) (by decide +kernel)
  simp only [Prod.mk.injEq] at h2
  obtain ⟨h2, h3, h4⟩ := h2
  obtain ⟨k1, k2, k3, k4⟩ := wide_laid h1
  obtain ⟨p, hp⟩ := rsv_patch (rsv_of h3 rfl)
  rw [ty_some hp] at h3 h4
  have hl : ([⟨5, 1⟩, ⟨5, 0⟩, ⟨4, 0⟩, ⟨4, 1⟩, ⟨4, 2⟩, ⟨4, 3⟩, ⟨3, 3⟩, ⟨2, 3⟩, ⟨1, 3⟩, ⟨0, 3⟩] : List Cell) ∈ Rs := by rw [h2]; simp
  have hn : (Rs.filter ((⟨2, 3⟩ : Cell) ∈ ·)).length = 2 := by rw [h2]; decide
  exact ⟨m, m', Rs, _, ⟨2, 3⟩, p, .top, .bottom, k1, k2, k3, k4, hl, hn, hp,
    ⟨⟨1, 3⟩, by simp [Faces], .inl ⟨[⟨5, 1⟩, ⟨5, 0⟩, ⟨4, 0⟩, ⟨4, 1⟩, ⟨4, 2⟩, ⟨4, 3⟩, ⟨3, 3⟩], _, rfl⟩⟩,
    ⟨⟨3, 3⟩, by simp [Faces], .inr ⟨[⟨5, 1⟩, ⟨5, 0⟩, ⟨4, 0⟩, ⟨4, 1⟩, ⟨4, 2⟩, ⟨4, 3⟩], _, rfl⟩⟩, h3, h4⟩

/-- C78: a route that is admissible can be one the marking ends the program on: between two routes that cross the router finds a third one, and marking it throws. -/
theorem c78_throws : ∃ (m m' : Mach Unit) (Rs : List (List Cell)) (r : RoutingRegion),
    wideCtx.router = Router.dpRouter wideCtx.layout Router.pickMin false true ∧ Router.Spec.Fits wideCtx.layout m.slice ∧ Unrouted m.slice ∧ Laid wideCtx m Rs m' ∧
      wideCtx.router.find () m'.slice 0 .Z 5 .X = .ok (some r, ()) ∧ Apply.apply wideCtx m' (ringCnot 0 5 104) = .throws := by
  obtain ⟨⟨⟨m, m', Rs⟩, x, b⟩, h1, h2⟩ := Pipe.Spec.of_view (do
      let y ← wideLay [(1, 3), (7, 4)]
      let x ← wideCtx.router.find () y.2.1.slice 0 .Z 5 .X
      .ok (y, x, (match Apply.apply wideCtx y.2.1 (ringCnot 0 5 104) with | .throws => true | _ => false))) (fun y => (y.2.1.1.isSome, y.2.2)) (true, true) (by decide +kernel)
  obtain ⟨y, h3, h1⟩ := Outcome.bind_eq_ok.1 h1
  obtain ⟨z, h4, h1⟩ := Outcome.bind_eq_ok.1 h1
  cases h1
  simp only [Prod.mk.injEq] at h2
  obtain ⟨h5, h6⟩ := h2
  obtain ⟨k1, k2, k3, k4⟩ := wide_laid h3
  obtain ⟨r, hr⟩ := Option.isSome_iff_exists.1 h5
  refine ⟨m, m', Rs, r, k1, k2, k3, k4, ?_, ?_⟩
  · rw [h4]; rw [← hr]
  · split at h6
    · assumption
    · cases h6

end Verif.Edpc.Spec
