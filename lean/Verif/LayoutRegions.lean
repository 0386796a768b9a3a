import Verif.LayoutLemmas

/-!
# Layouts: the distillation regions of a grid
-/

namespace Verif.Layouts

open Spec
open Verif.Router.Spec (Touching Faces OnGrid)

theorem frame_spec (region : List Cell) (c : Cell) :
    ∃ o, frame region c.neighbours (distillationCell c) = .ok o ∧ o.cell = c ∧
      ∀ n d, Faces c n d → o.bounds.get d = ⟨if n ∈ region then .none else .smooth, false⟩ := by
  obtain ⟨r, l⟩ := c
  have e1 : ¬ (r + 1 = r - 1) := by omega
  have e2 : ¬ (l - 1 = l) := by omega
  have e3 : ¬ (l + 1 = l) := by omega
  have e4 : ¬ (l + 1 = l - 1) := by omega
  have e5 : ¬ (r = r - 1) := by omega
  have e6 : ¬ (r = r + 1) := by omega
  simp only [Cell.neighbours, frame, OccCell.setBoundaryWith, Cell.sideTowards, distillationCell, CellBoundaries.all, Option.map_some,
    if_true, Cell.mk.injEq, and_self, e1, e2, e3, e4, e5, e6, and_true, and_false, false_and, if_false]
  refine ⟨_, rfl, rfl, ?_⟩
  rintro ⟨nr, nl⟩ d hd
  cases d <;> simp only [Faces] at hd <;> obtain ⟨rfl, rfl⟩ := hd <;> rfl

theorem queueOf_spec {g : Grid} : ∀ {ns : List Cell}, (∀ n ∈ ns, ∃ k, At g n k) →
    ∃ q, queueOf g ns = .ok q ∧ ∀ n, n ∈ q ↔ n ∈ ns ∧ At g n .routing
  | [], _ => ⟨[], rfl, by simp⟩
  | n :: ns, h => by
    obtain ⟨k, hk⟩ := h n (by simp)
    obtain ⟨q, e, hq⟩ := queueOf_spec (ns := ns) (fun x hx => h x (by simp [hx]))
    refine ⟨if k = .routing then n :: q else q, by simp [queueOf, gridAt_ok.2 hk, e], ?_⟩
    intro m
    split
    · rename_i hk'; subst hk'
      rw [List.mem_cons, hq, List.mem_cons]
      constructor
      · rintro (rfl | h)
        · exact ⟨.inl rfl, hk⟩
        · exact ⟨.inr h.1, h.2⟩
      · rintro ⟨h | h, h'⟩
        · exact .inl h
        · exact .inr ⟨h, h'⟩
    · rename_i hk'
      rw [hq, List.mem_cons]
      constructor
      · rintro h; exact ⟨.inr h.1, h.2⟩
      · rintro ⟨rfl | h, h'⟩
        · exact absurd (hk.unique h') hk'
        · exact ⟨h, h'⟩

theorem outline_spec {g : Grid} {h w : Nat} (hr : Rect g h w) (region : List Cell) : ∀ {cs : List Cell}, (∀ c ∈ cs, ∃ k, At g c k) →
    ∃ os q, outline g ⟨h - 1, w - 1⟩ region cs = .ok (os, q) ∧ os.map (·.cell) = cs ∧
      (∀ o ∈ os, ∀ n d, Faces o.cell n d → o.bounds.get d = ⟨if n ∈ region then .none else .smooth, false⟩) ∧
      ∀ n, n ∈ q ↔ At g n .routing ∧ ∃ c ∈ cs, Touching c n
  | [], _ => ⟨[], [], rfl, rfl, by simp, by simp⟩
  | c :: cs, hc => by
    obtain ⟨os, q, e, h1, h2, h3⟩ := outline_spec hr region (cs := cs) (fun x hx => hc x (by simp [hx]))
    obtain ⟨o, e1, h4, h5⟩ := frame_spec region c
    obtain ⟨kc, hkc⟩ := hc c (by simp)
    have hb := hr.of_at hkc
    have hmem : ∀ n, n ∈ c.neighboursIn ⟨0, 0⟩ ⟨h - 1, w - 1⟩ ↔ Touching c n ∧ 0 ≤ n.row ∧ n.row ≤ (h : Int) - 1 ∧ 0 ≤ n.col ∧ n.col ≤ (w : Int) - 1 := by
      intro n; exact mem_neighboursIn (by omega) (by dsimp only; omega) (by omega) (by dsimp only; omega)
    obtain ⟨q1, e2, h6⟩ := queueOf_spec (g := g) (ns := c.neighboursIn ⟨0, 0⟩ ⟨h - 1, w - 1⟩) (by
      intro n hn
      have := (hmem n).1 hn
      exact hr.at (by omega) (by omega) (by omega) (by omega))
    refine ⟨o :: os, q1 ++ q, by simp [outline, e, e1, e2], by simp [h1, h4], ?_, ?_⟩
    · intro x hx n d hd
      rcases List.mem_cons.1 hx with rfl | hx
      · exact h5 n d (h4 ▸ hd)
      · exact h2 x hx n d hd
    · intro n
      rw [List.mem_append, h6, h3, hmem]
      constructor
      · rintro (⟨⟨ht, _⟩, ha⟩ | ⟨ha, x, hx, ht⟩)
        · exact ⟨ha, c, by simp, ht⟩
        · exact ⟨ha, x, by simp [hx], ht⟩
      · rintro ⟨ha, x, hx, ht⟩
        rcases List.mem_cons.1 hx with rfl | hx
        · have := hr.of_at ha
          exact .inl ⟨⟨ht, by omega, by omega, by omega, by omega⟩, ha⟩
        · exact .inr ⟨ha, x, hx, ht⟩

theorem touching_symm {a b : Cell} (h : Touching a b) : Touching b a := by
  obtain ⟨d, hd⟩ := h
  cases d <;> simp only [Faces] at hd
  · exact ⟨.bottom, by simp only [Faces]; omega⟩
  · exact ⟨.top, by simp only [Faces]; omega⟩
  · exact ⟨.right, by simp only [Faces]; omega⟩
  · exact ⟨.left, by simp only [Faces]; omega⟩

theorem Spec.Joined.trans {g : Grid} {t : CellType} {a b c : Cell} (h : Joined g t a b) (h' : Joined g t b c) : Joined g t a c := by
  induction h' with
  | refl _ => exact h
  | step _ ht ha ih => exact .step ih ht ha

theorem Spec.Joined.left {g : Grid} {t : CellType} {a b : Cell} (h : Joined g t a b) : At g a t := by
  induction h with
  | refl h => exact h
  | step _ _ _ ih => exact ih

theorem Spec.Joined.symm {g : Grid} {t : CellType} {a b : Cell} (h : Joined g t a b) : Joined g t b a := by
  induction h with
  | refl h => exact .refl h
  | step h1 ht ha ih => exact Joined.trans (.step (.refl ha) (touching_symm ht) h1.right) ih

/-- What holds of the regions found so far. -/
structure Found (g : Grid) (o : Options) (k : Regions) : Prop where
  same : k.distilled.length = k.regions.length
  all : ∀ p ∈ k.regions.zip k.distilled, Region g p.1 p.2
  apart : k.regions.Pairwise fun r r' => ∀ c, c ∈ r.map (·.cell) → c ∉ r'.map (·.cell)
  times : k.times = (List.range k.regions.length).map fun i => (o.time + if o.staggered then i else 0) % 2 ^ 32

def Regions.has (k : Regions) (c : Cell) : Prop := ∃ r ∈ k.regions, c ∈ r.map (·.cell)

theorem Found.region {g : Grid} {o : Options} {k : Regions} (hk : Found g o k) {r : List OccCell} (hr : r ∈ k.regions) : ∃ q, Region g r q := by
  obtain ⟨i, hi, rfl⟩ := List.getElem_of_mem hr
  have hi' : i < k.distilled.length := by rw [hk.same]; exact hi
  refine ⟨k.distilled[i], hk.all (k.regions[i], k.distilled[i]) ?_⟩
  have : (k.regions.zip k.distilled)[i]'(by simp; omega) = (k.regions[i], k.distilled[i]) := by simp
  rw [← this]; exact List.getElem_mem _

theorem addRegion_spec {g : Grid} {h w : Nat} {o : Options} (hr : Rect g h w) (hh : 0 < h) (hw : 0 < w) {k : Regions} (hk : Found g o k) {c : Cell}
    {d : Fin 10} (hc : At g c (.distillation d)) :
    ∃ k', addRegion g ⟨h - 1, w - 1⟩ o k c = .ok k' ∧ Found g o k' ∧ k'.has c ∧ ∀ x, k.has x → k'.has x := by
  unfold addRegion
  split
  · rename_i hin
    refine ⟨k, rfl, hk, ?_, fun _ h => h⟩
    simp only [List.any_eq_true, decide_eq_true_eq] at hin
    obtain ⟨r, hr', x, hx, rfl⟩ := hin
    exact ⟨r, hr', List.mem_map_of_mem hx⟩
  · rename_i hout
    obtain ⟨cs, e, hn, hm⟩ := component_spec hr hh hw hc
    obtain ⟨os, q, e', h1, h2, h3⟩ := outline_spec hr cs (cs := cs) (fun x hx => ⟨_, ((hm x).1 hx).right⟩)
    have hreg : Region g os q := by
      refine ⟨⟨d, c, hc, by rw [h1]; exact hm⟩, by rw [h1]; exact hn, ?_, ?_, ?_⟩
      · intro x hx n dir hf hn'
        rw [h1] at hn'
        rw [h2 x hx n dir hf, if_pos hn']
      · intro x hx n dir hf hn'
        rw [h1] at hn'
        rw [h2 x hx n dir hf, if_neg hn']
      · intro n
        rw [h3]
        constructor
        · rintro ⟨ha, x, hx, ht⟩
          rw [← h1] at hx
          obtain ⟨y, hy, rfl⟩ := List.mem_map.1 hx
          exact ⟨ha, y, hy, ht⟩
        · rintro ⟨ha, y, hy, ht⟩
          exact ⟨ha, y.cell, h1 ▸ List.mem_map_of_mem hy, ht⟩
    rw [e, Outcome.bind_ok, e', Outcome.bind_ok]
    refine ⟨_, rfl, ⟨?_, ?_, ?_, ?_⟩, ?_, ?_⟩
    · simp [hk.same]
    · intro p hp
      dsimp only at hp
      rw [List.zip_append (by rw [hk.same])] at hp
      rcases List.mem_append.1 hp with hp | hp
      · exact hk.all p hp
      · simp at hp; subst hp; exact hreg
    · refine List.pairwise_append.2 ⟨hk.apart, by simp, ?_⟩
      intro r hr' r' hr'' x hx hx'
      simp only [List.mem_singleton] at hr''
      subst hr''
      rw [h1, hm] at hx'
      obtain ⟨q', hq'⟩ := hk.region hr'
      obtain ⟨d', st, hst, hj⟩ := hq'.joined
      have hxj := (hj x).1 hx
      have hdd : CellType.distillation d' = .distillation d := hxj.right.unique hx'.right
      cases hdd
      have hcin : c ∈ r.map (·.cell) := (hj c).2 (hxj.trans hx'.symm)
      apply hout
      simp only [List.any_eq_true, decide_eq_true_eq]
      obtain ⟨y, hy, hyc⟩ := List.mem_map.1 hcin
      exact ⟨r, hr', y, hy, hyc⟩
    · simp [hk.times, List.range_succ]
    · refine ⟨os, by simp, ?_⟩
      rw [h1]; exact (hm c).2 (.refl hc)
    · rintro x ⟨r, hr', hx⟩
      exact ⟨r, by simp [hr'], hx⟩

theorem addRegions_spec {g : Grid} {h w : Nat} {o : Options} (hr : Rect g h w) (hh : 0 < h) (hw : 0 < w) {d : Fin 10} :
    ∀ {cs : List Cell} {k : Regions}, Found g o k → (∀ c ∈ cs, At g c (.distillation d)) →
      ∃ k', addRegions g ⟨h - 1, w - 1⟩ o cs k = .ok k' ∧ Found g o k' ∧ (∀ c ∈ cs, k'.has c) ∧ ∀ x, k.has x → k'.has x
  | [], k, hk, _ => ⟨k, rfl, hk, by simp, fun _ h => h⟩
  | c :: cs, k, hk, hc => by
    obtain ⟨k1, e1, hk1, hc1, hx1⟩ := addRegion_spec hr hh hw hk (hc c (by simp))
    obtain ⟨k2, e2, hk2, hc2, hx2⟩ := addRegions_spec hr hh hw (cs := cs) hk1 (fun x hx => hc x (by simp [hx]))
    refine ⟨k2, by simp [addRegions, e1, e2], hk2, ?_, fun x hx => hx2 x (hx1 x hx)⟩
    intro x hx
    rcases List.mem_cons.1 hx with rfl | hx
    · exact hx2 _ hc1
    · exact hc2 x hx

theorem addKinds_spec {g : Grid} {h w : Nat} {o : Options} {b : Bool} (hr : Rect g h w) (hh : 0 < h) (hw : 0 < w) :
    ∀ {ds : List (Fin 10)} {k : Regions}, Found g o k →
      (¬ (b = true ∧ ∃ d ∈ ds, ∃ c, At g c (.distillation d)) → ∃ k', addKinds g ⟨h - 1, w - 1⟩ o b ds k = .ok k' ∧ Found g o k' ∧
        (∀ d ∈ ds, ∀ c, At g c (.distillation d) → k'.has c) ∧ (∀ x, k.has x → k'.has x)) ∧
      ((b = true ∧ ∃ d ∈ ds, ∃ c, At g c (.distillation d)) → addKinds g ⟨h - 1, w - 1⟩ o b ds k = .throws)
  | [], k, hk => ⟨fun _ => ⟨k, rfl, hk, by simp, fun _ h => h⟩, by simp⟩
  | d :: ds, k, hk => by
    obtain ⟨k1, e1, hk1, hc1, hx1⟩ := addRegions_spec (d := d) hr hh hw hk (cs := findAll g (.distillation d)) (fun c hc => mem_findAll.1 hc)
    obtain ⟨ih1, ih2⟩ := addKinds_spec (b := b) hr hh hw (ds := ds) hk1
    constructor
    · intro hno
      have hcond : ¬ (findAll g (.distillation d) ≠ [] ∧ b = true) := by
        rintro ⟨hne, hb⟩
        obtain ⟨c, hc⟩ := List.exists_mem_of_ne_nil _ hne
        exact hno ⟨hb, d, by simp, c, mem_findAll.1 hc⟩
      obtain ⟨k2, e2, hk2, hc2, hx2⟩ := ih1 (by
        rintro ⟨hb, d', hd', hc'⟩
        exact hno ⟨hb, d', by simp [hd'], hc'⟩)
      refine ⟨k2, by rw [addKinds, if_neg hcond, e1, Outcome.bind_ok, e2], hk2, ?_, fun x hx => hx2 x (hx1 x hx)⟩
      intro d' hd' c hc
      rcases List.mem_cons.1 hd' with rfl | hd'
      · exact hx2 c (hc1 c (mem_findAll.2 hc))
      · exact hc2 d' hd' c hc
    · rintro ⟨hb, d', hd', c, hc⟩
      rw [addKinds]
      split
      · rfl
      · rename_i hcond
        rcases List.mem_cons.1 hd' with rfl | hd'
        · exact absurd ⟨List.ne_nil_of_mem (mem_findAll.2 hc), hb⟩ hcond
        · rw [e1, Outcome.bind_ok]
          exact ih2 ⟨hb, d', hd', c, hc⟩

theorem found_nil (g : Grid) (o : Options) : Found g o {} := ⟨rfl, by simp, by simp, by simp⟩

theorem all_digits : ∀ d : Fin 10, d ∈ ([0, 1, 2, 3, 4, 5, 6, 7, 8, 9] : List (Fin 10)) := by decide

/-- A grid with both factories and cells reserved for magic states. -/
def Clash (g : Grid) : Prop := (∃ c, At g c .magic) ∧ ∃ d c, At g c (.distillation d)

/-- The layout of a grid. -/
structure LayoutOf (g : Grid) (o : Options) (h w : Nat) (L : Layout) (k : Regions) : Prop where
  rect : Rect g h w
  hpos : 0 < h
  wpos : 0 < w
  found : Found g o k
  cover : ∀ d c, At g c (.distillation d) → k.has c
  calm : ¬ Clash g
  eq : L = { core := (findAll g .qubit).map fun c => basicSquare c none none
             furthest := ⟨h - 1, w - 1⟩
             regions := k.regions
             distilled := k.distilled
             times := k.times ++ List.replicate (findAll g .magic).length (o.time % 2 ^ 32)
             ancilla := findAll g .ancilla
             dead := findAll g .dead
             reserved := findAll g .magic
             predistilled := findAll g .ystate
             magicReserved := decide (findAll g .magic ≠ []) }

theorem magic_iff (g : Grid) : decide (findAll g .magic ≠ []) = true ↔ ∃ c, At g c .magic := by
  rw [decide_eq_true_eq]
  constructor
  · intro h
    obtain ⟨c, hc⟩ := List.exists_mem_of_ne_nil _ h
    exact ⟨c, mem_findAll.1 hc⟩
  · rintro ⟨c, hc⟩
    exact List.ne_nil_of_mem (mem_findAll.2 hc)

theorem fromGrid_ok {g : Grid} {o : Options} {h w : Nat} (hr : Rect g h w) (hh : 0 < h) (hw : 0 < w) (hc : ¬ Clash g) :
    ∃ L k, fromGrid g o = .ok L ∧ LayoutOf g o h w L k := by
  obtain ⟨h1, _⟩ := addKinds_spec (b := decide (findAll g .magic ≠ [])) hr hh hw (ds := [0, 1, 2, 3, 4, 5, 6, 7, 8, 9]) (found_nil g o)
  obtain ⟨k, e, hk, hcov, _⟩ := h1 (by
    rw [magic_iff]
    rintro ⟨hm, d, _, c, hd⟩
    exact hc ⟨hm, d, c, hd⟩)
  refine ⟨_, k, ?_, ⟨hr, hh, hw, hk, fun d c => hcov d (all_digits d) c, hc, rfl⟩⟩
  unfold fromGrid
  rw [furthest_ok.2 ⟨h, w, hh, hw, hr, rfl⟩, Outcome.bind_ok]
  dsimp only
  rw [e, Outcome.bind_ok]

theorem fromGrid_clash {g : Grid} {o : Options} {h w : Nat} (hr : Rect g h w) (hh : 0 < h) (hw : 0 < w) (hc : Clash g) : fromGrid g o = .throws := by
  obtain ⟨_, h2⟩ := addKinds_spec (b := decide (findAll g .magic ≠ [])) hr hh hw (ds := [0, 1, 2, 3, 4, 5, 6, 7, 8, 9]) (found_nil g o)
  unfold fromGrid
  rw [furthest_ok.2 ⟨h, w, hh, hw, hr, rfl⟩, Outcome.bind_ok]
  dsimp only
  rw [h2, Outcome.bind_throws]
  rw [magic_iff]
  exact ⟨hc.1, by obtain ⟨_, d, c, h⟩ := hc; exact ⟨d, all_digits d, c, h⟩⟩

theorem fromGrid_inv {g : Grid} {o : Options} {L : Layout} (h : fromGrid g o = .ok L) : ∃ a b k, LayoutOf g o a b L k := by
  cases hf : furthest g with
  | ok f =>
    obtain ⟨a, b, ha, hb, hr, rfl⟩ := furthest_ok.1 hf
    by_cases hc : Clash g
    · rw [fromGrid_clash hr ha hb hc] at h; cases h
    · obtain ⟨L', k, e, hl⟩ := fromGrid_ok (o := o) hr ha hb hc
      rw [e] at h; cases h
      exact ⟨a, b, k, hl⟩
  | throws => unfold fromGrid at h; rw [hf] at h; cases h
  | ub => unfold fromGrid at h; rw [hf] at h; cases h

end Verif.Layouts
