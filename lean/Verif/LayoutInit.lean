import Verif.LayoutRegions
import Verif.SliceLemmas

/-!
# Layouts: the first slice
-/

namespace Verif.Layouts

open Spec DSlice
open Verif.Router.Spec (Touching Faces OnGrid)

/-- Same size, times and resource counts. -/
structure SameFrame (a b : DSlice) : Prop where
  rows : b.rows = a.rows
  cols : b.cols = a.cols
  times : b.times = a.times

theorem SameFrame.range {a b : DSlice} (h : SameFrame a b) (c : Cell) : b.inRange c = a.inRange c := by
  unfold inRange; rw [h.rows, h.cols]

theorem SameFrame.trans {a b c : DSlice} (h : SameFrame a b) (h' : SameFrame b c) : SameFrame a c :=
  ⟨h'.rows.trans h.rows, h'.cols.trans h.cols, h'.times.trans h.times⟩

/-- The patch of `basic_square_patch` with an id. -/
def squarePatch (id : Option Nat) : DensePatch :=
  { type := .qubit, activity := .none, id := id, bounds := ⟨⟨.smooth, false⟩, ⟨.smooth, false⟩, ⟨.rough, false⟩, ⟨.rough, false⟩⟩ }

theorem square_squarePatch (id : Option Nat) : Square (squarePatch id) id := ⟨rfl, rfl, rfl, rfl⟩

theorem placeSquare {s : DSlice} {c : Cell} (hr : s.inRange c = true) (hf : s.cells c = none) :
    s.placeSingle (basicSquare c none none) false = .ok (s.put c (some (squarePatch none)), c) := by
  unfold placeSingle
  simp [basicSquare, isFree, patchAt, hr, hf, DensePatch.fromSparse, squarePatch]

theorem placeCore_spec : ∀ {cs : List Cell} {ids : List Nat} {s : DSlice}, cs.Nodup → ids.length ≤ cs.length →
    (∀ c ∈ cs, s.inRange c = true ∧ s.cells c = none) →
    ∃ s', placeCore (cs.map fun c => basicSquare c none none) ids s = .ok s' ∧ SameFrame s s' ∧ s'.yAvail = s.yAvail ∧
      (∀ (i id : Nat), ids[i]? = some id → ∃ c, cs[i]? = some c ∧ s'.cells c = some (squarePatch (some id))) ∧
      (∀ (i : Nat) c, cs[i]? = some c → ids[i]? = none → s'.cells c = none) ∧
      (∀ c, c ∉ cs → s'.cells c = s.cells c)
  | [], ids, s, _, hl, _ => by
    have : ids = [] := by simpa using hl
    subst this
    exact ⟨s, rfl, ⟨rfl, rfl, rfl⟩, rfl, by simp, by simp, fun _ _ => rfl⟩
  | c :: cs, [], s, _, _, hc => by
    refine ⟨s, rfl, ⟨rfl, rfl, rfl⟩, rfl, by simp, ?_, fun _ _ => rfl⟩
    intro i x hx _
    exact (hc x (List.mem_of_getElem? hx)).2
  | c :: cs, id :: ids, s, hn, hl, hc => by
    rw [List.nodup_cons] at hn
    obtain ⟨hr, hf⟩ := hc c (by simp)
    have e : (s.put c (some (squarePatch none))).modPatch c (fun d => { d with id := some id }) = s.put c (some (squarePatch (some id))) := by
      simp only [modPatch, put, upd_same, Option.map_some]
      congr 1
      funext x
      by_cases hx : x = c
      · subst hx; simp [upd_same, squarePatch]
      · simp [upd_other _ _ hx]
    obtain ⟨s', h1, h2, h3, h4, h5, h6⟩ := placeCore_spec (cs := cs) (ids := ids) (s := s.put c (some (squarePatch (some id)))) hn.2 (by simpa using hl) (by
      intro x hx
      obtain ⟨a, b⟩ := hc x (by simp [hx])
      refine ⟨a, ?_⟩
      show upd _ _ _ x = none
      rw [upd_other _ _ (by rintro rfl; exact hn.1 hx), b])
    refine ⟨s', ?_, ⟨h2.rows, h2.cols, h2.times⟩, h3, ?_, ?_, ?_⟩
    · rw [List.map_cons, placeCore, placeSquare hr hf, Outcome.bind_ok]
      dsimp only
      rw [e, h1]
    · intro i id' hi
      cases i with
      | zero =>
        simp at hi; subst hi
        refine ⟨c, by simp, ?_⟩
        rw [h6 c hn.1]
        exact upd_same _ _ _
      | succ i => simpa using h4 i id' (by simpa using hi)
    · intro i x hx hi
      cases i with
      | zero => simp at hi
      | succ i => exact h5 i x (by simpa using hx) (by simpa using hi)
    · intro x hx
      simp only [List.mem_cons, not_or] at hx
      rw [h6 x hx.2]
      exact upd_other _ _ hx.1

theorem placeY_spec : ∀ {cs : List Cell} {s : DSlice}, cs.Nodup → (∀ c ∈ cs, s.inRange c = true ∧ s.cells c = none) →
    ∃ s', placeY cs s = .ok s' ∧ SameFrame s s' ∧ s'.yAvail = s.yAvail + cs.length ∧
      (∀ c ∈ cs, s'.cells c = some (squarePatch none)) ∧ (∀ c, c ∉ cs → s'.cells c = s.cells c)
  | [], s, _, _ => ⟨s, rfl, ⟨rfl, rfl, rfl⟩, rfl, by simp, fun _ _ => rfl⟩
  | c :: cs, s, hn, hc => by
    rw [List.nodup_cons] at hn
    obtain ⟨hr, hf⟩ := hc c (by simp)
    obtain ⟨s', h1, h2, h3, h4, h5⟩ := placeY_spec (cs := cs)
      (s := { s.put c (some (squarePatch none)) with yAvail := (s.put c (some (squarePatch none))).yAvail + 1 }) hn.2 (by
      intro x hx
      obtain ⟨a, b⟩ := hc x (by simp [hx])
      refine ⟨a, ?_⟩
      show upd _ _ _ x = none
      rw [upd_other _ _ (by rintro rfl; exact hn.1 hx), b])
    refine ⟨s', ?_, ⟨h2.rows, h2.cols, h2.times⟩, ?_, ?_, ?_⟩
    · rw [placeY, placeSquare hr hf, Outcome.bind_ok, h1]
    · rw [h3]
      show s.yAvail + 1 + cs.length = s.yAvail + (cs.length + 1)
      omega
    · intro x hx
      rcases List.mem_cons.1 hx with rfl | hx
      · rw [h5 x hn.1]; exact upd_same _ _ _
      · exact h4 x hx
    · intro x hx
      simp only [List.mem_cons, not_or] at hx
      rw [h5 x hx.2]
      exact upd_other _ _ hx.1

theorem assignAll_spec (P : DensePatch → Prop) : ∀ {cs : List (Cell × DensePatch)} {s : DSlice}, (∀ x ∈ cs, s.inRange x.1 = true ∧ P x.2) →
    ∃ s', assignAll cs s = .ok s' ∧ SameFrame s s' ∧ s'.yAvail = s.yAvail ∧
      (∀ x ∈ cs, ∃ p, s'.cells x.1 = some p ∧ P p) ∧ (∀ c, c ∉ cs.map Prod.fst → s'.cells c = s.cells c)
  | [], s, _ => ⟨s, rfl, ⟨rfl, rfl, rfl⟩, rfl, by simp, fun _ _ => rfl⟩
  | (c, p) :: cs, s, hc => by
    obtain ⟨hr, hp⟩ := hc (c, p) (by simp)
    obtain ⟨s', h1, h2, h3, h4, h5⟩ := assignAll_spec P (cs := cs) (s := s.put c (some p)) (fun x hx => hc x (by simp [hx]))
    refine ⟨s', ?_, ⟨h2.rows, h2.cols, h2.times⟩, h3, ?_, ?_⟩
    · have : s.assign c (some p) = .ok (s.put c (some p)) := by unfold assign; rw [if_pos hr]
      rw [assignAll, this, Outcome.bind_ok, h1]
    · intro x hx
      by_cases hin : x.1 ∈ cs.map Prod.fst
      · obtain ⟨y, hy, e⟩ := List.mem_map.1 hin
        obtain ⟨q, hq⟩ := h4 y hy
        exact ⟨q, e ▸ hq⟩
      · rcases List.mem_cons.1 hx with rfl | hx
        · refine ⟨p, ?_, hp⟩
          rw [h5 _ hin]; exact upd_same _ _ _
        · exact absurd (List.mem_map_of_mem hx) hin
    · intro x hx
      simp only [List.map_cons, List.mem_cons, not_or] at hx
      rw [h5 x hx.2]
      exact upd_other _ _ hx.1

theorem region_kind {g : Grid} {o : Options} {k : Regions} (hk : Found g o k) {x : OccCell} (hx : x ∈ k.regions.flatten) :
    ∃ d, At g x.cell (.distillation d) := by
  obtain ⟨r, hr, hx⟩ := List.mem_flatten.1 hx
  obtain ⟨q, hq⟩ := hk.region hr
  obtain ⟨d, st, _, hj⟩ := hq.joined
  exact ⟨d, ((hj x.cell).1 (List.mem_map_of_mem hx)).right⟩

theorem init_shows {g : Grid} {o : Options} {h w : Nat} {L : Layout} {k : Regions} (hl : LayoutOf g o h w L k) {ids : List Nat}
    (hn : ids.length ≤ L.core.length) :
    ∃ s, DSlice.init L ids = .ok s ∧ Shows g ids s ∧ s.rows = h ∧ s.cols = w ∧ s.times = L.times ∧ s.yAvail = L.predistilled.length := by
  have hL := hl.eq
  have hpos := hl.hpos
  have hwpos := hl.wpos
  have hrange : ∀ {s : DSlice}, s.rows = h → s.cols = w → ∀ c t, At g c t → s.inRange c = true := by
    intro s h1 h2 c t ha
    have := hl.rect.of_at ha
    unfold inRange
    rw [h1, h2]
    exact decide_eq_true ⟨this.1, this.2.1, this.2.2.1, this.2.2.2⟩
  have hcore : L.core = (findAll g .qubit).map fun c => basicSquare c none none := by rw [hL]
  have hlen : ids.length ≤ (findAll g .qubit).length := by rw [hcore, List.length_map] at hn; exact hn
  have r0 : (empty L).rows = h := by
    rw [hL]; simp [empty]
  have c0 : (empty L).cols = w := by
    rw [hL]; simp [empty]
  obtain ⟨s1, e1, f1, y1, p1, p1', q1⟩ := placeCore_spec (cs := findAll g .qubit) (ids := ids) (s := empty L) (findAll_nodup _ _) hlen
    (fun c hc => ⟨hrange r0 c0 c _ (mem_findAll.1 hc), rfl⟩)
  obtain ⟨s2, e2, f2, y2, p2, q2⟩ := placeY_spec (cs := findAll g .ystate) (s := s1) (findAll_nodup _ _) (by
    intro c hc
    have ha := mem_findAll.1 hc
    refine ⟨by rw [f1.range]; exact hrange r0 c0 c _ ha, ?_⟩
    rw [q1 c]; · rfl
    intro hq
    have := (mem_findAll.1 hq).unique ha
    cases this)
  have g2 := f1.trans f2
  obtain ⟨s3, e3, f3, y3, p3, q3⟩ := assignAll_spec (fun p => p.type = .distillation ∧ p.activity = .distillation ∧ p.id = none)
    (cs := k.regions.flatten.map fun o => (o.cell, distillationPatch o.bounds)) (s := s2) (by
      intro x hx
      obtain ⟨y, hy, rfl⟩ := List.mem_map.1 hx
      obtain ⟨d, hd⟩ := region_kind hl.found hy
      exact ⟨by rw [g2.range]; exact hrange r0 c0 _ _ hd, rfl, rfl, rfl⟩)
  have g3 := g2.trans f3
  obtain ⟨s4, e4, f4, y4, p4, q4⟩ := assignAll_spec (fun p => p.type = .distillation ∧ p.activity = .distillation ∧ p.id = none)
    (cs := (findAll g .magic).map fun c => (c, distillationPatch (.all ⟨.connected, false⟩))) (s := s3) (by
      intro x hx
      obtain ⟨y, hy, rfl⟩ := List.mem_map.1 hx
      exact ⟨by rw [g3.range]; exact hrange r0 c0 _ _ (mem_findAll.1 hy), rfl, rfl, rfl⟩)
  have g4 := g3.trans f4
  obtain ⟨s5, e5, f5, y5, p5, q5⟩ := assignAll_spec (fun p => p.type = .dead ∧ p.id = none)
    (cs := (findAll g .dead).map fun c => (c, deadPatch)) (s := { s4 with times := L.times }) (by
      intro x hx
      obtain ⟨y, hy, rfl⟩ := List.mem_map.1 hx
      refine ⟨?_, rfl, rfl⟩
      show s4.inRange y = true
      rw [g4.range]; exact hrange r0 c0 _ _ (mem_findAll.1 hy))
  -- where later steps do not write
  have n3 : ∀ c t, At g c t → (∀ d, t ≠ .distillation d) → s3.cells c = s2.cells c := by
    intro c t ha ht
    apply q3
    intro hm
    simp only [List.map_map, List.mem_map, Function.comp_apply] at hm
    obtain ⟨y, hy, rfl⟩ := hm
    obtain ⟨d, hd⟩ := region_kind hl.found hy
    exact ht d (ha.unique hd)
  have n4 : ∀ c t, At g c t → t ≠ .magic → s4.cells c = s3.cells c := by
    intro c t ha ht
    apply q4
    intro hm
    simp only [List.map_map, List.mem_map, Function.comp_apply] at hm
    obtain ⟨y, hy, rfl⟩ := hm
    exact ht (ha.unique (mem_findAll.1 hy))
  have n5 : ∀ c t, At g c t → t ≠ .dead → s5.cells c = s4.cells c := by
    intro c t ha ht
    apply q5
    intro hm
    simp only [List.map_map, List.mem_map, Function.comp_apply] at hm
    obtain ⟨y, hy, rfl⟩ := hm
    exact ht (ha.unique (mem_findAll.1 hy))
  have n2 : ∀ c t, At g c t → t ≠ .ystate → s2.cells c = s1.cells c := by
    intro c t ha ht
    apply q2
    intro hm
    exact ht (ha.unique (mem_findAll.1 hm))
  have n1 : ∀ c t, At g c t → t ≠ .qubit → s1.cells c = none := by
    intro c t ha ht
    rw [q1 c]; · rfl
    intro hm
    exact ht (ha.unique (mem_findAll.1 hm))
  refine ⟨s5, ?_, ⟨?_, ?_, ?_, ?_, ?_, ?_, ?_, ?_⟩, ?_, ?_, ?_, ?_⟩
  · unfold DSlice.init
    rw [if_neg (by omega)]
    have e1' : placeCore L.core ids (empty L) = .ok s1 := by rw [hcore, e1]
    have e2' : placeY L.predistilled s1 = .ok s2 := by rw [← e2]; rw [hL]
    have e3' : assignAll (L.regions.flatten.map fun o => (o.cell, distillationPatch o.bounds)) s2 = .ok s3 := by rw [← e3]; rw [hL]
    have e4' : assignAll (L.reserved.map fun c => (c, distillationPatch (.all ⟨.connected, false⟩))) s3 = .ok s4 := by rw [← e4]; rw [hL]
    have e5' : assignAll (L.dead.map fun c => (c, deadPatch)) { s4 with times := L.times } = .ok s5 := by rw [← e5, hL]
    rw [e1', Outcome.bind_ok, e2', Outcome.bind_ok, e3', Outcome.bind_ok, e4', Outcome.bind_ok]
    exact e5'
  · rw [hl.rect.1, f5.rows]; show h = s4.rows; rw [g4.rows, r0]
  · intro r hr
    rw [hl.rect.2 r hr, f5.cols]; show w = s4.cols; rw [g4.cols, c0]
  · refine ⟨findAll g .qubit, findRows_sorted, fun c => mem_findAll, ?_, ?_⟩
    · intro i id hi
      obtain ⟨c, hc, hp⟩ := p1 i id hi
      have ha := mem_findAll.1 (List.mem_of_getElem? hc)
      refine ⟨c, _, hc, ?_, square_squarePatch _⟩
      rw [n5 c _ ha (by simp), n4 c _ ha (by simp), n3 c _ ha (by simp), n2 c _ ha (by simp), hp]
    · intro i c hc hi
      have ha := mem_findAll.1 (List.mem_of_getElem? hc)
      rw [n5 c _ ha (by simp), n4 c _ ha (by simp), n3 c _ ha (by simp), n2 c _ ha (by simp), p1' i c hc hi]
  · intro c ha
    refine ⟨_, ?_, square_squarePatch _⟩
    rw [n5 c _ ha (by simp), n4 c _ ha (by simp), n3 c _ ha (by simp), p2 c (mem_findAll.2 ha)]
  · intro c d ha
    obtain ⟨r, hr, hc⟩ := hl.cover d c ha
    obtain ⟨y, hy, rfl⟩ := List.mem_map.1 hc
    obtain ⟨p, hp, hp'⟩ := p3 (y.cell, distillationPatch y.bounds) (List.mem_map.2 ⟨y, List.mem_flatten.2 ⟨r, hr, hy⟩, rfl⟩)
    refine ⟨p, ?_, hp'⟩
    rw [n5 _ _ ha (by simp), n4 _ _ ha (by simp), hp]
  · intro c ha
    obtain ⟨p, hp, hp'⟩ := p4 (c, _) (List.mem_map.2 ⟨c, mem_findAll.2 ha, rfl⟩)
    refine ⟨p, ?_, hp'⟩
    rw [n5 _ _ ha (by simp), hp]
  · intro c ha
    obtain ⟨p, hp, hp'⟩ := p5 (c, _) (List.mem_map.2 ⟨c, mem_findAll.2 ha, rfl⟩)
    exact ⟨p, hp, hp'⟩
  · intro c hc
    rcases hc with ha | ha | ha | ha <;>
      rw [n5 c _ ha (by simp), n4 c _ ha (by simp), n3 c _ ha (by simp), n2 c _ ha (by simp), n1 c _ ha (by simp)]
  · rw [f5.rows]; show s4.rows = h; rw [g4.rows, r0]
  · rw [f5.cols]; show s4.cols = w; rw [g4.cols, c0]
  · rw [f5.times]
  · rw [y5]; show s4.yAvail = _; rw [y4, y3, y2, y1, hL]; simp [empty]

end Verif.Layouts
