import Verif.SliceLemmas

/-!
# Ids on the lattice: lemmas

How every operation changes the set of ids present on a slice.
-/

namespace Verif

open Apply

namespace DSlice

/-- No id names two cells. -/
def Unique (s : DSlice) : Prop := ∀ c c' n, s.idAt c = some n → s.idAt c' = some n → c = c'

/-- The id is on the lattice. -/
def Owns (s : DSlice) (n : Nat) : Prop := ∃ c, s.idAt c = some n

/-- Going from `s` to `s'` puts at most the ids `g` on the lattice, and keeps ids unique if these are new. -/
structure Grow (s s' : DSlice) (g : List Nat) : Prop where
  uniq : s.Unique → (∀ n ∈ g, ¬ s.Owns n) → g.Nodup → s'.Unique
  owns : ∀ n, s'.Owns n → s.Owns n ∨ n ∈ g
  rows : s'.rows = s.rows
  cols : s'.cols = s.cols
  out : ∀ c, s.inRange c = false → s.cells c = none → s'.cells c = none

theorem Grow.inRange {s s' : DSlice} {g : List Nat} (h : Grow s s' g) (c : Cell) : s'.inRange c = s.inRange c := by
  unfold DSlice.inRange; rw [h.rows, h.cols]

theorem Grow.refl (s : DSlice) : Grow s s [] := ⟨fun h _ _ => h, fun _ h => .inl h, rfl, rfl, fun _ _ h => h⟩

theorem Grow.trans {a b c : DSlice} {g h : List Nat} (x : Grow a b g) (y : Grow b c h) : Grow a c (g ++ h) := by
  refine ⟨?_, ?_, y.rows.trans x.rows, y.cols.trans x.cols, fun d hr hd => y.out d (by rw [x.inRange]; exact hr) (x.out d hr hd)⟩
  · intro hu hf hn
    rw [List.nodup_append] at hn
    refine y.uniq (x.uniq hu (fun n hn => hf n (by simp [hn])) hn.1) ?_ hn.2.1
    intro n hm ho
    rcases x.owns n ho with h | h
    · exact hf n (by simp [hm]) h
    · exact hn.2.2 n h n hm rfl
  · intro n ho
    rcases y.owns n ho with h | h
    · rcases x.owns n h with h | h
      · exact .inl h
      · exact .inr (by simp [h])
    · exact .inr (by simp [h])

theorem nodup_of_count {g : List Nat} (h : ∀ n, g.count n ≤ 1) : g.Nodup := List.nodup_iff_count.2 h

theorem Grow.mono {a b : DSlice} {g h : List Nat} (x : Grow a b g) (hc : ∀ n, g.count n ≤ h.count n) : Grow a b h := by
  have hm : ∀ n, n ∈ g → n ∈ h := fun n hn => List.count_pos_iff.1 (Nat.lt_of_lt_of_le (List.count_pos_iff.2 hn) (hc n))
  refine ⟨?_, ?_, x.rows, x.cols, x.out⟩
  · intro hu hf hn
    refine x.uniq hu (fun n hn => hf n (hm n hn)) (nodup_of_count fun n => Nat.le_trans (hc n) (List.nodup_iff_count.1 hn n))
  · intro n ho
    rcases x.owns n ho with h | h
    · exact .inl h
    · exact .inr (hm n h)

/-- Ids only disappear. -/
theorem Grow.of_ids {a b : DSlice} (h : ∀ c n, b.idAt c = some n → a.idAt c = some n) (hr : b.rows = a.rows) (hk : b.cols = a.cols)
    (ho : ∀ c, a.inRange c = false → a.cells c = none → b.cells c = none) : Grow a b [] :=
  ⟨fun hu _ _ c c' n h1 h2 => hu c c' n (h _ _ h1) (h _ _ h2), fun n ⟨c, hc⟩ => .inl ⟨c, h _ _ hc⟩, hr, hk, ho⟩

theorem SameCore.grow {a b : DSlice} (h : SameCore a b) : Grow a b [] :=
  .of_ids (fun c n e => by rw [← h.idAt]; exact e) h.rows h.cols fun c _ hc => (h.none_iff c).2 hc

theorem Filled.grow {R : List Cell} {act : PatchActivity} {a b : DSlice} (h : Filled R act a b) : Grow a b [] := by
  refine .of_ids (fun c n e => ?_) h.rows h.cols fun c hr hn => ?_
  · rcases h.cell c with hc | ⟨-, -, -, p, hp, -, -, hid⟩
    · rw [← idAt_of_core hc]; exact e
    · simp [idAt, hp, hid] at e
  · rcases h.cell c with hc | ⟨hr', -⟩
    · rw [← core_eq_none, hc, core_eq_none]; exact hn
    · rw [hr] at hr'; cases hr'

theorem idAt_put (s : DSlice) (c x : Cell) (p : Option DensePatch) : (s.put c p).idAt x = if x = c then p.bind (·.id) else s.idAt x := by
  unfold idAt
  simp only [put_cells, upd]
  split <;> rfl

/-- A patch is put on a cell. -/
theorem grow_put (s : DSlice) (c : Cell) (p : DensePatch) (hin : s.inRange c = true ∨ s.cells c ≠ none) :
    Grow s (s.put c (some p)) p.id.toList := by
  refine ⟨?_, ?_, rfl, rfl, ?_⟩
  · intro hu hf _ x y n hx hy
    rw [idAt_put] at hx hy
    have hpid : ∀ m, (some p).bind (·.id) = some m → m ∈ p.id.toList := by intro m hm; simp only [Option.bind_some] at hm; simp [hm]
    split at hx <;> split at hy
    · rename_i h1 h2; rw [h1, h2]
    · exact absurd ⟨y, hy⟩ (hf n (hpid n hx))
    · exact absurd ⟨x, hx⟩ (hf n (hpid n hy))
    · exact hu x y n hx hy
  · rintro n ⟨x, hx⟩
    rw [idAt_put] at hx
    split at hx
    · exact .inr (by simp only [Option.bind_some] at hx; simp [hx])
    · exact .inl ⟨x, hx⟩
  · intro x hr hn
    simp only [put_cells]
    by_cases e : x = c
    · subst e
      rcases hin with h | h
      · rw [hr] at h; cases h
      · exact absurd hn h
    · rw [upd_other _ _ e]; exact hn

theorem grow_put_none (s : DSlice) (c : Cell) : Grow s (s.put c none) [] := by
  refine .of_ids (fun x n e => ?_) rfl rfl fun x _ hn => ?_
  · rw [idAt_put] at e
    split at e
    · simp at e
    · exact e
  · simp only [put_cells]
    by_cases e : x = c
    · rw [e, upd_same]
    · rw [upd_other _ _ e]; exact hn

theorem modPatch_none {s : DSlice} {c x : Cell} {f : DensePatch → DensePatch} (h : s.cells x = none) : (s.modPatch c f).cells x = none := by
  unfold modPatch
  simp only [put_cells]
  by_cases e : x = c
  · rw [e, upd_same, ← e, h]; rfl
  · rw [upd_other _ _ e]; exact h

theorem idAt_modPatch (s : DSlice) (c x : Cell) (f : DensePatch → DensePatch) :
    (s.modPatch c f).idAt x = if x = c then ((s.cells c).map f).bind (·.id) else s.idAt x := by
  unfold modPatch; rw [idAt_put]

/-- A patch is changed without giving it a new id. -/
theorem grow_modPatch (s : DSlice) (c : Cell) (f : DensePatch → DensePatch) (hf : ∀ p n, (f p).id = some n → p.id = some n) :
    Grow s (s.modPatch c f) [] := by
  refine .of_ids (fun x n e => ?_) rfl rfl fun x _ hn => modPatch_none hn
  rw [idAt_modPatch] at e
  split at e
  · rename_i h
    subst h
    unfold idAt
    cases hc : s.cells x with
    | none => simp [hc] at e
    | some p => simp only [hc, Option.map_some, Option.bind_some] at e ⊢; exact hf p n e
  · exact e

/-- A patch gets the id `n`. -/
theorem grow_setId (s : DSlice) (c : Cell) (n : Nat) (f : DensePatch → DensePatch) (hf : ∀ p, (f p).id = some n) :
    Grow s (s.modPatch c f) [n] := by
  unfold modPatch
  cases hc : s.cells c with
  | none => exact (grow_put_none s c).mono (by simp)
  | some p =>
    have := grow_put s c (f p) (.inr (by simp [hc]))
    rw [hf p] at this
    exact this

theorem grow_setActivity (s : DSlice) (c : Cell) (a : PatchActivity) : Grow s (setActivity s c a) [] :=
  grow_modPatch s c _ (fun _ _ h => h)

/-- Only the fields of the slice besides the cells change. -/
theorem grow_fields {a b b' : DSlice} {g : List Nat} (h : Grow a b g) (e : b'.cells = b.cells) (hr : b'.rows = b.rows) (hk : b'.cols = b.cols) : Grow a b' g := by
  have : ∀ c, b'.idAt c = b.idAt c := fun c => by unfold idAt; rw [e]
  exact ⟨fun x y z c c' n h1 h2 => h.uniq x y z c c' n (by rw [← this]; exact h1) (by rw [← this]; exact h2),
    fun n ⟨c, hc⟩ => h.owns n ⟨c, by rw [← this]; exact hc⟩, hr.trans h.rows, hk.trans h.cols, fun c h1 h2 => by rw [e]; exact h.out c h1 h2⟩

theorem grow_placeSingle {s : DSlice} {p : SparsePatch} {o : OccCell} (hp : p.cells = .single o) {b : Bool} {r : DSlice × Cell}
    (h : s.placeSingle p b = .ok r) : Grow s r.1 p.id.toList := by
  obtain ⟨hr, rfl⟩ := placeSingle_any hp h
  exact grow_put s o.cell _ (.inl hr)

/-! ### Local instructions -/

/-- The ids a local instruction names. -/
def localIds : LocalInstr → List Nat
  | .prepareY id _ => id.toList
  | .bellPrepare id1 id2 _ _ => id1.toList ++ id2.toList
  | .move _ _ id => id.toList
  | .extendSplit id _ _ => id.toList
  | _ => []

theorem grow_vacate (e : Bool) (s : DSlice) (c : Cell) : Grow s (vacate e s c) [] := by
  unfold vacate
  split
  · exact grow_put_none s c
  · exact .refl s

theorem grow_bellPlace {s s' : DSlice} {i j : Option Nat} {c d : Cell} (h : bellPlace s i j c d = .ok s') :
    Grow s s' (i.toList ++ j.toList) := by
  unfold bellPlace at h
  obtain ⟨r, h1, h⟩ := Outcome.bind_eq_ok.1 h
  obtain ⟨r', h2, h⟩ := Outcome.bind_eq_ok.1 h
  obtain ⟨s1, h3, h⟩ := Outcome.bind_eq_ok.1 h
  have := (((grow_placeSingle rfl h1).trans (grow_placeSingle rfl h2)).trans (activateOrFail_same h3).grow).trans (activateOrFail_same h).grow
  simpa [basicSquare] using this

theorem grow_movePlace {s s' : DSlice} {src dst : Cell} {newId : Option Nat} (h : movePlace s src dst newId = .ok s') :
    Grow s s' newId.toList := by
  unfold movePlace at h
  cases hp : s.cells src with
  | none => rw [hp] at h; cases h
  | some p =>
    rw [hp] at h
    obtain ⟨r, h1, h⟩ := Outcome.bind_eq_ok.1 h
    obtain ⟨s1, h2, h⟩ := Outcome.bind_eq_ok.1 h
    obtain ⟨s2, h3, hs⟩ := Outcome.bind_eq_ok.1 h
    simp only [Outcome.ok.injEq] at hs
    obtain ⟨hin, hfree, rfl⟩ := placeSingle_ok rfl h1
    simp only [basicSquare] at hfree h2
    have hne : src ≠ dst := by rintro rfl; rw [hp] at hfree; cases hfree
    have h12 := (activateOrFail_same h2).trans (activateOrFail_same h3)
    subst hs
    have ids : ∀ x, (s2.modPatch src fun p => { p with activity := .measurement, id := none }).idAt x =
        if x = src then none else if x = dst then newId.or p.id else s.idAt x := by
      intro x
      rw [idAt_modPatch]
      split
      · cases s2.cells src <;> simp
      · rw [h12.idAt, idAt_put]
        split <;> simp
    have hsrc : s.idAt src = p.id := by simp [idAt, hp]
    refine ⟨?_, ?_, h12.rows, h12.cols, ?_⟩
    · intro hu hf _ x y n hx hy
      rw [ids] at hx hy
      split at hx
      · cases hx
      · split at hy
        · cases hy
        · rename_i hxs hys
          cases hnew : newId with
          | some m =>
            have hm : ¬ s.Owns m := hf m (by simp [hnew])
            simp only [hnew, Option.some_or] at hx hy
            split at hx <;> split at hy
            · rename_i e1 e2; rw [e1, e2]
            · cases hx; exact absurd ⟨y, hy⟩ hm
            · cases hy; exact absurd ⟨x, hx⟩ hm
            · exact hu x y n hx hy
          | none =>
            simp only [hnew, Option.none_or] at hx hy
            split at hx <;> split at hy
            · rename_i e1 e2; rw [e1, e2]
            · exact absurd (hu y src n hy (by rw [hsrc]; exact hx)) hys
            · exact absurd (hu x src n hx (by rw [hsrc]; exact hy)) hxs
            · exact hu x y n hx hy
    · rintro n ⟨x, hx⟩
      rw [ids] at hx
      split at hx
      · cases hx
      · split at hx
        · cases hnew : newId with
          | some m => simp only [hnew, Option.some_or, Option.some.injEq] at hx; exact .inr (by simp [hx])
          | none => simp only [hnew, Option.none_or] at hx; exact .inl ⟨src, by rw [hsrc]; exact hx⟩
        · exact .inl ⟨x, hx⟩
    · intro x hr hn
      refine modPatch_none ((h12.none_iff x).2 ?_)
      simp only [put_cells]
      rw [upd_other]
      · exact hn
      · rintro rfl
        simp only [basicSquare] at hin
        rw [hr] at hin
        cases hin

theorem grow_applyLocal {e : Bool} {s : DSlice} {i : LocalInstr} {r : DSlice × Bool} (h : applyLocal e s i = .ok r) :
    Grow s r.1 (localIds i) ∧ (r.2 = true → r.1 = s) := by
  have zero : ∀ g : List Nat, Grow s s g := fun g => (Grow.refl s).mono (by simp)
  cases i with
  | prepareY id c =>
    simp only [applyLocal, prepareY] at h
    obtain ⟨f, h1, h⟩ := Outcome.bind_eq_ok.1 h
    split at h
    · cases h
    · obtain ⟨x, h2, h⟩ := Outcome.bind_eq_ok.1 h
      cases h
      refine ⟨?_, by simp⟩
      have := (grow_placeSingle rfl h2).trans (grow_modPatch x.1 c (fun p => { p with activity := .unitary }) (fun _ _ h => h))
      simpa [basicSquare, localIds] using this
  | bellPrepare i j c d =>
    simp only [applyLocal, bellPrepare] at h
    obtain ⟨f, h1, h⟩ := Outcome.bind_eq_ok.1 h
    split at h
    · cases h; exact ⟨zero _, fun _ => rfl⟩
    · obtain ⟨f', h2, h⟩ := Outcome.bind_eq_ok.1 h
      split at h
      · cases h; exact ⟨zero _, fun _ => rfl⟩
      · obtain ⟨x, h3, h⟩ := Outcome.bind_eq_ok.1 h
        cases h
        refine ⟨?_, by simp⟩
        have := ((grow_vacate e s c).trans (grow_vacate e _ d)).trans (grow_bellPlace h3)
        simpa [localIds] using this
  | bellMeasure c d =>
    simp only [applyLocal, bellMeasure] at h
    obtain ⟨f, h1, h⟩ := Outcome.bind_eq_ok.1 h
    split at h
    · cases h; exact ⟨zero _, fun _ => rfl⟩
    · obtain ⟨x, h2, h⟩ := Outcome.bind_eq_ok.1 h
      obtain ⟨y, h3, h⟩ := Outcome.bind_eq_ok.1 h
      cases h
      refine ⟨?_, by simp⟩
      have := (((activateOrFail_same h2).trans (activateOrFail_same h3)).grow.trans (grow_setActivity y c .measurement)).trans
        (grow_setActivity _ d .measurement)
      simpa [localIds] using this
  | twoPatchMeasure c d =>
    simp only [applyLocal, twoPatchMeasure] at h
    obtain ⟨f, h1, h⟩ := Outcome.bind_eq_ok.1 h
    split at h
    · cases h; exact ⟨zero _, fun _ => rfl⟩
    · obtain ⟨x, h2, h⟩ := Outcome.bind_eq_ok.1 h
      obtain ⟨y, h3, h⟩ := Outcome.bind_eq_ok.1 h
      cases h
      refine ⟨?_, by simp⟩
      simpa [localIds] using ((activateOrFail_same h2).trans (activateOrFail_same h3)).grow
  | extendSplit id t x =>
    simp only [applyLocal, extendSplit] at h
    obtain ⟨f, h1, h⟩ := Outcome.bind_eq_ok.1 h
    split at h
    · cases h; exact ⟨zero _, fun _ => rfl⟩
    · obtain ⟨f', h2, h⟩ := Outcome.bind_eq_ok.1 h
      split at h
      · cases h; exact ⟨zero _, fun _ => rfl⟩
      · obtain ⟨y, h3, h⟩ := Outcome.bind_eq_ok.1 h
        obtain ⟨z, h4, h⟩ := Outcome.bind_eq_ok.1 h
        obtain ⟨w, h5, h⟩ := Outcome.bind_eq_ok.1 h
        cases h
        refine ⟨?_, by simp⟩
        have := (((grow_vacate e s x).trans (grow_placeSingle rfl h3)).trans (activateOrFail_same h4).grow).trans (activateOrFail_same h5).grow
        simpa [basicSquare, localIds] using this
  | mergeContract c d =>
    simp only [applyLocal, mergeContract] at h
    obtain ⟨f, h1, h⟩ := Outcome.bind_eq_ok.1 h
    split at h
    · cases h; exact ⟨zero _, fun _ => rfl⟩
    · obtain ⟨x, h2, h⟩ := Outcome.bind_eq_ok.1 h
      obtain ⟨y, h3, h⟩ := Outcome.bind_eq_ok.1 h
      cases h
      refine ⟨?_, by simp⟩
      simpa [localIds] using ((activateOrFail_same h2).trans (activateOrFail_same h3)).grow.trans (grow_setActivity y d .measurement)
  | move src dst id =>
    simp only [applyLocal, move] at h
    obtain ⟨f, h1, h⟩ := Outcome.bind_eq_ok.1 h
    split at h
    · cases h; exact ⟨zero _, fun _ => rfl⟩
    · obtain ⟨f', h2, h⟩ := Outcome.bind_eq_ok.1 h
      split at h
      · cases h; exact ⟨zero _, fun _ => rfl⟩
      · obtain ⟨y, h3, h⟩ := Outcome.bind_eq_ok.1 h
        cases h
        refine ⟨?_, by simp⟩
        simpa [localIds] using (grow_vacate e s dst).trans (grow_movePlace h3)

/-- The ids named by a list of local instructions. -/
def allLocalIds (l : List LocalInstr) : List Nat := l.flatMap localIds

theorem grow_runLocals {e : Bool} : ∀ {l : List LocalInstr} {s : DSlice} {x : DSlice × Nat × Bool},
    runLocals e l s = .ok x → Grow s x.1 (allLocalIds (l.take x.2.1)) ∧ x.2.1 ≤ l.length ∧ (x.2.2 = true → x.2.1 = l.length)
  | [], s, x, h => by cases h; exact ⟨by simpa [allLocalIds] using Grow.refl s, by simp, by simp⟩
  | i :: l, s, x, h => by
    rw [runLocals] at h
    obtain ⟨r, h1, h⟩ := Outcome.bind_eq_ok.1 h
    obtain ⟨g1, g2⟩ := grow_applyLocal h1
    split at h
    · rename_i hr
      cases h
      exact ⟨by rw [g2 hr]; simpa [allLocalIds] using Grow.refl s, by simp, by simp⟩
    · obtain ⟨y, h2, h⟩ := Outcome.bind_eq_ok.1 h
      obtain ⟨i1, i2, i3⟩ := grow_runLocals h2
      cases h
      refine ⟨?_, by simp; omega, ?_⟩
      · simpa [allLocalIds] using g1.trans i1
      · intro e; simp [i3 e]

/-! ### Compiled Bell operations name each id once -/

theorem nodup_byTwo (a e : Nat) : (byTwo a e).Nodup := by
  unfold byTwo
  rw [List.Nodup, List.pairwise_map]
  exact List.Pairwise.imp (fun h e => h (by omega)) List.nodup_range

/-- How often the layers name `n`. -/
def namesIn (n : Nat) (l : Layers) : Nat := (allLocalIds l.l1).count n + (allLocalIds l.l2).count n

theorem namesIn_push1 (n : Nat) (l : Layers) (i : LocalInstr) : namesIn n (l.push1 i) = namesIn n l + (localIds i).count n := by
  unfold namesIn Layers.push1 allLocalIds; simp; omega

theorem namesIn_push2 (n : Nat) (l : Layers) (i : LocalInstr) : namesIn n (l.push2 i) = namesIn n l + (localIds i).count n := by
  unfold namesIn Layers.push2 allLocalIds; simp; omega

theorem mkMove_ids {r : List Cell} {i j : Nat} {x : LocalInstr} (h : mkMove r i j = .ok x) : localIds x = [] := by
  unfold mkMove at h
  obtain ⟨a, -, h⟩ := Outcome.bind_eq_ok.1 h
  obtain ⟨b, -, h⟩ := Outcome.bind_eq_ok.1 h
  cases h; rfl

theorem mkExtend_ids {r : List Cell} {i j : Nat} {x : LocalInstr} (h : mkExtend r i j = .ok x) : localIds x = [] := by
  unfold mkExtend at h
  obtain ⟨a, -, h⟩ := Outcome.bind_eq_ok.1 h
  obtain ⟨b, -, h⟩ := Outcome.bind_eq_ok.1 h
  cases h; rfl

theorem mkMeasure_ids {r : List Cell} {i j : Nat} {x : LocalInstr} (h : mkMeasure r i j = .ok x) : localIds x = [] := by
  unfold mkMeasure at h
  obtain ⟨a, -, h⟩ := Outcome.bind_eq_ok.1 h
  obtain ⟨b, -, h⟩ := Outcome.bind_eq_ok.1 h
  cases h; rfl

theorem mkContract_ids {r : List Cell} {i j : Nat} {x : LocalInstr} (h : mkContract r i j = .ok x) : localIds x = [] := by
  unfold mkContract at h
  obtain ⟨a, -, h⟩ := Outcome.bind_eq_ok.1 h
  obtain ⟨b, -, h⟩ := Outcome.bind_eq_ok.1 h
  cases h; rfl

theorem mkPrepare_ids {r : List Cell} {p q : Option Nat} {i j : Nat} {x : LocalInstr} (h : mkPrepare r p q i j = .ok x) :
    localIds x = p.toList ++ q.toList := by
  unfold mkPrepare at h
  obtain ⟨a, -, h⟩ := Outcome.bind_eq_ok.1 h
  obtain ⟨b, -, h⟩ := Outcome.bind_eq_ok.1 h
  cases h; rfl

theorem compileMove_names {n : Nat} {ty : LongRange} {r : List Cell} {a b : Nat} {rev : Bool} {l l' : Layers}
    (h : compileMove ty r a b rev l = .ok l') : namesIn n l' = namesIn n l := by
  unfold compileMove at h
  split at h
  · simp only at h
    split at h <;>
    · obtain ⟨i, h1, h⟩ := Outcome.bind_eq_ok.1 h
      cases h
      rw [namesIn_push2]
      simp [mkMove_ids h1]
  · simp only at h
    split at h <;>
    · obtain ⟨i, h1, h⟩ := Outcome.bind_eq_ok.1 h
      cases h
      rw [namesIn_push1]
      simp [mkMove_ids h1]

theorem compileSplit_names {n : Nat} {r : List Cell} {a b sz : Nat} {rev : Bool} {l : Layers} {x : Layers × Option (Nat × Nat)}
    (h : compileSplit r a b sz rev l = .ok x) : namesIn n x.1 = namesIn n l := by
  unfold compileSplit at h
  split at h
  · simp only at h
    split at h <;>
    · obtain ⟨i, h1, h⟩ := Outcome.bind_eq_ok.1 h
      cases h
      rw [namesIn_push1]
      simp [mkExtend_ids h1]
  · split at h
    all_goals
      obtain ⟨i, h1, h⟩ := Outcome.bind_eq_ok.1 h
      obtain ⟨j, h2, h⟩ := Outcome.bind_eq_ok.1 h
      cases h
      rw [namesIn_push2, namesIn_push1, mkExtend_ids h1, mkMeasure_ids h2]
      simp

theorem compileMerge_names {n : Nat} {r : List Cell} {a b sz : Nat} {rev : Bool} {p q : Option Nat} {l : Layers} {x : Layers × Option (Nat × Nat)}
    (h : compileMerge r a b sz rev p q l = .ok x) :
    namesIn n x.1 ≤ namesIn n l + (if rev then q else p).toList.count n := by
  unfold compileMerge at h
  split at h
  · simp only at h
    split at h <;>
    · obtain ⟨i, h1, h⟩ := Outcome.bind_eq_ok.1 h
      cases h
      rw [namesIn_push2]
      simp [mkContract_ids h1]
  · split at h
    all_goals
      rename_i hr
      obtain ⟨i, h1, h⟩ := Outcome.bind_eq_ok.1 h
      obtain ⟨j, h2, h⟩ := Outcome.bind_eq_ok.1 h
      cases h
      rw [namesIn_push2, namesIn_push1, mkPrepare_ids h1, mkContract_ids h2]
      simp [hr]

theorem compilePairs_names {n : Nat} {ty : LongRange} {r : List Cell} {a b off back : Nat} {p q : Option Nat} : ∀ {js : List Nat} {l l' : Layers},
    compilePairs ty r a b off back p q js l = .ok l' →
    namesIn n l' ≤ namesIn n l + if ty = .prep ∨ ty = .split then js.count (a + off) * q.toList.count n + js.count (b - 1 - back) * p.toList.count n else 0
  | [], l, l', h => by cases h; simp
  | j :: js, l, l', h => by
    rw [compilePairs] at h
    split at h
    · rename_i ht
      obtain ⟨i, h1, h⟩ := Outcome.bind_eq_ok.1 h
      have ih := compilePairs_names (n := n) h
      rw [namesIn_push1, mkPrepare_ids h1] at ih
      rw [if_pos ht] at ih ⊢
      simp only [List.count_append] at ih
      rw [List.count_cons, List.count_cons, Nat.add_mul, Nat.add_mul]
      have e1 : List.count n (if j = a + off then q else none).toList ≤ (if (j == a + off) = true then 1 else 0) * List.count n q.toList := by
        by_cases e : j = a + off <;> simp [e]
      have e2 : List.count n (if j = b - 1 - back then p else none).toList ≤ (if (j == b - 1 - back) = true then 1 else 0) * List.count n p.toList := by
        by_cases e : j = b - 1 - back <;> simp [e]
      omega
    · rename_i ht
      obtain ⟨i, h1, h⟩ := Outcome.bind_eq_ok.1 h
      have ih := compilePairs_names (n := n) h
      rw [namesIn_push2, mkMeasure_ids h1] at ih
      rw [if_neg ht] at ih ⊢
      simpa using ih

theorem compileBetween_names {n : Nat} {ty : LongRange} {r : List Cell} {a b off odd : Nat} {rev : Bool} {p q : Option Nat} : ∀ {js : List Nat} {l l' : Layers},
    compileBetween ty r a b off odd rev p q js l = .ok l' →
    namesIn n l' ≤ namesIn n l + if ty = .prep ∨ ty = .split then 0 else
      if rev then js.count (b - 1 - odd) * p.toList.count n else js.count (a + 2 + off) * q.toList.count n
  | [], l, l', h => by cases h; simp
  | j :: js, l, l', h => by
    rw [compileBetween] at h
    split at h
    · rename_i ht
      obtain ⟨i, h1, h⟩ := Outcome.bind_eq_ok.1 h
      have ih := compileBetween_names (n := n) h
      rw [namesIn_push2, mkMeasure_ids h1] at ih
      rw [if_pos ht] at ih ⊢
      simpa using ih
    · rename_i ht
      obtain ⟨i, h1, h⟩ := Outcome.bind_eq_ok.1 h
      have ih := compileBetween_names (n := n) h
      rw [namesIn_push1, mkPrepare_ids h1] at ih
      rw [if_neg ht] at ih ⊢
      simp only [List.count_append] at ih
      cases rev with
      | true =>
        simp only [if_true, Bool.true_eq_false, false_and, if_false, true_and, Option.toList_none, List.count_nil] at ih ⊢
        rw [List.count_cons, Nat.add_mul]
        have e2 : List.count n (if j = b - 1 - odd then p else none).toList ≤ (if (j == b - 1 - odd) = true then 1 else 0) * List.count n p.toList := by
          by_cases e : j = b - 1 - odd <;> simp [e]
        omega
      | false =>
        simp only [Bool.false_eq_true, if_false, true_and, false_and, Option.toList_none, List.count_nil] at ih ⊢
        rw [List.count_cons, Nat.add_mul]
        have e2 : List.count n (if j = a + 2 + off then q else none).toList ≤ (if (j == a + 2 + off) = true then 1 else 0) * List.count n q.toList := by
          by_cases e : j = a + 2 + off <;> simp [e]
        omega

theorem compile_names {n : Nat} {ty : LongRange} {r : List Cell} {a b : Nat} {rev : Bool} {p q : Option Nat} {l l' : Layers}
    (h : compile ty r a b rev p q l = .ok l') : namesIn n l' ≤ namesIn n l + p.toList.count n + q.toList.count n := by
  unfold compile at h
  split at h
  · cases h
  · obtain ⟨l1, e1, h⟩ : ∃ l1, namesIn n l1 = namesIn n l ∧ compileRest ty r a b (b - a + 1) rev p q l1 = .ok l' := by
      split at h
      · obtain ⟨l1, h1, h⟩ := Outcome.bind_eq_ok.1 h
        exact ⟨l1, compileMove_names h1, h⟩
      · exact ⟨l, rfl, h⟩
    unfold compileRest at h
    obtain ⟨x, h2, h⟩ := Outcome.bind_eq_ok.1 h
    have c1 : ∀ a e k, (byTwo a e).count k ≤ 1 := fun a e k => List.nodup_iff_count.1 (nodup_byTwo a e) k
    have e2 : namesIn n x.1 ≤ namesIn n l1 + if ty = .merge then (if rev then q else p).toList.count n else 0 := by
      unfold compileEnd at h2
      cases ty with
      | split => simp [compileSplit_names h2]
      | merge => simpa using compileMerge_names (n := n) h2
      | prep => cases h2; simp
      | measure => cases h2; simp
    have hz : x.2 = none ∨ ∃ z, x.2 = some z := by cases x.2 <;> simp
    rcases hz with hz | ⟨⟨a', b'⟩, hz⟩
    · rw [hz] at h
      cases h
      have : (if ty = .merge then (if rev then q else p).toList.count n else 0) ≤ p.toList.count n + q.toList.count n := by
        split
        · split <;> omega
        · omega
      omega
    · rw [hz] at h
      obtain ⟨l2, h3, h⟩ := Outcome.bind_eq_ok.1 h
      have e3 := compilePairs_names (n := n) h3
      have e4 := compileBetween_names (n := n) h
      have m1 : ∀ a e k m, (byTwo a e).count k * m ≤ m := fun a e k m => by
        have := Nat.mul_le_mul_right m (c1 a e k); omega
      have k1 := m1 (a' + (if rev = true then 0 else (b - a + 1) % 2)) b' (a' + (if rev = true then 0 else (b - a + 1) % 2)) (q.toList.count n)
      have k2 := m1 (a' + (if rev = true then 0 else (b - a + 1) % 2)) b' (b' - 1 - (if rev = true then (b - a + 1) % 2 else 0)) (p.toList.count n)
      have k3 := m1 (a' + 2 + (if rev = true then 0 else (b - a + 1) % 2)) b' (b' - 1 - (b - a + 1) % 2) (p.toList.count n)
      have k4 := m1 (a' + 2 + (if rev = true then 0 else (b - a + 1) % 2)) b' (a' + 2 + (if rev = true then 0 else (b - a + 1) % 2)) (q.toList.count n)
      cases ty <;> simp at e2 e3 e4 <;> cases rev <;> simp at e2 e3 e4 k1 k2 k3 k4 <;> omega

end DSlice

end Verif
