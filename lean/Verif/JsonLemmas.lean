import Verif.JsonText
import Verif.LliLemmas

/-!
# JSON output of slices (helper lemmas)
-/

namespace Verif.Json

open Spec Lli

/-- The array of arrays with the given entries. -/
def ofFun (R K : Nat) (g : Cell → Json) : Json :=
  .arr ((List.range R).map fun r => .arr ((List.range K).map fun k => g ⟨(r : Nat), (k : Nat)⟩))

def Inside (R K : Nat) (c : Cell) : Prop := 0 ≤ c.row ∧ c.row < R ∧ 0 ≤ c.col ∧ c.col < K

theorem blank_eq {L : Layout} {R K : Nat} (h1 : L.furthest.row + 1 = R) (h2 : L.furthest.col + 1 = K) : blank L = ofFun R K fun _ => .null := by
  unfold blank ofFun
  rw [h1, h2]
  simp [List.map_const']

theorem atIdx_arr {i : Int} {n : Nat} {h : Nat → Json} {f : Json → Outcome Json} (h0 : 0 ≤ i) (hi : i < n) :
    atIdx i f (.arr ((List.range n).map h)) = (f (h i.toNat)).bind fun v => .ok (.arr ((List.range n).map (upd h i.toNat v))) := by
  unfold atIdx
  rw [if_neg (by omega)]
  dsimp only
  have e1 : i.toNat + 1 - ((List.range n).map h).length = 0 := by simp; omega
  rw [e1, List.replicate_zero, List.append_nil]
  have e2 : ((List.range n).map h)[i.toNat]? = some (h i.toNat) := by
    rw [List.getElem?_map, List.getElem?_range (by omega)]; rfl
  rw [e2, Option.getD_some]
  show Outcome.bind _ _ = _
  cases f (h i.toNat) with
  | throws => rfl
  | ub => rfl
  | ok v =>
    show Outcome.ok _ = Outcome.ok _
    congr 2
    apply List.ext_getElem?
    intro k
    rw [List.getElem?_set]
    by_cases hk : k < n
    · rw [List.getElem?_map, List.getElem?_map, List.getElem?_range hk]
      by_cases e : i.toNat = k
      · subst e; simp [upd]; omega
      · rw [if_neg e]; simp [upd, Ne.symm e]
    · rw [List.getElem?_eq_none (by simp; omega), List.getElem?_eq_none (by simp; omega)]
      split <;> simp
      omega

theorem atIdx_ofFun {R K : Nat} {g : Cell → Json} {c : Cell} (hc : Inside R K c) (f : Json → Outcome Json) :
    atIdx c.row (atIdx c.col f) (ofFun R K g) = (f (g c)).bind fun v => .ok (ofFun R K (upd g c v)) := by
  obtain ⟨h1, h2, h3, h4⟩ := hc
  unfold ofFun
  rw [atIdx_arr h1 h2, atIdx_arr h3 h4]
  have ec : (⟨(c.row.toNat : Nat), (c.col.toNat : Nat)⟩ : Cell) = c := by
    cases c; simp only [Cell.mk.injEq]; constructor <;> apply Int.toNat_of_nonneg <;> assumption
  rw [ec]
  cases f (g c) with
  | throws => rfl
  | ub => rfl
  | ok v =>
    show Outcome.ok _ = Outcome.ok _
    congr 2
    apply List.map_congr_left
    intro r _
    unfold upd
    by_cases e : r = c.row.toNat
    · rw [if_pos e]
      congr 1
      apply List.map_congr_left
      intro k _
      subst e
      by_cases e : k = c.col.toNat
      · subst e; rw [if_pos rfl, if_pos ec]
      · rw [if_neg e, if_neg]
        intro h
        have := congrArg Cell.col h
        simp at this; omega
    · rw [if_neg e]
      dsimp only
      congr 1
      apply List.map_congr_left
      intro k _
      rw [if_neg]
      intro h
      have := congrArg Cell.row h
      simp at this; omega

/-- The entry of a patch with a text. -/
def bare (p : DensePatch) (t : Json) : Json :=
  .obj ([("activity".toList, .obj [("activity_type".toList, activityJson p.activity)]),
    ("edges".toList, .obj [("Bottom".toList, .str (edge p.bounds.bottom)), ("Left".toList, .str (edge p.bounds.left)),
      ("Right".toList, .str (edge p.bounds.right)), ("Top".toList, .str (edge p.bounds.top))])] ++
    (match p.opId with | some n => [("operation_id".toList, .str (showNat n))] | none => []) ++
    [("patch_type".toList, .str (typeStr p.type)), ("text".toList, t)])

/-- The entry of a patch. -/
def patchVal (p : DensePatch) : Json := bare p (.str (patchText p))

theorem patchJson_eq (p : DensePatch) : patchJson p = .ok (patchVal p) := by
  unfold patchJson patchVal bare
  cases p.opId <;> rfl

/-- The entry of a cell before the factories are written. -/
def cellVal (s : DSlice) (c : Cell) : Json := match s.cells c with | some p => patchVal p | none => .null

theorem drawCells_eq {s : DSlice} {R K : Nat} : ∀ (cs : List Cell) (g : Cell → Json), (∀ c ∈ cs, Inside R K c) →
    ∃ g', drawCells s cs (ofFun R K g) = .ok (ofFun R K g') ∧ ∀ c, g' c = if c ∈ cs then (if (s.cells c).isSome then cellVal s c else g c) else g c
  | [], g, _ => ⟨g, rfl, by simp⟩
  | c :: cs, g, h => by
    unfold drawCells
    cases e : s.cells c with
    | none =>
      obtain ⟨g', h1, h2⟩ := drawCells_eq (s := s) cs g (fun x hx => h x (by simp [hx]))
      refine ⟨g', h1, ?_⟩
      intro x
      rw [h2]
      by_cases ex : x = c
      · subst ex; simp [e]
      · simp [ex]
    | some p =>
      obtain ⟨g', h1, h2⟩ := drawCells_eq (s := s) cs (upd g c (patchVal p)) (fun x hx => h x (by simp [hx]))
      refine ⟨g', ?_, ?_⟩
      · dsimp only
        rw [patchJson_eq]
        show Outcome.bind (atIdx c.row (atIdx c.col fun _ => .ok (patchVal p)) (ofFun R K g)) _ = _
        rw [atIdx_ofFun (h c (by simp))]
        exact h1
      · intro x
        rw [h2]
        by_cases ex : x = c
        · subst ex; simp [e, upd, cellVal]
        · simp [ex, upd]

theorem mem_allCells' {s : DSlice} {c : Cell} : c ∈ s.allCells ↔ Inside s.rows s.cols c := by
  unfold DSlice.allCells Inside
  simp only [List.mem_flatMap, List.mem_map, List.mem_range]
  constructor
  · rintro ⟨r, hr, k, hk, rfl⟩; dsimp only; omega
  · rintro ⟨h1, h2, h3, h4⟩
    refine ⟨c.row.toNat, by omega, c.col.toNat, by omega, ?_⟩
    cases c; simp only [Cell.mk.injEq]; constructor <;> apply Int.toNat_of_nonneg <;> assumption

theorem draw_eq {L : Layout} {s : DSlice} (h1 : L.furthest.row + 1 = s.rows) (h2 : L.furthest.col + 1 = s.cols) :
    drawCells s s.allCells (blank L) = .ok (ofFun s.rows s.cols (cellVal s)) := by
  rw [blank_eq h1 h2]
  obtain ⟨g, h3, h4⟩ := drawCells_eq (s := s) (R := s.rows) (K := s.cols) s.allCells (fun _ => .null) (fun c hc => mem_allCells'.1 hc)
  rw [h3]
  refine congrArg Outcome.ok ?_
  unfold ofFun
  congr 1
  apply List.map_congr_left
  intro r hr
  congr 1
  apply List.map_congr_left
  intro k hk
  rw [List.mem_range] at hr hk
  rw [h4, if_pos (mem_allCells'.2 (by unfold Inside; dsimp only; omega))]
  unfold cellVal
  cases s.cells ⟨r, k⟩ <;> rfl

/-- An entry the factory text can be added to. -/
def Open (v : Json) : Prop := v = .null ∨ ∃ l, v = .obj l

theorem open_cellVal (s : DSlice) (c : Cell) : Open (cellVal s c) := by
  unfold cellVal
  split
  · exact .inr ⟨_, rfl⟩
  · exact .inl rfl

def timeText (t : Nat) : Str := "Time to next magic state:".toList ++ showNat t

/-- An entry with the text of a factory. -/
def withText (t : Nat) : Json → Json
  | .null => .obj [("text".toList, .str (timeText t))]
  | .obj l => .obj (insertKey "text".toList (.str (timeText t)) l)
  | v => v

theorem open_withText {t : Nat} {v : Json} (h : Open v) : Open (withText t v) := by
  rcases h with rfl | ⟨l, rfl⟩ <;> exact .inr ⟨_, rfl⟩

theorem setText_eq {t : Nat} {v : Json} (h : Open v) : setKey "text".toList (.str (timeText t)) v = .ok (withText t v) := by
  rcases h with rfl | ⟨l, rfl⟩ <;> rfl

def fronts (rs : List (List OccCell)) : List Cell := rs.filterMap fun r => r.head?.map (·.cell)

theorem mem_fronts {rs : List (List OccCell)} {c : Cell} : c ∈ fronts rs ↔ ∃ (k : Nat) (o : OccCell) (l : List OccCell), rs[k]? = some (o :: l) ∧ o.cell = c := by
  unfold fronts
  rw [List.mem_filterMap]
  constructor
  · rintro ⟨r, hr, h⟩
    obtain ⟨k, hk⟩ := List.getElem?_of_mem hr
    cases r with
    | nil => cases h
    | cons o l => exact ⟨k, o, l, hk, by simpa using h⟩
  · rintro ⟨k, o, l, h, rfl⟩
    exact ⟨_, List.mem_of_getElem? h, rfl⟩

theorem annotate_eq {s : DSlice} {R K : Nat} : ∀ (rs : List (List OccCell)) (k : Nat) (g : Cell → Json),
    (∀ r ∈ rs, ∃ o l, r = o :: l ∧ Inside R K o.cell) → k + rs.length ≤ s.times.length → (fronts rs).Nodup → (∀ c, Open (g c)) →
    ∃ g', annotate s rs k (ofFun R K g) = .ok (ofFun R K g') ∧ (∀ c, c ∉ fronts rs → g' c = g c) ∧
      ∀ i o l, rs[i]? = some (o :: l) → ∃ t, s.times[k + i]? = some t ∧ g' o.cell = withText t (g o.cell)
  | [], k, g, _, _, _, _ => ⟨g, rfl, fun _ _ => rfl, by simp⟩
  | r :: rs, k, g, h1, h2, h3, h4 => by
    obtain ⟨o, l, rfl, ho⟩ := h1 r (by simp)
    simp only [List.length_cons] at h2
    have hk : s.times[k]? = some s.times[k] := List.getElem?_eq_getElem (by omega)
    generalize s.times[k] = t at hk
    have h3' : o.cell ∉ fronts rs ∧ (fronts rs).Nodup := by
      have : fronts ((o :: l) :: rs) = o.cell :: fronts rs := rfl
      rw [this] at h3
      exact List.nodup_cons.1 h3
    obtain ⟨g', e1, e2, e3⟩ := annotate_eq (s := s) (R := R) (K := K) rs (k + 1) (upd g o.cell (withText t (g o.cell))) (fun r hr => h1 r (by simp [hr])) (by omega) h3'.2 (by
      intro c; unfold upd; split
      · exact open_withText (h4 _)
      · exact h4 c)
    refine ⟨g', ?_, ?_, ?_⟩
    · unfold annotate
      rw [hk]
      dsimp only
      show Outcome.bind (atIdx o.cell.row (atIdx o.cell.col (setKey "text".toList (.str (timeText t)))) (ofFun R K g)) _ = _
      rw [atIdx_ofFun ho, setText_eq (h4 _)]
      exact e1
    · intro c hc
      have : c ≠ o.cell ∧ c ∉ fronts rs := by
        have : fronts ((o :: l) :: rs) = o.cell :: fronts rs := rfl
        rw [this] at hc
        simpa using hc
      rw [e2 c this.2]
      unfold upd
      rw [if_neg this.1]
    · intro i o' l' hi
      cases i with
      | zero =>
        simp only [List.getElem?_cons_zero, Option.some.injEq, List.cons.injEq] at hi
        obtain ⟨rfl, rfl⟩ := hi
        refine ⟨t, hk, ?_⟩
        rw [e2 _ h3'.1, upd, if_pos rfl]
      | succ i =>
        rw [List.getElem?_cons_succ] at hi
        obtain ⟨t', h5, h6⟩ := e3 i o' l' hi
        refine ⟨t', by rw [← h5]; congr 1; omega, ?_⟩
        rw [h6, upd, if_neg]
        intro e
        exact h3'.1 (mem_fronts.2 ⟨i, o', l', hi, e⟩)

theorem ofFun_at {R K : Nat} {g : Cell → Json} {c : Cell} (h : Inside R K c) :
    ∃ rows row, ofFun R K g = .arr rows ∧ rows.length = R ∧ rows[c.row.toNat]? = some (.arr row) ∧ row.length = K ∧ row[c.col.toNat]? = some (g c) := by
  obtain ⟨h1, h2, h3, h4⟩ := h
  refine ⟨_, (List.range K).map fun k => g ⟨(c.row.toNat : Nat), (k : Nat)⟩, rfl, by simp, ?_, by simp, ?_⟩
  · rw [List.getElem?_map, List.getElem?_range (by omega)]; rfl
  · rw [List.getElem?_map, List.getElem?_range (by omega)]
    have ec : (⟨(c.row.toNat : Nat), (c.col.toNat : Nat)⟩ : Cell) = c := by
      cases c; simp only [Cell.mk.injEq]; constructor <;> apply Int.toNat_of_nonneg <;> assumption
    rw [Option.map_some]
    exact congrArg (fun x => some (g x)) ec

theorem ofFun_inj {R K : Nat} {g g' : Cell → Json} : ofFun R K g = ofFun R K g' ↔ ∀ c, Inside R K c → g c = g' c := by
  constructor
  · intro h c hc
    obtain ⟨rows, row, e1, -, e2, -, e3⟩ := ofFun_at (g := g) hc
    obtain ⟨rows', row', e1', -, e2', -, e3'⟩ := ofFun_at (g := g') hc
    rw [h, e1'] at e1; cases e1
    rw [e2'] at e2; cases e2
    rw [e3'] at e3
    exact (Option.some.inj e3).symm
  · intro h
    unfold ofFun
    congr 1
    apply List.map_congr_left
    intro r hr
    congr 1
    apply List.map_congr_left
    intro k hk
    rw [List.mem_range] at hr hk
    exact h _ (by unfold Inside; dsimp only; omega)

/-! ## Strings without characters to be escaped -/

theorem plain_showNat (n : Nat) : PlainStr (showNat n) := by
  intro c hc
  have := showNat_digits n c hc
  refine ⟨?_, ?_, ?_⟩
  · rintro rfl; revert this; decide
  · rintro rfl; revert this; decide
  · unfold isDigit at this
    simp only [Bool.and_eq_true, decide_eq_true_eq] at this
    have h0 := this.1
    have h9 := this.2
    have : '0'.toNat ≤ c.toNat := h0
    have : c.toNat ≤ '9'.toNat := h9
    have e : '0'.toNat = 48 := rfl
    have e' : '9'.toNat = 57 := rfl
    omega

theorem plain_append {a b : Str} (ha : PlainStr a) (hb : PlainStr b) : PlainStr (a ++ b) := by
  intro c hc
  rcases List.mem_append.1 hc with h | h
  · exact ha c h
  · exact hb c h

instance (s : Str) : Decidable (PlainStr s) := inferInstanceAs (Decidable (∀ c ∈ s, c ≠ '"' ∧ c ≠ '\\' ∧ 32 ≤ c.toNat ∧ c.toNat < 128))

theorem plain_edge (b : Boundary) : PlainStr (edge b) := by
  obtain ⟨t, a⟩ := b
  cases t <;> cases a <;> decide

theorem plain_type (t : PatchType) : PlainStr (typeStr t) := by cases t <;> decide

theorem clean_activity (a : PatchActivity) : Clean (activityJson a) := by
  cases a <;> first | exact trivial | (show PlainStr _; decide)

theorem plain_text (p : DensePatch) : PlainStr (patchText p) := by
  unfold patchText
  split
  · exact plain_append (by decide) (plain_showNat _)
  · split <;> decide

theorem clean_patchVal (p : DensePatch) : Clean (patchVal p) := by
  unfold patchVal bare Clean
  rw [cleanMembers_iff]
  intro x hx
  simp only [List.mem_append, List.mem_cons, List.not_mem_nil, or_false] at hx
  rcases hx with ((rfl | rfl) | h) | (rfl | rfl)
  · refine ⟨(by dsimp only; decide), ?_⟩
    unfold Clean; rw [cleanMembers_iff]
    intro y hy
    simp only [List.mem_cons, List.not_mem_nil, or_false] at hy
    subst hy
    exact ⟨(by dsimp only; decide), clean_activity _⟩
  · refine ⟨(by dsimp only; decide), ?_⟩
    unfold Clean; rw [cleanMembers_iff]
    intro y hy
    simp only [List.mem_cons, List.not_mem_nil, or_false] at hy
    rcases hy with rfl | rfl | rfl | rfl <;> exact ⟨(by dsimp only; decide), by unfold Clean; exact plain_edge _⟩
  · split at h
    · simp only [List.mem_cons, List.not_mem_nil, or_false] at h
      subst h
      exact ⟨(by dsimp only; decide), by unfold Clean; exact plain_showNat _⟩
    · cases h
  · exact ⟨(by dsimp only; decide), by unfold Clean; exact plain_type _⟩
  · exact ⟨(by dsimp only; decide), by unfold Clean; exact plain_text _⟩

theorem clean_cellVal (s : DSlice) (c : Cell) : Clean (cellVal s c) := by
  unfold cellVal
  split
  · exact clean_patchVal _
  · exact trivial

theorem mem_insertKey {k : Str} {v : Json} : ∀ {l : List (Str × Json)} {x : Str × Json}, x ∈ insertKey k v l → x = (k, v) ∨ x ∈ l
  | [], x, h => by simp [insertKey] at h; exact .inl h
  | (k', v') :: l, x, h => by
    unfold insertKey at h
    split at h
    · simp at h ⊢; rcases h with h | h
      · exact .inl h
      · exact .inr (.inr h)
    · split at h
      · simp at h ⊢; exact h
      · rw [List.mem_cons] at h
        rcases h with h | h
        · exact .inr (by simp [h])
        · rcases mem_insertKey h with h | h
          · exact .inl h
          · exact .inr (by simp [h])

theorem clean_withText {t : Nat} {v : Json} (h : Clean v) : Clean (withText t v) := by
  have ht : Clean (.str (timeText t)) := by unfold Clean; exact plain_append (by decide) (plain_showNat _)
  unfold withText
  split
  · unfold Clean; rw [cleanMembers_iff]
    intro y hy
    simp only [List.mem_cons, List.not_mem_nil, or_false] at hy
    subst hy
    exact ⟨(by dsimp only; decide), ht⟩
  · unfold Clean at h ⊢
    rw [cleanMembers_iff] at h ⊢
    intro y hy
    rcases mem_insertKey hy with rfl | hy
    · exact ⟨(by dsimp only; decide), ht⟩
    · exact h y hy
  · exact h

theorem clean_ofFun {R K : Nat} {g : Cell → Json} (h : ∀ c, Inside R K c → Clean (g c)) : Clean (ofFun R K g) := by
  unfold ofFun Clean
  rw [cleanItems_iff]
  intro x hx
  obtain ⟨r, hr, rfl⟩ := List.mem_map.1 hx
  unfold Clean
  rw [cleanItems_iff]
  intro x hx
  obtain ⟨k, hk, rfl⟩ := List.mem_map.1 hx
  rw [List.mem_range] at hr hk
  exact h _ (by unfold Inside; dsimp only; omega)

end Verif.Json
