import Verif.LayoutGen
import Verif.LayoutInit
import Verif.SliceProps

/-!
# Layouts: properties

C39 (compact layout), C40 (EDPC layout), C41 (layout texts and grids), C42 (distillation regions), C53 (the first slice).
-/

namespace Verif.Layouts

open Spec
open Verif.Router.Spec (Touching Faces OnGrid)

/-! ## C41 -/

theorem ofChar_toChar (t : CellType) : ofChar (toChar t) = .ok t := by
  cases t with
  | distillation d => revert d; decide
  | _ => decide

theorem toChar_letter (t : CellType) : toChar t = letter t := by
  cases t with
  | distillation d => revert d; decide
  | _ => decide

theorem letter_mem (t : CellType) : letter t ∈ letters := by
  cases t with
  | distillation d => revert d; decide
  | _ => decide

theorem letters_ofChar : ∀ c ∈ letters, ∃ t, ofChar c = .ok t ∧ letter t = c := by
  intro c hc
  simp only [letters, List.mem_cons, List.not_mem_nil, or_false] at hc
  rcases hc with rfl | rfl | rfl | rfl | rfl | rfl | rfl | rfl | rfl | rfl | rfl | rfl | rfl | rfl | rfl | rfl | rfl | rfl <;>
    exact ⟨_, rfl, rfl⟩

theorem ofChar_cases (c : Char) : (∃ t, ofChar c = .ok t ∧ letter t = c) ∨ (c ∉ letters ∧ ofChar c = .throws) := by
  by_cases h : c ∈ letters
  · exact .inl (letters_ofChar c h)
  · refine .inr ⟨h, ?_⟩
    unfold ofChar
    split
    all_goals first | rfl | exact absurd (by decide) h

theorem parseRow_cases : ∀ l : Str, (∃ r, parseRow l = .ok r ∧ r.map letter = l) ∨ ((∃ c ∈ l, c ∉ letters) ∧ parseRow l = .throws)
  | [] => .inl ⟨[], rfl, rfl⟩
  | c :: cs => by
    rcases ofChar_cases c with ⟨t, h1, h2⟩ | ⟨h1, h2⟩
    · rcases parseRow_cases cs with ⟨r, h3, h4⟩ | ⟨⟨x, hx, hx'⟩, h4⟩
      · exact .inl ⟨t :: r, by simp [parseRow, h1, h3], by simp [h2, h4]⟩
      · exact .inr ⟨⟨x, by simp [hx], hx'⟩, by simp [parseRow, h1, h4]⟩
    · exact .inr ⟨⟨c, by simp, h1⟩, by simp [parseRow, h2]⟩

theorem parseRows_cases : ∀ ls : List Str, (∃ g, parseRows ls = .ok g ∧ g.map (fun r => r.map letter) = ls.filter (· ≠ [])) ∨
    ((∃ l ∈ ls, ∃ c ∈ l, c ∉ letters) ∧ parseRows ls = .throws)
  | [] => .inl ⟨[], rfl, rfl⟩
  | l :: ls => by
    by_cases hl : l = []
    · subst hl
      rcases parseRows_cases ls with ⟨g, h1, h2⟩ | ⟨⟨x, hx, hx'⟩, h2⟩
      · exact .inl ⟨g, by simp [parseRows, h1], by simpa using h2⟩
      · exact .inr ⟨⟨x, by simp [hx], hx'⟩, by simp [parseRows, h2]⟩
    · have hl' : ¬ l.length = 0 := by simpa using hl
      rcases parseRow_cases l with ⟨r, h1, h2⟩ | ⟨⟨x, hx, hx'⟩, h2⟩
      · rcases parseRows_cases ls with ⟨g, h3, h4⟩ | ⟨⟨x, hx, hx'⟩, h4⟩
        · exact .inl ⟨r :: g, by rw [parseRows, if_neg hl', h1]; simp [h3], by rw [List.filter_cons, if_pos (by simpa using hl)]; simp [h2, h4]⟩
        · exact .inr ⟨⟨x, by simp [hx], hx'⟩, by rw [parseRows, if_neg hl', h1]; simp [h4]⟩
      · exact .inr ⟨⟨l, by simp, x, hx, hx'⟩, by rw [parseRows, if_neg hl', h2]; rfl⟩

theorem lines_pieces {s : Str} {ls : List Str} (h : IsLines s ls) : ls = pieces '\n' s := by
  obtain ⟨h1, h2, rfl⟩ := h
  rw [pieces_intercalate h1 h2]

theorem parseGrid_pieces (s : Str) : parseGrid s = parseRows (pieces '\n' s) := by
  unfold parseGrid
  rw [splitOn_eq_pieces]
  split
  · rename_i h; subst h; rfl
  · rfl

theorem intercalate_cons {d : Char} (p q : Str) (ps : List Str) : List.intercalate [d] (p :: q :: ps) = p ++ d :: List.intercalate [d] (q :: ps) := by
  simp [List.intercalate, List.intersperse]

theorem exists_lines : ∀ s : Str, ∃ ls, IsLines s ls
  | [] => ⟨[[]], by simp, by simp, by simp [List.intercalate]⟩
  | c :: cs => by
    obtain ⟨ls, h1, h2, h3⟩ := exists_lines cs
    cases ls with
    | nil => exact absurd rfl h1
    | cons l ls =>
      by_cases hc : c = '\n'
      · subst hc
        refine ⟨[] :: l :: ls, by simp, ?_, ?_⟩
        · intro x hx
          rcases List.mem_cons.1 hx with rfl | hx
          · simp
          · exact h2 x hx
        · rw [intercalate_cons, ← h3]; rfl
      · refine ⟨(c :: l) :: ls, by simp, ?_, ?_⟩
        · intro x hx
          rcases List.mem_cons.1 hx with rfl | hx
          · simp only [List.mem_cons, not_or]
            exact ⟨fun e => hc e.symm, h2 l (by simp)⟩
          · exact h2 x (by simp [hx])
        · cases ls with
          | nil => rw [h3]; simp [List.intercalate]
          | cons l' ls => rw [h3, intercalate_cons, intercalate_cons]; rfl

theorem firstRow_eq {t : CellType} {row : Nat} : ∀ {xs : List CellType} {col : Nat}, firstRow t row col xs = (findRow t row col xs).head?
  | [], _ => rfl
  | x :: xs, col => by
    unfold firstRow findRow
    split
    · rfl
    · exact firstRow_eq

theorem firstRows_eq {t : CellType} : ∀ {g : Grid} {row : Nat}, firstRows t row g = (findRows t row g).head?
  | [], _ => rfl
  | r :: rs, row => by
    unfold firstRows findRows
    rw [firstRow_eq, firstRows_eq]
    cases findRow t row 0 r <;> rfl

namespace Spec

/-- C41: a grid without empty rows is read back from its text. -/
theorem c41_read_back {g : Grid} (h : ∀ r ∈ g, r ≠ []) : parseGrid (printGrid g) = .ok g := by
  rw [parseGrid_pieces]
  have hno : ∀ r : List CellType, '\n' ∉ r.map toChar := by
    intro r hm
    obtain ⟨t, _, ht⟩ := List.mem_map.1 hm
    have := letter_mem t
    rw [← toChar_letter, ht] at this
    revert this; decide
  have hrow : ∀ r : List CellType, parseRow (r.map toChar) = .ok r := by
    intro r
    induction r with
    | nil => rfl
    | cons t ts ih => simp [parseRow, ofChar_toChar, ih]
  induction g with
  | nil => rfl
  | cons r rs ih =>
    have e : printGrid (r :: rs) = r.map toChar ++ '\n' :: printGrid rs := by simp [printGrid]
    rw [e, pieces_append_sep (hno r), parseRows, if_neg (by simpa using h r (by simp)), hrow r, Outcome.bind_ok, ih (fun x hx => h x (by simp [hx])),
      Outcome.bind_ok]

/-- The grid of the examples: one factory in an L shape, one qubit, a resource state, a dead cell. -/
private def exGrid : Grid :=
  [[.distillation 1, .distillation 1, .routing, .qubit], [.distillation 1, .routing, .ystate, .dead]]

/-- The hypothesis of `c41_read_back` is met by a grid with several kinds of cells; its text is as in the examples of the code. -/
example : (∀ r ∈ exGrid, r ≠ []) ∧ printGrid exGrid = "11rQ\n1rYX\n".toList := by decide

/-- C41: a text is rejected exactly if it has a character that is neither a line end nor a letter of the alphabet. -/
theorem c41_rejected (s : Str) : (parseGrid s = .throws ↔ ∃ c ∈ s, c ≠ '\n' ∧ c ∉ letters) ∧ parseGrid s ≠ .ub := by
  obtain ⟨ls, hl⟩ := exists_lines s
  have hp := lines_pieces hl
  have hmem : ∀ c, c ≠ '\n' → (c ∈ s ↔ ∃ l ∈ ls, c ∈ l) := by
    intro c hc
    obtain ⟨h1, h2, rfl⟩ := hl
    clear hp h1 h2
    induction ls with
    | nil => simp [List.intercalate]
    | cons l ls ih =>
      cases ls with
      | nil => simp [List.intercalate]
      | cons l' ls =>
        rw [intercalate_cons, List.mem_append, List.mem_cons, ih]
        simp [hc]
  have hnl : ∀ l ∈ ls, ∀ c ∈ l, c ≠ '\n' := by
    rintro l hl' c hc rfl
    exact hl.2.1 l hl' hc
  rw [parseGrid_pieces, ← hp]
  rcases parseRows_cases ls with ⟨g, h1, h2⟩ | ⟨⟨l, hl', c, hc, hc'⟩, h2⟩
  · rw [h1]
    refine ⟨⟨fun h => (by cases h), ?_⟩, (by simp)⟩
    rintro ⟨c, hc, hc1, hc2⟩
    obtain ⟨l, hl1, hl2⟩ := (hmem c hc1).1 hc
    have : l ∈ g.map (fun r => r.map letter) := by
      rw [h2]; exact List.mem_filter.2 ⟨hl1, by simp; rintro rfl; cases hl2⟩
    obtain ⟨r, _, rfl⟩ := List.mem_map.1 this
    obtain ⟨t, _, rfl⟩ := List.mem_map.1 hl2
    exact absurd (letter_mem t) hc2
  · rw [h2]
    exact ⟨⟨fun _ => ⟨c, (hmem c (hnl l hl' c hc)).2 ⟨l, hl', hc⟩, hnl l hl' c hc, hc'⟩, fun _ => rfl⟩, by simp⟩

/-- A text with a letter outside the alphabet is rejected, one with blank lines is not. -/
example : parseGrid "Qq".toList = .throws ∧ parseGrid "\nQr\n\nrQ".toList = .ok [[.qubit, .routing], [.routing, .qubit]] := by
  constructor <;> rfl

/-- C41: the rows of the grid are the nonempty lines of the text, letter by letter. -/
theorem c41_rows {s : Str} {ls : List Str} {g : Grid} (hl : IsLines s ls) (h : parseGrid s = .ok g) :
    g.map (fun r => r.map letter) = ls.filter (· ≠ []) := by
  rw [parseGrid_pieces, ← lines_pieces hl] at h
  rcases parseRows_cases ls with ⟨g', h1, h2⟩ | ⟨_, h2⟩
  · rw [h1] at h; cases h; exact h2
  · rw [h2] at h; cases h

/-- The hypotheses of `c41_rows` are met by a text with a blank line. -/
example : IsLines "Qr\n\nX1".toList ["Qr".toList, [], "X1".toList] ∧
    parseGrid "Qr\n\nX1".toList = .ok [[.qubit, .routing], [.dead, .distillation 1]] := by
  refine ⟨⟨by decide, by decide, by decide⟩, rfl⟩

/-- C41: the query for a kind of cell returns all and only the cells of that kind, in reading order; the single-cell query returns
the first of them. -/
theorem c41_query (g : Grid) (t : CellType) : (∀ c, c ∈ findAll g t ↔ At g c t) ∧ (findAll g t).Pairwise Before ∧
    (∀ c, findFirst g t = some c ↔ At g c t ∧ ∀ c', At g c' t → c' = c ∨ Before c c') := by
  refine ⟨fun c => mem_findAll, findRows_sorted, fun c => ?_⟩
  have hs : (findAll g t).Pairwise Before := findRows_sorted
  have hm : ∀ c, c ∈ findAll g t ↔ At g c t := fun c => mem_findAll
  unfold findFirst
  rw [firstRows_eq]
  change (findAll g t).head? = some c ↔ _
  cases hf : findAll g t with
  | nil =>
    rw [hf] at hm
    simp only [List.head?_nil, reduceCtorEq, false_iff]
    rintro ⟨h, _⟩
    exact absurd ((hm c).2 h) (by simp)
  | cons x xs =>
    rw [hf] at hm hs
    rw [List.pairwise_cons] at hs
    simp only [List.head?_cons, Option.some.injEq]
    constructor
    · rintro rfl
      refine ⟨(hm x).1 (by simp), fun c' hc' => ?_⟩
      rcases List.mem_cons.1 ((hm c').2 hc') with rfl | h
      · exact .inl rfl
      · exact .inr (hs.1 c' h)
    · rintro ⟨h1, h2⟩
      rcases h2 x ((hm x).1 (by simp)) with h | h
      · exact h
      · rcases List.mem_cons.1 ((hm c).2 h1) with rfl | h3
        · rfl
        · have := hs.1 c h3
          unfold Before at h this
          omega

/-- A query with two hits. -/
example : findAll exGrid .routing = [⟨0, 2⟩, ⟨1, 1⟩] ∧ findFirst exGrid .routing = some ⟨0, 2⟩ ∧ findFirst exGrid .magic = none := by decide

/-- C41: the bounds are those of a rectangle with at least one cell; anything else is rejected. -/
theorem c41_bounds (g : Grid) : (∀ f, furthest g = .ok f ↔ ∃ h w, 0 < h ∧ 0 < w ∧ Rect g h w ∧ f = ⟨h - 1, w - 1⟩) ∧ furthest g ≠ .ub :=
  ⟨fun _ => furthest_ok, furthest_ne_ub g⟩

/-- A rectangle, and a grid that is none. -/
example : furthest exGrid = .ok ⟨1, 3⟩ ∧ furthest [[.qubit], []] = .throws ∧ furthest [[], []] = .throws := by
  refine ⟨rfl, rfl, rfl⟩

/-! ## C42 -/

/-- C42: the component of a cell consists of the cells joined to it, each once, and is found for every cell of a rectangular
grid. -/
theorem c42_component {g : Grid} {h w : Nat} {t : CellType} {start : Cell} (hr : Rect g h w) (ha : At g start t) :
    ∃ cs, component g start = .ok cs ∧ cs.Nodup ∧ ∀ c, c ∈ cs ↔ Joined g t start c := by
  have := hr.of_at ha
  exact component_spec hr (by omega) (by omega) ha

/-- The hypotheses of `c42_component` are met; the component has three cells. -/
example : Rect exGrid 2 4 ∧ At exGrid ⟨1, 0⟩ (.distillation 1) ∧ component exGrid ⟨1, 0⟩ = .ok [⟨1, 0⟩, ⟨0, 0⟩, ⟨0, 1⟩] :=
  ⟨⟨rfl, by decide⟩, ⟨1, 0, _, rfl, rfl, rfl⟩, rfl⟩

/-- C42: a grid is accepted exactly if it is a rectangle with at least one cell that does not have both factories and cells
reserved for magic states; otherwise it is rejected, never undefined. -/
theorem c42_accepted (g : Grid) (o : Options) : ((∃ L, fromGrid g o = .ok L) ↔
    (∃ h w, 0 < h ∧ 0 < w ∧ Rect g h w) ∧ ¬ ((∃ c, At g c .magic) ∧ ∃ d c, At g c (.distillation d))) ∧ fromGrid g o ≠ .ub := by
  constructor
  · constructor
    · rintro ⟨L, h⟩
      obtain ⟨a, b, k, hl⟩ := fromGrid_inv h
      exact ⟨⟨a, b, hl.hpos, hl.wpos, hl.rect⟩, hl.calm⟩
    · rintro ⟨⟨h, w, h1, h2, h3⟩, h4⟩
      obtain ⟨L, _, e, _⟩ := fromGrid_ok (o := o) h3 h1 h2 h4
      exact ⟨L, e⟩
  · cases hf : furthest g with
    | ok f =>
      obtain ⟨a, b, ha, hb, hr, rfl⟩ := furthest_ok.1 hf
      by_cases hc : Clash g
      · rw [fromGrid_clash hr ha hb hc]; simp
      · obtain ⟨L', k, e, hl⟩ := fromGrid_ok (o := o) hr ha hb hc
        rw [e]; simp
    | throws => unfold fromGrid; rw [hf]; simp
    | ub => exact absurd hf (furthest_ne_ub g)

/-- A rectangle with a factory and a reserved cell is rejected, the example grid is accepted. -/
example : fromGrid [[.magic, .distillation 0]] {} = .throws ∧ ∃ L, fromGrid exGrid {} = .ok L :=
  ⟨rfl, _, rfl⟩

/-- C42: the regions of an accepted grid: each is a whole component with its own queue, no two share a cell, every cell of a
factory is in one, and each has its own time, one more than the region before when times are staggered; times are 32-bit numbers. -/
theorem c42_regions {g : Grid} {o : Options} {L : Layout} (h : fromGrid g o = .ok L) :
    L.distilled.length = L.regions.length ∧ (∀ p ∈ L.regions.zip L.distilled, Region g p.1 p.2) ∧
    (L.regions.Pairwise fun r r' => ∀ c, c ∈ r.map (·.cell) → c ∉ r'.map (·.cell)) ∧
    (∀ d c, At g c (.distillation d) → ∃ r ∈ L.regions, c ∈ r.map (·.cell)) ∧
    (∀ i, i < L.regions.length → L.times[i]? = some ((o.time + if o.staggered then i else 0) % 2 ^ 32)) ∧
    (L.magicReserved = false → L.times.length = L.regions.length) ∧
    (L.magicReserved = true → L.regions = [] ∧ L.times = List.replicate L.reserved.length (o.time % 2 ^ 32)) := by
  obtain ⟨a, b, k, hl⟩ := fromGrid_inv h
  have hL := hl.eq
  refine ⟨by rw [hL]; exact hl.found.same, by rw [hL]; exact hl.found.all, by rw [hL]; exact hl.found.apart, by rw [hL]; exact hl.cover, ?_, ?_, ?_⟩
  · intro i hi
    rw [hL] at hi ⊢
    dsimp only at hi ⊢
    rw [List.getElem?_append_left (by rw [hl.found.times]; simpa using hi), hl.found.times]
    simp [hi]
  · intro hm
    rw [hL] at hm ⊢
    dsimp only at hm ⊢
    have : findAll g .magic = [] := by simpa using hm
    rw [this, hl.found.times]; simp
  · intro hm
    rw [hL] at hm ⊢
    dsimp only at hm ⊢
    have hr : k.regions = [] := by
      cases hk : k.regions with
      | nil => rfl
      | cons r rs =>
        obtain ⟨q, hq⟩ := hl.found.region (r := r) (by rw [hk]; simp)
        obtain ⟨d, st, hst, _⟩ := hq.joined
        exact absurd ⟨(magic_iff g).1 hm, d, st, hst⟩ hl.calm
    refine ⟨hr, ?_⟩
    rw [hl.found.times, hr]; simp

/-- The hypothesis of `c42_regions` is met by a grid with two factories, whose times differ. -/
example : ∃ L, fromGrid [[.distillation 1, .routing, .distillation 1]] {} = .ok L ∧ L.regions.length = 2 ∧ L.times = [10, 11] ∧
    L.distilled = [[⟨0, 1⟩], [⟨0, 1⟩]] :=
  ⟨_, rfl, rfl, rfl, rfl⟩

/-! ## C53 -/

/-- C53: for every accepted grid and at most as many ids as it has qubit cells there is a first slice, and it shows exactly the
grid. -/
theorem c53_first_slice {g : Grid} {o : Options} {L : Layout} {ids : List Nat} (h : fromGrid g o = .ok L) (hn : ids.length ≤ L.core.length) :
    ∃ s, DSlice.init L ids = .ok s ∧ Shows g ids s ∧ s.yAvail = L.predistilled.length := by
  obtain ⟨a, b, k, hl⟩ := fromGrid_inv h
  obtain ⟨s, h1, h2, _, _, _, h3⟩ := init_shows hl hn
  exact ⟨s, h1, h2, h3⟩

/-- The hypotheses of `c53_first_slice` are met by the example grid and one id. -/
example : ∃ L, fromGrid exGrid {} = .ok L ∧ [7].length ≤ L.core.length ∧ L.predistilled = [⟨1, 2⟩] := ⟨_, rfl, by decide, rfl⟩

/-- C53: with more ids than qubit cells there is no first slice. -/
theorem c53_too_many {L : Layout} {ids : List Nat} (hn : L.core.length < ids.length) : DSlice.init L ids = .throws := by
  unfold DSlice.init; rw [if_pos hn]

/-- Two ids for one qubit cell. -/
example : ∃ L, fromGrid exGrid {} = .ok L ∧ L.core.length < [7, 8].length := ⟨_, rfl, by decide⟩

/-- C53: the first slice of an accepted grid has the shape the theorems about slices and routes assume, and no cell is used both
for a resource state and for magic states. -/
theorem c53_shape {g : Grid} {o : Options} {L : Layout} {ids : List Nat} {s : DSlice} (h : fromGrid g o = .ok L) (hs : DSlice.init L ids = .ok s) :
    Router.Spec.Fits L s ∧ Slices.Spec.Fits L s ∧ ∀ c ∈ L.predistilled, c ∉ L.reserved ∧ c ∉ L.distilled.flatten := by
  obtain ⟨a, b, k, hl⟩ := fromGrid_inv h
  have hn : ids.length ≤ L.core.length := by
    apply Nat.le_of_not_lt; intro hlt; rw [c53_too_many hlt] at hs; cases hs
  obtain ⟨s', h1, _, hr, hc, ht, _⟩ := init_shows hl hn
  rw [h1] at hs; cases hs
  have hp := hl.hpos
  have hw := hl.wpos
  have hL := hl.eq
  have hf : L.furthest = ⟨(a : Int) - 1, (b : Int) - 1⟩ := by rw [hL]
  have hrange : ∀ c t, At g c t → s.inRange c = true := by
    intro c t ha
    have := hl.rect.of_at ha
    unfold DSlice.inRange
    rw [hr, hc]
    exact decide_eq_true ⟨this.1, this.2.1, this.2.2.1, this.2.2.2⟩
  have hdist : ∀ q ∈ L.distilled, ∀ c ∈ q, At g c .routing := by
    intro q hq c hc'
    rw [hL] at hq
    dsimp only at hq
    obtain ⟨i, hi, rfl⟩ := List.getElem_of_mem hq
    have hi' : i < k.regions.length := by rw [← hl.found.same]; exact hi
    have hz := hl.found.all (k.regions[i], k.distilled[i]) (by
      have : (k.regions.zip k.distilled)[i]'(by simp; omega) = (k.regions[i], k.distilled[i]) := by simp
      rw [← this]; exact List.getElem_mem _)
    exact ((hz.queued c).1 hc').1
  obtain ⟨r1, _, _, _, _, r6, r7⟩ := c42_regions h
  refine ⟨⟨by rw [hf]; show 0 ≤ (a : Int) - 1; omega, by rw [hf]; show 0 ≤ (b : Int) - 1; omega, by rw [hf, hr]; show (a : Int) = a - 1 + 1; omega,
    by rw [hf, hc]; show (b : Int) = b - 1 + 1; omega⟩, ⟨by rw [ht], ?_, ?_⟩, ?_⟩
  · intro hm
    refine ⟨by rw [(r7 hm).2]; simp, fun c hc' => ?_⟩
    rw [hL] at hc'
    exact hrange c _ (mem_findAll.1 hc')
  · intro hm
    refine ⟨by rw [r6 hm, r1], fun q hq c hc' => hrange c _ (hdist q hq c hc')⟩
  · intro c hc'
    have hy : At g c .ystate := by rw [hL] at hc'; exact mem_findAll.1 hc'
    refine ⟨?_, ?_⟩
    · intro hm
      rw [hL] at hm
      cases hy.unique (mem_findAll.1 hm)
    · intro hm
      obtain ⟨q, hq, hcq⟩ := List.mem_flatten.1 hm
      cases hy.unique (hdist q hq c hcq)

/-- The hypotheses of `c53_shape` are met by the example grid. -/
example : ∃ L s, fromGrid exGrid {} = .ok L ∧ DSlice.init L [7] = .ok s := by
  obtain ⟨L, h, hn, _⟩ : ∃ L, fromGrid exGrid {} = .ok L ∧ [7].length ≤ L.core.length ∧ L.predistilled = [⟨1, 2⟩] := ⟨_, rfl, by decide, rfl⟩
  obtain ⟨s, hs, _⟩ := c53_first_slice h hn
  exact ⟨L, s, h, hs⟩

end Spec

/-! ## C39, C40 -/

theorem vacant_routing {g : Grid} {o : Options} {h w : Nat} {L : Layout} {k : Regions} (hl : LayoutOf g o h w L k) {c : Cell} (hc : At g c .routing) :
    Vacant L c := by
  have hL := hl.eq
  have hb := hl.rect.of_at hc
  have no : ∀ t, t ≠ .routing → c ∉ findAll g t := fun t ht hm => ht ((mem_findAll.1 hm).unique hc)
  refine ⟨?_, ?_, ?_, ?_, ?_, ?_⟩
  · rw [hL]; exact ⟨hb.1, by show c.row ≤ (h : Int) - 1; omega, hb.2.2.1, by show c.col ≤ (w : Int) - 1; omega⟩
  · rw [hL]
    intro p hp x hx e
    obtain ⟨y, hy, rfl⟩ := List.mem_map.1 hp
    have : x.cell = y := by
      simp only [basicSquare] at hx
      injection hx with hx
      rw [← hx]
    rw [← e, this] at hc
    cases (mem_findAll.1 hy).unique hc
  · rw [hL]
    intro r hr x hx e
    obtain ⟨d, hd⟩ := region_kind hl.found (List.mem_flatten.2 ⟨r, hr, hx⟩)
    rw [e] at hd
    cases hd.unique hc
  · rw [hL]; exact no _ (by simp)
  · rw [hL]; exact no _ (by simp)
  · rw [hL]; exact no _ (by simp)

namespace Spec

/-- C39: for every number of qubits the compact layout exists, is a rectangle of three rows and has exactly that many logical
qubits on different cells, each with nothing on the cell in the middle row above or below it. -/
theorem c39_compact (n : Nat) (o : Options) (noClogging : Bool) :
    ∃ L cs, makeCompact n o noClogging = .ok L ∧ Qubits L cs ∧ cs.length = n ∧
      L.furthest = ⟨2, (((n + 1) / 2 + if noClogging then 2 else 7 : Nat) : Int)⟩ ∧
      ∀ c ∈ cs, OnGrid L c ∧ ∃ v, (Faces c v .top ∨ Faces c v .bottom) ∧ v.row = 1 ∧ Vacant L v := by
  obtain ⟨t, e, hr, hc, hq, hmid, hb1, hb2⟩ := compactTable_spec n noClogging
  have hclash : ¬ Clash t.toGrid := by
    rintro ⟨⟨c, hm⟩, d, c', hd⟩
    obtain ⟨i, j, _, _, _, hm⟩ := at_toGrid.1 hm
    obtain ⟨i', j', _, _, _, hd⟩ := at_toGrid.1 hd
    cases noClogging
    · exact hb2 rfl i j hm
    · exact hb1 rfl i' j' d hd
  obtain ⟨L, k, eL, hl⟩ := fromGrid_ok (o := o) (rect_toGrid t) (by omega) (by rw [hc]; split <;> omega) hclash
  have hL := hl.eq
  refine ⟨L, findAll t.toGrid .qubit, ?_, ⟨findAll_nodup _ _, by rw [hL]⟩, compact_count hr hc hq, ?_, ?_⟩
  · unfold makeCompact; rw [e, Outcome.bind_ok, eL]
  · rw [hL]
    dsimp only
    rw [hr, hc]
    congr 1
    cases noClogging <;> simp <;> omega
  · intro c hcm
    have ha := mem_findAll.1 hcm
    have hb := hl.rect.of_at ha
    refine ⟨by rw [hL]; exact ⟨hb.1, by show c.row ≤ (t.rows : Int) - 1; omega, hb.2.2.1, by show c.col ≤ (t.cols : Int) - 1; omega⟩, ?_⟩
    obtain ⟨i, j, rfl, hi, hj, hk⟩ := at_toGrid.1 ha
    rw [hq] at hk
    have hj' : j < (n + 1) / 2 := by omega
    refine ⟨⟨1, j⟩, ?_, rfl, vacant_routing hl (at_toGrid.2 ⟨1, j, rfl, by omega, hj, hmid j hj'⟩)⟩
    rcases hk with ⟨rfl, _⟩ | ⟨rfl, _⟩
    · right; simp [Faces]
    · left; simp [Faces]

/-- Five qubits: three above and two below the middle row. -/
example : ∃ L, makeCompact 5 {} true = .ok L ∧ L.core.map (fun p => match p.cells with | .single o => o.cell | _ => ⟨-1, -1⟩) =
    [⟨0, 0⟩, ⟨0, 1⟩, ⟨0, 2⟩, ⟨2, 0⟩, ⟨2, 1⟩] := ⟨_, rfl, rfl⟩

/-- C40: for every number of qubits and lanes (small enough for `size_t`) the uncondensed EDPC layout exists and has exactly that
many logical qubits on different cells, none of them on the border. With at least one lane no two of them touch, and nothing is
on the four cells around each. -/
theorem c40_edpc (n lanes : Nat) (explicit predistilled : Bool) (o : Options) (hfit : (n.sqrt + 2) * (lanes + 1) + 11 < 2 ^ 64) :
    ∃ L cs, makeEdpc n lanes false explicit predistilled o = .ok L ∧ Qubits L cs ∧ cs.length = n ∧ L.furthest.row = L.furthest.col ∧
      (∀ c ∈ cs, 0 < c.row ∧ c.row < L.furthest.row ∧ 0 < c.col ∧ c.col < L.furthest.col) ∧
      (0 < lanes → (∀ a ∈ cs, ∀ b ∈ cs, ¬ Touching a b) ∧ ∀ a ∈ cs, ∀ b, Touching a b → Vacant L b) := by
  have hsq := ceilSqrt_le n
  have hfit' : (ceilSqrt n + 1) * (lanes + 1) + 11 < 2 ^ 64 := by
    have : (ceilSqrt n + 1) * (lanes + 1) ≤ (n.sqrt + 2) * (lanes + 1) := Nat.mul_le_mul_right _ (by omega)
    omega
  obtain ⟨tb, t, core, e, ht, hcore, hr, hc, hcnt, hq, hfree, _, hclash⟩ := edpcTable_spec n lanes explicit predistilled hfit'
  have hpos : 0 < core := by omega
  obtain ⟨L, k, eL, hl⟩ := fromGrid_ok (o := o) (rect_toGrid tb) (by omega) (by omega) hclash
  have hL := hl.eq
  have hfar : L.furthest = ⟨(tb.rows : Int) - 1, (tb.cols : Int) - 1⟩ := by rw [hL]
  refine ⟨L, findAll tb.toGrid .qubit, ?_, ⟨findAll_nodup _ _, by rw [hL]⟩, hcnt, by rw [hfar, hr, hc], ?_, ?_⟩
  · unfold makeEdpc; rw [e, Outcome.bind_ok, eL]
  · intro c hcm
    obtain ⟨i, j, rfl, hi, hj, hk⟩ := at_toGrid.1 (mem_findAll.1 hcm)
    obtain ⟨h1, h2, h3⟩ := hq i j hk
    unfold InCore at h3
    simp only [innerAx, Bool.and_eq_true, decide_eq_true_eq] at h1 h2
    rw [hfar, hr, hc]
    dsimp only
    omega
  · intro hlan
    -- neighbours of a qubit are routing cells
    have hnb : ∀ a ∈ findAll tb.toGrid .qubit, ∀ b, Touching a b → At tb.toGrid b .routing := by
      intro a ha b hab
      obtain ⟨i, j, rfl, hi, hj, hk⟩ := at_toGrid.1 (mem_findAll.1 ha)
      obtain ⟨h1, h2, h3⟩ := hq i j hk
      unfold InCore at h3
      simp only [innerAx, onAx, Bool.and_eq_true, decide_eq_true_eq] at h1 h2
      have hmod : ∀ x y : Nat, t ≤ x → t ≤ y → (y = x + 1 ∨ x = y + 1) → (x - t) % (lanes + 1) = 0 → ¬ (y - t) % (lanes + 1) = 0 := by
        intro x y hx hy hxy h0 h0'
        obtain ⟨p, hp⟩ := Nat.dvd_of_mod_eq_zero h0
        obtain ⟨q, hq'⟩ := Nat.dvd_of_mod_eq_zero h0'
        have h1 : (lanes + 1) ∣ 1 := by
          rcases hxy with rfl | rfl
          · have : (lanes + 1) ∣ (x + 1 - t) - (x - t) := Nat.dvd_sub ⟨q, hq'⟩ ⟨p, hp⟩
            rwa [show (x + 1 - t) - (x - t) = 1 by omega] at this
          · have : (lanes + 1) ∣ (y + 1 - t) - (y - t) := Nat.dvd_sub ⟨p, hp⟩ ⟨q, hq'⟩
            rwa [show (y + 1 - t) - (y - t) = 1 by omega] at this
        have := Nat.le_of_dvd (by omega) h1
        omega
      obtain ⟨d, hd⟩ := hab
      obtain ⟨br, bc⟩ := b
      cases d <;> simp only [Faces] at hd
      · refine at_toGrid.2 ⟨i - 1, j, by simp only [Cell.mk.injEq]; omega, by omega, hj, hfree _ _ (by unfold InCore; omega) ?_⟩
        rintro ⟨g1, _⟩
        exact hmod i (i - 1) (by omega) (by omega) (by omega) h1.1.1 (by simpa [onAx] using g1)
      · refine at_toGrid.2 ⟨i + 1, j, by simp only [Cell.mk.injEq]; omega, by omega, hj, hfree _ _ (by unfold InCore; omega) ?_⟩
        rintro ⟨g1, _⟩
        exact hmod i (i + 1) (by omega) (by omega) (by omega) h1.1.1 (by simpa [onAx] using g1)
      · refine at_toGrid.2 ⟨i, j - 1, by simp only [Cell.mk.injEq]; omega, hi, by omega, hfree _ _ (by unfold InCore; omega) ?_⟩
        rintro ⟨_, g1⟩
        exact hmod j (j - 1) (by omega) (by omega) (by omega) h2.1.1 (by simpa [onAx] using g1)
      · refine at_toGrid.2 ⟨i, j + 1, by simp only [Cell.mk.injEq]; omega, hi, by omega, hfree _ _ (by unfold InCore; omega) ?_⟩
        rintro ⟨_, g1⟩
        exact hmod j (j + 1) (by omega) (by omega) (by omega) h2.1.1 (by simpa [onAx] using g1)
    refine ⟨fun a ha b hb hab => ?_, fun a ha b hab => vacant_routing hl (hnb a ha b hab)⟩
    cases (mem_findAll.1 hb).unique (hnb a ha b hab)

/-- The hypothesis of `c40_edpc` is met by a billion qubits and a thousand lanes. -/
example : (Nat.sqrt (10 ^ 9) + 2) * (1000 + 1) + 11 < 2 ^ 64 := by
  have : Nat.sqrt (10 ^ 9) ≤ 10 ^ 9 := Nat.sqrt_le_self _
  omega

private def gridOf : Outcome Table → Option Grid
  | .ok t => some t.toGrid
  | _ => none

/-- C40 fails without lanes, which the command line allows: two of the qubits touch. -/
theorem c40_no_lanes : ∃ L cs, makeEdpc 2 0 false false true {} = .ok L ∧ Qubits L cs ∧ ∃ a ∈ cs, ∃ b ∈ cs, Touching a b := by
  have key : gridOf (edpcTable 2 0 false false true) = some
      [[.ystate, .magic, .ystate, .magic], [.magic, .qubit, .qubit, .ystate], [.ystate, .routing, .routing, .magic],
        [.magic, .magic, .ystate, .magic]] := by decide +kernel
  cases e : edpcTable 2 0 false false true with
  | ok t =>
    rw [e] at key
    have key' := Option.some.inj key
    obtain ⟨L, hL, hc⟩ : ∃ L, fromGrid t.toGrid {} = .ok L ∧ L.core = [⟨1, 1⟩, ⟨1, 2⟩].map fun c => basicSquare c none none := by
      rw [key']; exact ⟨_, rfl, rfl⟩
    refine ⟨L, [⟨1, 1⟩, ⟨1, 2⟩], ?_, ⟨by decide, hc⟩, ⟨1, 1⟩, by decide, ⟨1, 2⟩, by decide, .right, rfl, rfl⟩
    unfold makeEdpc; rw [e, Outcome.bind_ok, hL]
  | throws => rw [e] at key; cases key
  | ub => rw [e] at key; cases key

end Spec

end Verif.Layouts
