import Verif.LayoutSpec
import Verif.LstkProps

/-!
# Layouts: lemmas
-/

namespace Verif.Layouts

open Spec
open Verif.Router.Spec (Touching Faces OnGrid)

/-! ## Reading the grid -/

theorem gridAt_ok {g : Grid} {c : Cell} {t : CellType} : gridAt g c = .ok t ↔ At g c t := by
  unfold gridAt At
  constructor
  · intro h
    split at h
    · rename_i hc
      split at h
      · cases h
      · rename_i r hr
        split at h
        · cases h
        · rename_i t' ht
          cases h
          refine ⟨c.row.toNat, c.col.toNat, r, ?_, hr, ht⟩
          cases c; simp only [Cell.mk.injEq]; simp at hc; omega
    · cases h
  · rintro ⟨i, j, r, rfl, h1, h2⟩
    simp [h1, h2]

theorem gridAt_ne_throws (g : Grid) (c : Cell) : gridAt g c ≠ .throws := by
  unfold gridAt; repeat' split
  all_goals simp

theorem Spec.At.unique {g : Grid} {c : Cell} {t t' : CellType} (h : At g c t) (h' : At g c t') : t = t' := by
  have h1 := gridAt_ok.2 h
  rw [gridAt_ok.2 h'] at h1
  cases h1; rfl

theorem mem_findRow {t : CellType} {row : Nat} {c : Cell} : ∀ {xs : List CellType} {col : Nat},
    c ∈ findRow t row col xs ↔ ∃ j, c = ⟨row, (col + j : Nat)⟩ ∧ xs[j]? = some t
  | [], col => by simp [findRow]
  | x :: xs, col => by
    have ih := @mem_findRow t row c xs (col + 1)
    unfold findRow
    constructor
    · intro h
      split at h
      · rename_i hx
        rcases List.mem_cons.1 h with h | h
        · exact ⟨0, by simpa using h, by simp [hx]⟩
        · obtain ⟨j, e, hj⟩ := ih.1 h
          exact ⟨j + 1, by rw [e]; congr 2; omega, by simpa using hj⟩
      · obtain ⟨j, e, hj⟩ := ih.1 h
        exact ⟨j + 1, by rw [e]; congr 2; omega, by simpa using hj⟩
    · rintro ⟨j, e, hj⟩
      cases j with
      | zero =>
        simp at hj
        rw [if_pos hj]
        exact List.mem_cons.2 (.inl (by simpa using e))
      | succ j =>
        have : c ∈ findRow t row (col + 1) xs := ih.2 ⟨j, by rw [e]; congr 2; omega, by simpa using hj⟩
        split
        · exact List.mem_cons_of_mem _ this
        · exact this

theorem mem_findRows {t : CellType} {c : Cell} : ∀ {g : Grid} {row : Nat},
    c ∈ findRows t row g ↔ ∃ (i j : Nat) (r : List CellType), c = ⟨(row + i : Nat), j⟩ ∧ g[i]? = some r ∧ r[j]? = some t
  | [], row => by simp [findRows]
  | r :: rs, row => by
    have ih := @mem_findRows t c rs (row + 1)
    unfold findRows
    rw [List.mem_append, mem_findRow, ih]
    constructor
    · rintro (⟨j, e, hj⟩ | ⟨i, j, r', e, hi, hj⟩)
      · exact ⟨0, j, r, by simpa using e, by simp, hj⟩
      · exact ⟨i + 1, j, r', by rw [e]; congr 2; omega, by simpa using hi, hj⟩
    · rintro ⟨i, j, r', e, hi, hj⟩
      cases i with
      | zero =>
        simp at hi; subst hi
        exact .inl ⟨j, by simpa using e, hj⟩
      | succ i => exact .inr ⟨i, j, r', by rw [e]; congr 2; omega, by simpa using hi, hj⟩

theorem mem_findAll {g : Grid} {t : CellType} {c : Cell} : c ∈ findAll g t ↔ At g c t := by
  unfold findAll At
  rw [mem_findRows]
  simp

theorem findRow_sorted {t : CellType} {row : Nat} : ∀ {xs : List CellType} {col : Nat}, (findRow t row col xs).Pairwise Before
  | [], col => by simp [findRow]
  | x :: xs, col => by
    have ih := @findRow_sorted t row xs (col + 1)
    unfold findRow
    split
    · refine List.pairwise_cons.2 ⟨?_, ih⟩
      intro c hc
      obtain ⟨j, e, _⟩ := mem_findRow.1 hc
      subst e
      refine .inr ⟨rfl, ?_⟩
      show (col : Int) < ((col + 1 + j : Nat) : Int)
      omega
    · exact ih

theorem findRows_sorted {t : CellType} : ∀ {g : Grid} {row : Nat}, (findRows t row g).Pairwise Before
  | [], row => by simp [findRows]
  | r :: rs, row => by
    unfold findRows
    refine List.pairwise_append.2 ⟨findRow_sorted, findRows_sorted, ?_⟩
    intro a ha b hb
    obtain ⟨j, e, _⟩ := mem_findRow.1 ha
    obtain ⟨i, j', r', e', _, _⟩ := mem_findRows.1 hb
    subst e; subst e'
    refine .inl ?_
    show (row : Int) < ((row + 1 + i : Nat) : Int)
    omega

theorem Spec.Before.ne {a b : Cell} (h : Before a b) : a ≠ b := by
  rintro rfl
  rcases h with h | ⟨_, h⟩ <;> omega

theorem findAll_nodup (g : Grid) (t : CellType) : (findAll g t).Nodup :=
  List.Pairwise.imp (fun h => Before.ne h) (findRows_sorted (t := t) (g := g) (row := 0))

theorem findRow_length {t : CellType} {row : Nat} : ∀ {xs : List CellType} {col : Nat}, (findRow t row col xs).length = xs.count t
  | [], col => by simp [findRow]
  | x :: xs, col => by
    unfold findRow
    split
    · rename_i h; subst h; simp [findRow_length]
    · rename_i h; rw [findRow_length, List.count_cons_of_ne h]

theorem findRows_length {t : CellType} : ∀ {g : Grid} {row : Nat}, (findRows t row g).length = (g.map fun r => r.count t).sum
  | [], row => by simp [findRows]
  | r :: rs, row => by
    unfold findRows
    simp [findRow_length, findRows_length]

theorem findAll_length (g : Grid) (t : CellType) : (findAll g t).length = (g.map fun r => r.count t).sum := findRows_length

theorem findAll_le (g : Grid) (t : CellType) : (findAll g t).length ≤ (g.map List.length).sum := by
  rw [findAll_length]
  induction g with
  | nil => simp
  | cons r rs ih => simp only [List.map_cons, List.sum_cons]; have := List.count_le_length (a := t) (l := r); omega

/-! ## Bounds -/

theorem furthest_ok {g : Grid} {f : Cell} :
    furthest g = .ok f ↔ ∃ h w, 0 < h ∧ 0 < w ∧ Rect g h w ∧ f = ⟨h - 1, w - 1⟩ := by
  unfold furthest Rect
  cases g with
  | nil =>
    simp only [List.length_nil, reduceCtorEq, false_iff]
    rintro ⟨h, w, h1, _, ⟨h2, _⟩, _⟩
    omega
  | cons r rs =>
    dsimp only
    constructor
    · intro h
      split at h
      · cases h
      · rename_i hs
        split at h
        · cases h
        · rename_i h0
          cases h
          refine ⟨(r :: rs).length, r.length, by simp, by omega, ⟨rfl, ?_⟩, rfl⟩
          intro x hx
          simp only [List.any_eq_true, bne_iff_ne, not_exists, not_and, Decidable.not_not] at hs
          exact (hs x hx).symm
    · rintro ⟨h, w, h1, h2, ⟨h3, h4⟩, rfl⟩
      have hr := h4 r (by simp)
      rw [if_neg, if_neg (by omega), hr, h3]
      simp only [List.any_eq_true, bne_iff_ne, not_exists, not_and, Decidable.not_not]
      intro x hx
      rw [h4 x hx, hr]

theorem furthest_ne_ub (g : Grid) : furthest g ≠ .ub := by
  unfold furthest; repeat' split
  all_goals simp

theorem Spec.Rect.at {g : Grid} {h w : Nat} (hr : Rect g h w) {c : Cell} (h1 : 0 ≤ c.row) (h2 : c.row < h) (h3 : 0 ≤ c.col) (h4 : c.col < w) :
    ∃ t, At g c t := by
  have e1 : g[c.row.toNat]? = some (g[c.row.toNat]'(by rw [hr.1]; omega)) := List.getElem?_eq_getElem _
  have hl := hr.2 (g[c.row.toNat]'(by rw [hr.1]; omega)) (List.getElem_mem _)
  have e2 := List.getElem?_eq_getElem (l := g[c.row.toNat]'(by rw [hr.1]; omega)) (i := c.col.toNat) (by rw [hl]; omega)
  refine ⟨_, c.row.toNat, c.col.toNat, _, ?_, e1, e2⟩
  cases c; simp only [Cell.mk.injEq]; simp at h1 h3; omega

theorem Spec.Rect.of_at {g : Grid} {h w : Nat} (hr : Rect g h w) {c : Cell} {t : CellType} (ha : At g c t) :
    0 ≤ c.row ∧ c.row < h ∧ 0 ≤ c.col ∧ c.col < w := by
  obtain ⟨i, j, r, rfl, h1, h2⟩ := ha
  have hi := (List.getElem?_eq_some_iff.1 h1).1
  have hj := (List.getElem?_eq_some_iff.1 h2).1
  have := hr.2 r (List.mem_of_getElem? h1)
  rw [hr.1] at hi
  dsimp only
  omega

theorem mem_neighboursIn {c n f : Cell} (h1 : 0 ≤ c.row) (h2 : c.row ≤ f.row) (h3 : 0 ≤ c.col) (h4 : c.col ≤ f.col) :
    n ∈ c.neighboursIn ⟨0, 0⟩ f ↔ Touching c n ∧ 0 ≤ n.row ∧ n.row ≤ f.row ∧ 0 ≤ n.col ∧ n.col ≤ f.col := by
  cases n; cases c; cases f
  simp only at h1 h2 h3 h4
  unfold Cell.neighboursIn Touching
  simp only [List.mem_append]
  constructor
  · intro h
    rcases h with ((h | h) | h) | h <;> split at h <;> simp at h
    · exact ⟨⟨.top, by simp [Faces]; omega⟩, by omega⟩
    · exact ⟨⟨.bottom, by simp [Faces]; omega⟩, by omega⟩
    · exact ⟨⟨.left, by simp [Faces]; omega⟩, by omega⟩
    · exact ⟨⟨.right, by simp [Faces]; omega⟩, by omega⟩
  · rintro ⟨⟨d, hd⟩, hn⟩
    cases d <;> simp only [Faces] at hd
    · refine .inl (.inl (.inl ?_)); rw [if_pos (by omega)]; simp; omega
    · refine .inl (.inl (.inr ?_)); rw [if_pos (by omega)]; simp; omega
    · refine .inl (.inr ?_); rw [if_pos (by omega)]; simp; omega
    · refine .inr ?_; rw [if_pos (by omega)]; simp; omega

/-! ## Connected components -/

theorem pushSame_spec {g : Grid} {t : CellType} {found : List Cell} : ∀ {ns fr : List Cell}, (∀ n ∈ ns, ∃ k, At g n k) →
    ∃ fr', pushSame g t found ns fr = .ok fr' ∧ (∀ c, c ∈ fr' ↔ c ∈ fr ∨ (c ∈ ns ∧ At g c t ∧ c ∉ found)) ∧
      ((fr ++ found).Nodup → (fr' ++ found).Nodup)
  | [], fr, _ => ⟨fr, rfl, by simp, id⟩
  | n :: ns, fr, h => by
    obtain ⟨k, hk⟩ := h n (by simp)
    have hns : ∀ x ∈ ns, ∃ k, At g x k := fun x hx => h x (by simp [hx])
    unfold pushSame
    rw [gridAt_ok.2 hk, Outcome.bind_ok]
    split
    · rename_i hc
      obtain ⟨rfl, h1, h2⟩ := hc
      obtain ⟨fr', e, hm, hd⟩ := pushSame_spec (t := k) (found := found) (fr := fr ++ [n]) hns
      refine ⟨fr', e, ?_, ?_⟩
      · intro c
        rw [hm]
        constructor
        · rintro (h | h)
          · rcases List.mem_append.1 h with h | h
            · exact .inl h
            · simp at h; subst h; exact .inr ⟨by simp, hk, h2⟩
          · exact .inr ⟨by simp [h.1], h.2⟩
        · rintro (h | ⟨h, h'⟩)
          · exact .inl (by simp [h])
          · rcases List.mem_cons.1 h with h | h
            · subst h; exact .inl (by simp)
            · exact .inr ⟨h, h'⟩
      · intro hn
        apply hd
        rw [List.append_assoc]
        simp only [List.nodup_append, List.mem_append, List.nodup_cons, List.mem_cons, List.nodup_nil, List.not_mem_nil, not_false_eq_true,
          true_and, or_false] at hn ⊢
        refine ⟨hn.1, ⟨hn.2.1, ?_⟩, ?_⟩
        · intro a e b hb e'; subst e; subst e'; exact h2 hb
        · rintro a ha b (e | hb)
          · subst e; rintro rfl; exact h1 ha
          · exact hn.2.2 a ha b hb
    · rename_i hc
      obtain ⟨fr', e, hm, hd⟩ := pushSame_spec (t := t) (found := found) (fr := fr) hns
      refine ⟨fr', e, ?_, hd⟩
      intro c
      rw [hm]
      constructor
      · rintro (h | h)
        · exact .inl h
        · exact .inr ⟨by simp [h.1], h.2⟩
      · rintro (h | ⟨h, h', h''⟩)
        · exact .inl h
        · rcases List.mem_cons.1 h with h | h
          · subst h
            have := hk.unique h'; subst this
            refine .inl ?_
            by_cases hf : c ∈ fr
            · exact hf
            · exact absurd ⟨rfl, hf, h''⟩ hc
          · exact .inr ⟨h, h', h''⟩

theorem Spec.Joined.right {g : Grid} {t : CellType} {a b : Cell} (h : Joined g t a b) : At g b t := by cases h <;> assumption

theorem grow_spec {g : Grid} {t : CellType} {h w : Nat} {start : Cell} (hr : Rect g h w) (hh : 0 < h) (hw : 0 < w) :
    ∀ {k : Nat} {fr found : List Cell}, k + found.length = (g.map List.length).sum → (fr ++ found).Nodup →
      (∀ c, c ∈ fr ∨ c ∈ found → Joined g t start c) → (start ∈ fr ∨ start ∈ found) →
      (∀ a ∈ found, ∀ b, Touching a b → At g b t → b ∈ fr ∨ b ∈ found) →
      ∃ cs, grow g t k fr found = .ok cs ∧ cs.Nodup ∧ ∀ c, c ∈ cs ↔ Joined g t start c := by
  have hf : furthest g = .ok ⟨h - 1, w - 1⟩ := furthest_ok.2 ⟨h, w, hh, hw, hr, rfl⟩
  intro k
  induction k with
  | zero =>
    intro fr found hk hd hj hs hc
    cases fr with
    | nil =>
      refine ⟨found, by simp [grow], by simpa using hd, fun c => ⟨fun hc => hj c (.inr hc), fun h => ?_⟩⟩
      induction h with
      | refl => simpa using hs
      | step _ ht ha ih => simpa using hc _ ih _ ht ha
    | cons c fr =>
      exfalso
      have hsub : (c :: fr ++ found) ⊆ findAll g t := by
        intro x hx
        exact mem_findAll.2 (hj x (List.mem_append.1 hx)).right
      have h1 := List.Nodup.length_le_of_subset hd hsub
      have h2 := findAll_le g t
      simp at h1
      omega
  | succ k ih =>
    intro fr found hk hd hj hs hc
    cases fr with
    | nil =>
      refine ⟨found, by simp [grow], by simpa using hd, fun c => ⟨fun hc => hj c (.inr hc), fun h => ?_⟩⟩
      induction h with
      | refl => simpa using hs
      | step _ ht ha ih => simpa using hc _ ih _ ht ha
    | cons c fr =>
      have hcj := hj c (.inl (by simp))
      have hb := hr.of_at hcj.right
      have hmem : ∀ n, n ∈ c.neighboursIn ⟨0, 0⟩ ⟨h - 1, w - 1⟩ ↔ Touching c n ∧ 0 ≤ n.row ∧ n.row ≤ (h : Int) - 1 ∧ 0 ≤ n.col ∧ n.col ≤ (w : Int) - 1 := by
        intro n; exact mem_neighboursIn (by omega) (by dsimp only; omega) (by omega) (by dsimp only; omega)
      have hnb : ∀ n ∈ c.neighboursIn ⟨0, 0⟩ ⟨h - 1, w - 1⟩, ∃ k, At g n k := by
        intro n hn
        have := (hmem n).1 hn
        exact hr.at (by omega) (by omega) (by omega) (by omega)
      obtain ⟨fr', e, hm, hn⟩ := pushSame_spec (t := t) (found := found ++ [c]) (fr := fr) hnb
      unfold grow
      rw [hf, Outcome.bind_ok, e, Outcome.bind_ok]
      apply ih
      · simp; omega
      · apply hn
        have : (fr ++ (found ++ [c])).Perm (c :: fr ++ found) := by
          rw [← List.append_assoc]
          exact (List.perm_append_comm).trans (by simp)
        exact this.nodup_iff.2 hd
      · intro x hx
        rcases hx with hx | hx
        · rcases (hm x).1 hx with hx | ⟨hx, ha, _⟩
          · exact hj x (.inl (by simp [hx]))
          · exact .step hcj ((hmem x).1 hx).1 ha
        · rcases List.mem_append.1 hx with hx | hx
          · exact hj x (.inr hx)
          · simp at hx; subst hx; exact hcj
      · rcases hs with hs | hs
        · rcases List.mem_cons.1 hs with hs | hs
          · right; simp [hs]
          · left; exact (hm _).2 (.inl hs)
        · right; simp [hs]
      · intro a ha b ht hbt
        by_cases hbf : b ∈ found ++ [c]
        · exact .inr hbf
        · left
          apply (hm b).2
          rcases List.mem_append.1 ha with ha | ha
          · rcases hc a ha b ht hbt with h | h
            · rcases List.mem_cons.1 h with h | h
              · subst h; exact absurd (by simp) hbf
              · exact .inl h
            · exact absurd (by simp [h]) hbf
          · simp at ha; subst ha
            have := hr.of_at hbt
            exact .inr ⟨(hmem b).2 ⟨ht, by omega, by omega, by omega, by omega⟩, hbt, hbf⟩

theorem component_spec {g : Grid} {h w : Nat} {t : CellType} {start : Cell} (hr : Rect g h w) (hh : 0 < h) (hw : 0 < w) (ha : At g start t) :
    ∃ cs, component g start = .ok cs ∧ cs.Nodup ∧ ∀ c, c ∈ cs ↔ Joined g t start c := by
  unfold component
  rw [gridAt_ok.2 ha, Outcome.bind_ok]
  apply grow_spec hr hh hw
  · simp
  · simp
  · intro c hc; simp at hc; subst hc; exact .refl ha
  · simp
  · simp

end Verif.Layouts
