import Verif.BellRoles
import Verif.SliceCalm
import Verif.Marks

/-! # A patch that stays where it is: lemmas -/

namespace Verif

open Apply

namespace DSlice

/-- A qubit `q` that will be there after the next advance. -/
def Held (q : Nat) (p : Patch) : Prop := p.id = some q ∧ p.type = .qubit ∧ (p.activity = .none ∨ p.activity = .unitary)

/-- A part of a region in which a patch is rotated. -/
def Rotary (p : Patch) : Prop := p.id = none ∧ p.type = .routing ∧ p.activity = .rotation

/-- The cell holds the patch `q`, or, if that is allowed, is kept busy by a rotation. -/
def Keeps (s : DSlice) (ro : Bool) (c : Cell) (q : Nat) : Prop := ∃ p, s.core c = some p ∧ (Held q p ∨ (ro = true ∧ Rotary p))

/-- The cell holds `q` and is not in the queue of magic states; the slice has the given size. -/
structure Safe (ro : Bool) (c : Cell) (q R K : Nat) (s : DSlice) : Prop where
  keeps : s.Keeps ro c q
  queue : c ∉ s.magic
  rows : s.rows = R
  cols : s.cols = K

section
variable {ro : Bool} {c : Cell} {q R K : Nat} {s s' : DSlice}

theorem Safe.get (h : Safe ro c q R K s) : ∃ p, s.cells c = some p ∧ (Held q p.toPatch ∨ (ro = true ∧ Rotary p.toPatch)) := by
  obtain ⟨p, h1, h2⟩ := h.keeps
  unfold core at h1
  cases e : s.cells c with
  | none => rw [e] at h1; cases h1
  | some d =>
    rw [e] at h1
    simp only [Option.map_some, Option.some.injEq] at h1
    exact ⟨d, rfl, by rw [h1]; exact h2⟩

theorem Safe.idAt (h : Safe ro c q R K s) {n : Nat} (hn : s.idAt c = some n) : n = q := by
  obtain ⟨p, h1, h2⟩ := h.get
  unfold DSlice.idAt at hn
  rw [h1] at hn
  rcases h2 with h2 | ⟨-, h2⟩
  · exact Option.some.inj (hn.symm.trans h2.1)
  · rw [show (some p).bind (fun x => x.id) = p.id from rfl, h2.1] at hn; cases hn

theorem Safe.active (h : Safe ro c q R K s) {p : DensePatch} (hp : s.cells c = some p) : p.activity = .none ∨ p.activity = .unitary ∨ p.activity = .rotation := by
  obtain ⟨p', h1, h2⟩ := h.get
  rw [hp] at h1; cases h1
  rcases h2 with h2 | ⟨-, h2⟩
  · exact h2.2.2.imp_right .inl
  · exact .inr (.inr h2.2.2)

theorem Safe.not_free (h : Safe ro c q R K s) {x : Cell} (hx : s.cells x = none) : c ≠ x := by
  rintro rfl
  obtain ⟨p, h1, -⟩ := h.get
  rw [hx] at h1; cases h1

theorem Safe.not_id (h : Safe ro c q R K s) {x : Cell} {t : Nat} (hx : s.cellById t = some x) (ht : t ≠ q) : c ≠ x := by
  rintro rfl
  exact ht (h.idAt (cellById_holds hx).1)

theorem Safe.of (h : Safe ro c q R K s) (h1 : s'.core c = s.core c) (h2 : c ∉ s'.magic) (h3 : s'.rows = s.rows) (h4 : s'.cols = s.cols) : Safe ro c q R K s' :=
  ⟨by unfold Keeps; rw [h1]; exact h.keeps, h2, h3.trans h.rows, h4.trans h.cols⟩

theorem Safe.same (h : Safe ro c q R K s) (hs : SameCore s s') : Safe ro c q R K s' :=
  h.of (hs.core c) (by rw [hs.magic]; exact h.queue) hs.rows hs.cols

theorem Safe.filled {Y : List Cell} {act : PatchActivity} (h : Safe ro c q R K s) (hs : Filled Y act s s') : Safe ro c q R K s' := by
  refine h.of ?_ (by rw [hs.magic]; exact h.queue) hs.rows hs.cols
  rcases hs.cell c with e | ⟨-, e, -⟩
  · exact e
  · exact absurd rfl (h.not_free e)

theorem Safe.put (h : Safe ro c q R K s) {x : Cell} (hx : c ≠ x) (p : Option DensePatch) : Safe ro c q R K (s.put x p) :=
  h.of (by rw [core_put, if_neg hx]) h.queue rfl rfl

theorem Safe.modPatch (h : Safe ro c q R K s) {x : Cell} (hx : c ≠ x) (f : DensePatch → DensePatch) : Safe ro c q R K (s.modPatch x f) := h.put hx _

/-- Only bookkeeping changes. -/
theorem Safe.fields (h : Safe ro c q R K s) (h1 : s'.cells = s.cells) (h2 : s'.magic = s.magic) (h3 : s'.rows = s.rows) (h4 : s'.cols = s.cols) : Safe ro c q R K s' :=
  h.of (by unfold core; rw [h1]) (by rw [h2]; exact h.queue) h3 h4

theorem Safe.turn (h : Safe ro c q R K s) {x : Cell} {t : Nat} (hx : s.cellById t = some x) :
    Safe ro c q R K (s.modPatch x fun p => { p with activity := .unitary, bounds := p.bounds.instantRotate }) := by
  by_cases e : c = x
  · subst e
    obtain ⟨p, h1, h2⟩ := h.get
    have hid := (cellById_holds hx).1
    unfold DSlice.idAt at hid
    rw [h1] at hid
    rcases h2 with h2 | ⟨-, h2⟩
    · refine ⟨⟨{ p with activity := .unitary }.toPatch, ?_, .inl ⟨h2.1, h2.2.1, .inr rfl⟩⟩, h.queue, h.rows, h.cols⟩
      unfold DSlice.modPatch
      rw [core_put, if_pos rfl, h1]
      rfl
    · rw [show (some p).bind (fun x => x.id) = p.id from rfl, h2.1] at hid; cases hid
  · exact h.modPatch e _

theorem Safe.place {p : SparsePatch} {r : DSlice × Cell} (h : Safe ro c q R K s) (hp : s.placeSingle p false = .ok r) : Safe ro c q R K r.1 := by
  obtain ⟨o, ho⟩ := placeSingle_single hp
  obtain ⟨-, hf, rfl⟩ := placeSingle_ok ho hp
  exact h.put (h.not_free hf) _

theorem Safe.available {e : Bool} {x : Cell} (h : Safe ro c q R K s) (ha : available e s x = .ok true) : c ≠ x := by
  unfold Apply.available at ha
  cases e with
  | false => exact h.not_free ((isFree_ok ha).2.1 rfl)
  | true =>
    rintro rfl
    obtain ⟨p, h1, -⟩ := h.get
    have h2 := h.active h1
    simp only [if_true, isFreeOr, patchAt] at ha
    split at ha
    · rw [Outcome.bind_ok, h1] at ha
      simp only [Outcome.ok.injEq, decide_eq_true_eq, edpcActs] at ha
      rcases h2 with e | e | e <;> rw [e] at ha <;> simp at ha
    · cases ha

theorem Safe.vacate {x : Cell} (h : Safe ro c q R K s) (hx : c ≠ x) (e : Bool) : Safe ro c q R K (vacate e s x) := by
  unfold Apply.vacate
  split
  · exact h.put hx _
  · exact h

end

end DSlice

namespace Apply

open DSlice Quantum

/-- The cells whose patches a local instruction measures away. -/
def destroys : LocalInstr → List Cell
  | .bellMeasure a b => [a, b]
  | .move a _ _ => [a]
  | .mergeContract _ m => [m]
  | _ => []

section
variable {ro : Bool} {c : Cell} {q R K : Nat} {s s' : DSlice}

theorem safe_local {e : Bool} {l : LocalInstr} {r : DSlice × Bool} (hs : Safe ro c q R K s) (hl : c ∉ destroys l) (h : applyLocal e s l = .ok r) : Safe ro c q R K r.1 := by
  cases l with
  | prepareY id x =>
    simp only [applyLocal, prepareY] at h
    obtain ⟨f, h1, h⟩ := Outcome.bind_eq_ok.1 h
    split at h
    · cases h
    · rename_i hf
      obtain ⟨y, h2, h⟩ := Outcome.bind_eq_ok.1 h
      cases h
      have hx : c ≠ x := hs.not_free ((isFree_ok h1).2.1 (by simpa using hf))
      exact (hs.place h2).modPatch hx _
  | bellPrepare id1 id2 c1 c2 =>
    simp only [applyLocal, bellPrepare] at h
    obtain ⟨a1, h1, h⟩ := Outcome.bind_eq_ok.1 h
    split at h
    · cases h; exact hs
    · rename_i e1
      obtain ⟨a2, h2, h⟩ := Outcome.bind_eq_ok.1 h
      split at h
      · cases h; exact hs
      · rename_i e2
        obtain ⟨s3, h3, h⟩ := Outcome.bind_eq_ok.1 h
        cases h
        rw [show a1 = true by simpa using e1] at h1
        rw [show a2 = true by simpa using e2] at h2
        unfold bellPlace at h3
        obtain ⟨x1, g1, h3⟩ := Outcome.bind_eq_ok.1 h3
        obtain ⟨x2, g2, h3⟩ := Outcome.bind_eq_ok.1 h3
        obtain ⟨x3, g3, h3⟩ := Outcome.bind_eq_ok.1 h3
        exact (((((hs.vacate (hs.available h1) e).vacate (hs.available h2) e).place g1).place g2).same (activateOrFail_same g3)).same (activateOrFail_same h3)
  | bellMeasure c1 c2 =>
    simp only [destroys, List.mem_cons, List.not_mem_nil, or_false, not_or] at hl
    simp only [applyLocal, bellMeasure] at h
    obtain ⟨a1, h1, h⟩ := Outcome.bind_eq_ok.1 h
    split at h
    · cases h; exact hs
    · obtain ⟨x1, g1, h⟩ := Outcome.bind_eq_ok.1 h
      obtain ⟨x2, g2, h⟩ := Outcome.bind_eq_ok.1 h
      cases h
      exact (((hs.same (activateOrFail_same g1)).same (activateOrFail_same g2)).modPatch hl.1 _).modPatch hl.2 _
  | move src dst newId =>
    simp only [destroys, List.mem_cons, List.not_mem_nil, or_false] at hl
    simp only [applyLocal, move] at h
    obtain ⟨a1, h1, h⟩ := Outcome.bind_eq_ok.1 h
    split at h
    · cases h; exact hs
    · obtain ⟨a2, h2, h⟩ := Outcome.bind_eq_ok.1 h
      split at h
      · cases h; exact hs
      · rename_i e2
        obtain ⟨s3, h3, h⟩ := Outcome.bind_eq_ok.1 h
        cases h
        rw [show a2 = true by simpa using e2] at h2
        unfold movePlace at h3
        split at h3
        · cases h3
        · obtain ⟨x1, g1, h3⟩ := Outcome.bind_eq_ok.1 h3
          obtain ⟨x2, g2, h3⟩ := Outcome.bind_eq_ok.1 h3
          obtain ⟨x3, g3, h3⟩ := Outcome.bind_eq_ok.1 h3
          cases h3
          exact ((((hs.vacate (hs.available h2) e).place g1).same (activateOrFail_same g2)).same (activateOrFail_same g3)).modPatch hl _
  | twoPatchMeasure c1 c2 =>
    simp only [applyLocal, twoPatchMeasure] at h
    obtain ⟨a1, h1, h⟩ := Outcome.bind_eq_ok.1 h
    split at h
    · cases h; exact hs
    · obtain ⟨x1, g1, h⟩ := Outcome.bind_eq_ok.1 h
      obtain ⟨x2, g2, h⟩ := Outcome.bind_eq_ok.1 h
      cases h
      exact (hs.same (activateOrFail_same g1)).same (activateOrFail_same g2)
  | extendSplit id target ext =>
    simp only [applyLocal, extendSplit] at h
    obtain ⟨a1, h1, h⟩ := Outcome.bind_eq_ok.1 h
    split at h
    · cases h; exact hs
    · obtain ⟨a2, h2, h⟩ := Outcome.bind_eq_ok.1 h
      split at h
      · cases h; exact hs
      · rename_i e2
        rw [show a2 = true by simpa using e2] at h2
        obtain ⟨x1, g1, h⟩ := Outcome.bind_eq_ok.1 h
        obtain ⟨x2, g2, h⟩ := Outcome.bind_eq_ok.1 h
        obtain ⟨x3, g3, h⟩ := Outcome.bind_eq_ok.1 h
        cases h
        exact (((hs.vacate (hs.available h2) e).place g1).same (activateOrFail_same g2)).same (activateOrFail_same g3)
  | mergeContract p m =>
    simp only [destroys, List.mem_cons, List.not_mem_nil, or_false] at hl
    simp only [applyLocal, mergeContract] at h
    obtain ⟨a1, h1, h⟩ := Outcome.bind_eq_ok.1 h
    split at h
    · cases h; exact hs
    · obtain ⟨x1, g1, h⟩ := Outcome.bind_eq_ok.1 h
      obtain ⟨x2, g2, h⟩ := Outcome.bind_eq_ok.1 h
      cases h
      exact ((hs.same (activateOrFail_same g1)).same (activateOrFail_same g2)).modPatch hl _

theorem safe_runLocals {e : Bool} : ∀ {ls : List LocalInstr} {s : DSlice} {x : DSlice × Nat × Bool}, Safe ro c q R K s → (∀ l ∈ ls, c ∉ destroys l) →
    runLocals e ls s = .ok x → Safe ro c q R K x.1
  | [], s, x, hs, _, h => by cases h; exact hs
  | l :: ls, s, x, hs, hl, h => by
    rw [runLocals] at h
    obtain ⟨r, h1, h⟩ := Outcome.bind_eq_ok.1 h
    have g1 := safe_local hs (hl l (by simp)) h1
    split at h
    · cases h; exact g1
    · obtain ⟨y, h2, h⟩ := Outcome.bind_eq_ok.1 h
      cases h
      exact safe_runLocals (x := y) g1 (fun l' hl' => hl l' (List.mem_cons_of_mem _ hl')) h2

/-- The next local instruction makes a Bell pair on the cell, so that it waits for the patch to go away. -/
def Stuck (c : Cell) (ls : List LocalInstr) : Prop := ∃ p p' x y rest, ls = .bellPrepare p p' x y :: rest ∧ (c = x ∨ c = y)

/-- Local instructions that leave the patch on the cell alone. -/
def Mild (c : Cell) (ls : List LocalInstr) : Prop := (∀ l ∈ ls, c ∉ destroys l) ∨ Stuck c ls

theorem stuck_runLocals {e : Bool} {ls : List LocalInstr} {x : DSlice × Nat × Bool} (hs : Safe ro c q R K s) (hl : Stuck c ls) (h : runLocals e ls s = .ok x) : x = (s, 0, false) := by
  obtain ⟨p, p', u, v, rest, rfl, hc⟩ := hl
  rw [runLocals] at h
  obtain ⟨r, h1, h⟩ := Outcome.bind_eq_ok.1 h
  have hr : r = (s, true) := by
    simp only [applyLocal, bellPrepare] at h1
    obtain ⟨a1, g1, h1⟩ := Outcome.bind_eq_ok.1 h1
    split at h1
    · cases h1; rfl
    · rename_i e1
      rw [show a1 = true by simpa using e1] at g1
      obtain ⟨a2, g2, h1⟩ := Outcome.bind_eq_ok.1 h1
      split at h1
      · cases h1; rfl
      · rename_i e2
        rw [show a2 = true by simpa using e2] at g2
        rcases hc with hc | hc
        · exact absurd hc (hs.available g1)
        · exact absurd hc (hs.available g2)
  subst hr
  cases h
  rfl

theorem mild_runLocals {e : Bool} {ls : List LocalInstr} {k : Nat} {x : DSlice × Nat × Bool} (hs : Safe ro c q R K s) (hl : Mild c (ls.drop k)) (h : runLocals e (ls.drop k) s = .ok x) :
    Safe ro c q R K x.1 ∧ Mild c (ls.drop (k + x.2.1)) := by
  rcases hl with hl | hl
  · refine ⟨safe_runLocals hs hl h, .inl fun l hm => hl l ?_⟩
    rw [← List.drop_drop] at hm
    exact List.mem_of_mem_drop hm
  · cases stuck_runLocals hs hl h
    exact ⟨hs, .inr hl⟩

/-! ### The cells a compiled route measures away -/

theorem destroys_roles {u v : Cell} {i : LocalInstr} {r1 r2 : Role} (h : HasRoles u v i r1 r2) {x : Cell} (hx : x ∈ destroys i) :
    (x = u ∧ r1 = .gone) ∨ (x = v ∧ r2 = .gone) := by
  cases r1 <;> cases r2 <;> simp only [HasRoles] at h
  · obtain ⟨p, q, rfl | rfl⟩ := h <;> simp [destroys] at hx
  · obtain ⟨n, rfl⟩ := h; simp [destroys] at hx; simp [hx]
  · obtain ⟨n, rfl⟩ := h; simp [destroys] at hx
  · obtain ⟨n, rfl⟩ := h; simp [destroys] at hx; simp [hx]
  · rcases h with rfl | rfl <;> simp [destroys] at hx <;> rcases hx with rfl | rfl <;> simp
  · subst h; simp [destroys] at hx; simp [hx]
  · obtain ⟨n, rfl⟩ := h; simp [destroys] at hx
  · subst h; simp [destroys] at hx; simp [hx]

/-- Every cell measured away is at a position of the route with `P`. -/
def Within (route : List Cell) (P : Nat → Prop) (l : LocalInstr) : Prop := ∀ x ∈ destroys l, ∃ j, P j ∧ route[j]? = some x

def LWithin (route : List Cell) (P : Nat → Prop) (l : Layers) : Prop := (∀ i ∈ l.l1, Within route P i) ∧ ∀ i ∈ l.l2, Within route P i

theorem lwithin_nil (route : List Cell) (P : Nat → Prop) : LWithin route P {} := ⟨by simp, by simp⟩

theorem compile_within {ty : LongRange} {route : List Cell} {a e : Nat} {rev : Bool} {p p' : Option Nat} {l l' : Layers} {P : Nat → Prop}
    (h : compile ty route a e rev p p' l = .ok l') (hl : LWithin route P l) (hP : ∀ j, a ≤ j → j ≤ e → (j = a → roleA ty rev = .gone) → (j = e → roleE ty rev = .gone) → P j) :
    LWithin route P l' ∧ a < e := by
  have h1 : a < e := by
    unfold compile at h
    split at h
    · cases h
    · rename_i hc; omega
  obtain ⟨⟨x, x1, x2⟩, ⟨y, y1, y2⟩⟩ := compile_part h1 h
  have key : ∀ {r : Role} {i : LocalInstr}, InPart route ty a e rev r i → Within route P i := by
    rintro r i ⟨k, k1, k2, u, v, hu, hv, hr⟩ x hx
    rcases destroys_roles hr hx with ⟨rfl, hg⟩ | ⟨rfl, hg⟩
    · refine ⟨k, hP k k1 (by omega) ?_ (by omega), hu⟩
      intro e; unfold loAt at hg; rw [if_pos e] at hg; exact hg
    · refine ⟨k + 1, hP (k + 1) (by omega) (by omega) (by omega) ?_, hv⟩
      intro e; unfold hiAt at hg; rw [if_pos e] at hg; exact hg
  refine ⟨⟨?_, ?_⟩, h1⟩
  · rw [x1]; intro i hi
    rcases List.mem_append.1 hi with hi | hi
    · exact hl.1 i hi
    · exact key (x2 i hi)
  · rw [y1]; intro i hi
    rcases List.mem_append.1 hi with hi | hi
    · exact hl.2 i hi
    · exact key (y2 i hi)

/-- Strictly between the ends of the route. -/
def Inner (n j : Nat) : Prop := 0 < j ∧ j + 1 < n

theorem compileWhole_within {b : BellCNOT} {route : List Cell} {l l' : Layers} (h : compileWhole b route l = .ok l') (hl : LWithin route (Inner route.length) l)
    (hn : 3 ≤ route.length) : LWithin route (Inner route.length) l' := by
  unfold compileWhole at h
  dsimp only at h
  unfold Inner at *
  split at h
  · rename_i he
    obtain ⟨l1, h1, h⟩ := Outcome.bind_eq_ok.1 h
    obtain ⟨l2, h2, h⟩ := Outcome.bind_eq_ok.1 h
    have g1 := (compile_within h1 hl (fun j j1 j2 j3 j4 => ⟨by omega, by
      by_cases e : j = route.length - 1
      · exact absurd (j4 e) (by simp [roleE])
      · omega⟩)).1
    have g2 := (compile_within h2 g1 (fun j j1 j2 j3 j4 => ⟨by
      by_cases e : j = 0
      · exact absurd (j3 e) (by simp [roleA])
      · omega, by omega⟩)).1
    exact (compile_within h g2 (fun j j1 j2 j3 j4 => ⟨by omega, by omega⟩)).1
  · obtain ⟨l1, h1, h⟩ := Outcome.bind_eq_ok.1 h
    have g1 := (compile_within h1 hl (fun j j1 j2 j3 j4 => ⟨by omega, by
      by_cases e : j = route.length - 1
      · exact absurd (j4 e) (by simp [roleE])
      · omega⟩)).1
    exact (compile_within h g1 (fun j j1 j2 j3 j4 => ⟨by
      by_cases e : j = 0
      · exact absurd (j3 e) (by simp [roleA])
      · omega, by omega⟩)).1

def PWithin (route : List Cell) (P : Nat → Prop) (p : Phases) : Prop := LWithin route P p.p1 ∧ LWithin route P p.p2

theorem compileSegment_within {b : BellCNOT} {route : List Cell} {last k : Nat} {x y : Nat × BoundaryType} {p p' : Phases} {P : Nat → Prop}
    (h : compileSegment b route last k x y p = .ok p') (hp : PWithin route P p)
    (hP : ∀ j, x.1 ≤ j → j ≤ y.1 → (k = 0 → j ≠ x.1) → (k ≠ 0 → k = last → j ≠ y.1) → P j) : PWithin route P p' ∧ x.1 < y.1 := by
  have first : ∀ {ty : LongRange} {q q' : Option Nat} {l l' : Layers}, (ty = .split ∨ ty = .merge) → k = 0 → compile ty route x.1 y.1 true q q' l = .ok l' → LWithin route P l →
      LWithin route P l' ∧ x.1 < y.1 := by
    intro ty q q' l l' ht hk h hl
    refine compile_within h hl fun j j1 j2 j3 j4 => hP j j1 j2 (fun _ e => ?_) (fun hk' => absurd hk hk')
    have := j3 e
    rcases ht with rfl | rfl <;> simp [roleA] at this
  have final : ∀ {ty : LongRange} {q q' : Option Nat} {l l' : Layers}, (ty = .split ∨ ty = .merge) → k ≠ 0 → compile ty route x.1 y.1 false q q' l = .ok l' → LWithin route P l →
      LWithin route P l' ∧ x.1 < y.1 := by
    intro ty q q' l l' ht hk h hl
    refine compile_within h hl fun j j1 j2 j3 j4 => hP j j1 j2 (fun hk' => absurd hk' hk) (fun _ _ e => ?_)
    have := j4 e
    rcases ht with rfl | rfl <;> simp [roleE] at this
  have inner : ∀ {ty : LongRange} {q q' : Option Nat} {l l' : Layers}, k ≠ 0 → k ≠ last → compile ty route x.1 y.1 false q q' l = .ok l' → LWithin route P l →
      LWithin route P l' ∧ x.1 < y.1 := by
    intro ty q q' l l' hk hk' h hl
    exact compile_within h hl fun j j1 j2 j3 j4 => hP j j1 j2 (fun e => absurd e hk) (fun _ e => absurd e hk')
  unfold compileSegment at h
  dsimp only at h
  split at h
  · split at h
    · obtain ⟨l, h1, h⟩ := Outcome.bind_eq_ok.1 h
      cases h
      obtain ⟨g1, g2⟩ := first (.inl rfl) ‹_› h1 hp.1; exact ⟨⟨g1, hp.2⟩, g2⟩
    · split at h
      · obtain ⟨l, h1, h⟩ := Outcome.bind_eq_ok.1 h
        cases h
        obtain ⟨g1, g2⟩ := final (.inl rfl) ‹_› h1 hp.1; exact ⟨⟨g1, hp.2⟩, g2⟩
      · obtain ⟨l, h1, h⟩ := Outcome.bind_eq_ok.1 h
        cases h
        obtain ⟨g1, g2⟩ := inner ‹_› ‹_› h1 hp.1; exact ⟨⟨g1, hp.2⟩, g2⟩
  · split at h
    · obtain ⟨l, h1, h⟩ := Outcome.bind_eq_ok.1 h
      cases h
      obtain ⟨g1, g2⟩ := first (.inr rfl) ‹_› h1 hp.2; exact ⟨⟨hp.1, g1⟩, g2⟩
    · split at h
      · obtain ⟨l, h1, h⟩ := Outcome.bind_eq_ok.1 h
        cases h
        obtain ⟨g1, g2⟩ := final (.inr rfl) ‹_› h1 hp.2; exact ⟨⟨hp.1, g1⟩, g2⟩
      · obtain ⟨l, h1, h⟩ := Outcome.bind_eq_ok.1 h
        cases h
        obtain ⟨g1, g2⟩ := inner ‹_› ‹_› h1 hp.2; exact ⟨⟨hp.1, g1⟩, g2⟩
  · cases h

theorem compile_lt {ty : LongRange} {route : List Cell} {a e : Nat} {rev : Bool} {p p' : Option Nat} {l l' : Layers} (h : compile ty route a e rev p p' l = .ok l') : a < e := by
  unfold compile at h
  split at h
  · cases h
  · rename_i hc; omega

theorem compileSegment_lt {b : BellCNOT} {route : List Cell} {last k : Nat} {x y : Nat × BoundaryType} {p p' : Phases}
    (h : compileSegment b route last k x y p = .ok p') : x.1 < y.1 := by
  unfold compileSegment at h
  dsimp only at h
  split at h
  · split at h
    · obtain ⟨l, h1, -⟩ := Outcome.bind_eq_ok.1 h; exact compile_lt h1
    · split at h <;> (obtain ⟨l, h1, -⟩ := Outcome.bind_eq_ok.1 h; exact compile_lt h1)
  · split at h
    · obtain ⟨l, h1, -⟩ := Outcome.bind_eq_ok.1 h; exact compile_lt h1
    · split at h <;> (obtain ⟨l, h1, -⟩ := Outcome.bind_eq_ok.1 h; exact compile_lt h1)
  · cases h

/-- The positions of the ends of segments grow. -/
def Rising : List (Nat × BoundaryType) → Prop
  | x :: y :: rest => x.1 < y.1 ∧ Rising (y :: rest)
  | _ => True

theorem Rising.last : ∀ {l : List (Nat × BoundaryType)} {x : Nat × BoundaryType} {N : Nat}, Rising (x :: l) → ((x :: l).getLast?.map (·.1)) = some N → x.1 ≤ N ∧ (l ≠ [] → x.1 < N)
  | [], x, N, _, h => by simp at h; simp [h]
  | y :: l, x, N, hr, h => by
    obtain ⟨h1, h2⟩ := hr
    have := (Rising.last h2 (by rw [List.getLast?_cons_cons] at h; exact h)).1
    exact ⟨by omega, fun _ => by omega⟩

theorem compileSegments_rising {b : BellCNOT} {route : List Cell} {last : Nat} : ∀ {l : List (Nat × BoundaryType)} {k : Nat} {p p' : Phases},
    compileSegments b route last l k p = .ok p' → Rising l
  | [], _, _, _, _ => trivial
  | [_], _, _, _, _ => trivial
  | x :: y :: rest, k, p, p', h => by
    rw [compileSegments] at h
    obtain ⟨p1, h1, h⟩ := Outcome.bind_eq_ok.1 h
    exact ⟨compileSegment_lt h1, compileSegments_rising h⟩

theorem compileSegments_within {b : BellCNOT} {route : List Cell} {last N : Nat} (hl : 0 < last) : ∀ {l : List (Nat × BoundaryType)} {k : Nat} {p p' : Phases},
    compileSegments b route last l k p = .ok p' → PWithin route (Inner (N + 1)) p → k + l.length = last + 2 → l.getLast?.map (·.1) = some N →
    (∀ x, l.head? = some x → k ≠ 0 → 0 < x.1) → PWithin route (Inner (N + 1)) p'
  | [], _, _, _, h, hp, _, _, _ => by rw [compileSegments] at h; cases h; exact hp; simp
  | [_], _, _, _, h, hp, _, _, _ => by rw [compileSegments] at h; cases h; exact hp; simp
  | x :: y :: rest, k, p, p', h, hp, hk, hN, hx => by
    have hr := compileSegments_rising h
    rw [compileSegments] at h
    obtain ⟨p1, h1, h⟩ := Outcome.bind_eq_ok.1 h
    have hN' : (y :: rest).getLast?.map (·.1) = some N := by rw [List.getLast?_cons_cons] at hN; exact hN
    obtain ⟨b1, b2⟩ := Rising.last hr.2 hN'
    have hx' := hx x rfl
    have g := (compileSegment_within (P := Inner (N + 1)) h1 hp ?_).1
    · refine compileSegments_within hl h g (by simp only [List.length_cons] at hk ⊢; omega) hN' ?_
      intro z hz _
      simp only [List.head?_cons, Option.some.injEq] at hz
      have := hr.1
      rw [← hz]; omega
    · intro j j1 j2 j3 j4
      unfold Inner
      constructor
      · by_cases e : k = 0
        · have := j3 e; omega
        · have := hx' e; omega
      · cases rest with
        | nil =>
          simp only [List.length_cons, List.length_nil] at hk
          have := j4 (by omega) (by omega)
          omega
        | cons z zs => have := b2 (by simp); omega

theorem endpoints_shape {s : DSlice} {route : List Cell} {x : List (Nat × BoundaryType) × BoundaryType} (h : endpoints s route = .ok x) :
    ∃ ty mid, x.1 = (0, ty) :: mid ++ [(route.length - 1, x.2)] ∧ 2 ≤ route.length ∧ (mid = [] → ty = x.2) := by
  unfold endpoints at h
  split at h
  · rename_i a b rest
    obtain ⟨ty, -, h⟩ := Outcome.bind_eq_ok.1 h
    obtain ⟨y, h2, h⟩ := Outcome.bind_eq_ok.1 h
    cases h
    refine ⟨ty, y.1, rfl, by simp, ?_⟩
    have key : ∀ (l : List Cell) (k : Nat) (cur : BoundaryType) (y : List (Nat × BoundaryType) × BoundaryType), endpointsGo s l k cur = .ok y → y.1 = [] → cur = y.2 := by
      intro l
      induction l with
      | nil => intro k cur y h; rw [endpointsGo] at h; cases h; intro _; rfl; simp
      | cons a l ih =>
        intro k cur y h
        cases l with
        | nil => rw [endpointsGo] at h; cases h; intro _; rfl; simp
        | cons b l =>
          rw [endpointsGo] at h
          obtain ⟨ty, -, h⟩ := Outcome.bind_eq_ok.1 h
          obtain ⟨z, h2, h⟩ := Outcome.bind_eq_ok.1 h
          cases h
          intro hy
          by_cases e : ty = cur
          · rw [if_neg (by simp [e])] at hy ⊢
            rw [← e]; exact ih _ _ _ h2 hy
          · rw [if_pos e] at hy
            cases hy
    exact key _ _ _ _ h2
  · cases h

theorem compileEdpc_within {b : BellCNOT} {s : DSlice} {route : List Cell} {x : List (Nat × BoundaryType) × BoundaryType} {p : Phases} (hn : 3 ≤ route.length)
    (he : endpoints s route = .ok x) (h : compileEdpc b route x.1 x.2 = .ok p) : PWithin route (Inner route.length) p := by
  obtain ⟨ty, mid, h1, -, h2⟩ := endpoints_shape he
  unfold compileEdpc at h
  split at h
  · obtain ⟨l, h3, h⟩ := Outcome.bind_eq_ok.1 h
    cases h
    exact ⟨compileWhole_within h3 (lwithin_nil _ _) hn, lwithin_nil _ _⟩
  · split at h
    · obtain ⟨l, h3, h⟩ := Outcome.bind_eq_ok.1 h
      cases h
      exact ⟨lwithin_nil _ _, compileWhole_within h3 (lwithin_nil _ _) hn⟩
    · rename_i e1 e2
      have hlen : x.1.length = mid.length + 2 := by rw [h1]; simp
      by_cases hm : mid = []
      · exfalso
        subst hm
        have ht := h2 rfl
        rw [h1] at h
        simp only [List.cons_append, List.nil_append, List.length_cons, List.length_nil] at h
        rw [compileSegments] at h
        obtain ⟨p1, h3, -⟩ := Outcome.bind_eq_ok.1 h
        unfold compileSegment at h3
        dsimp only at h3
        rw [hlen] at e1 e2
        rw [ht] at h3
        split at h3
        · rename_i e; exact e1 ⟨rfl, e⟩
        · rename_i e; exact e2 ⟨rfl, e⟩
        · cases h3
      · have hpos : 0 < mid.length := List.length_pos_iff.2 hm
        have := compileSegments_within (N := route.length - 1) (by omega) h ⟨lwithin_nil _ _, lwithin_nil _ _⟩ (by omega) (by rw [h1, List.getLast?_append]; simp) (by simp)
        rw [show route.length - 1 + 1 = route.length by omega] at this
        exact this

/-! ### Instructions -/

/-- The local instructions of a CNOT leave the patch on the cell alone. -/
def Spares (c : Cell) (phase : Option Nat) (pairs : Option (List (Nat × Nat))) (sets : List (List LocalInstr)) : Prop :=
  (∀ ls ∈ sets, ∀ l ∈ ls, c ∉ destroys l) ∨ (phase = none ∧ ∃ ls sets' a k ps, sets = ls :: sets' ∧ pairs = some ((a, k) :: ps) ∧ Stuck c (ls.drop k))

/-- Nothing the instruction will still do takes the patch `q` off the cell `c`. -/
def Sound (ro : Bool) (c : Cell) (q : Nat) (i : Instr) : Prop :=
  match i.op with
  | .measure t _ _ => t ≠ q
  | .rotate t => ro = true ∨ t ≠ q
  | .ystate t _ _ => t ≠ q
  | .bell b => ∀ ls, b.localInstrs = some ls → ∀ a k, b.counter = some (a, k) → Mild c (ls.drop k)
  | .bellCnot b => (∀ sets, b.localSets = some sets → Spares c b.phase b.counterPairs sets) ∧ (b.counterPairs = none → b.phase = none) ∧
      ∀ reg, b.route = some reg → 3 ≤ reg.cells.length ∧ ∀ j, Inner reg.cells.length j → (reg.cells.map (·.cell))[j]? ≠ some c
  | .busy reg _ after => c ∉ reg.cells.map (·.cell) ∨
      (ro = true ∧ c ∈ reg.cells.map (·.cell) ∧ ∃ p o, after = [p] ∧ p.cells = .single o ∧ o.cell = c ∧ Held q p.toPatch)
  | _ => True

/-- If there are local instructions, the routes that are found do not use the cell or are so short that they wait for it, given what holds of the
state of the router. -/
structure Avoids {ρ : Type} (loc : Bool) (router : RouterI ρ) (I : ρ → Prop) (ro : Bool) (c : Cell) (q R K : Nat) : Prop where
  find : ∀ {rs s a pa b pb o rs'}, I rs → Safe ro c q R K s → Marks s → router.find rs s a pa b pb = .ok (o, rs') →
    I rs' ∧ (loc = true → ∀ reg, o = some reg → (∀ x ∈ reg.cells, c ≠ x.cell) ∨ (router.edpc = false ∧ reg.cells.length ≤ 2))

/-- Without local instructions no assumption on the router is needed: the cells of a route must be free to be marked. -/
theorem any_avoids {ρ : Type} (router : RouterI ρ) {ro : Bool} {c : Cell} {q R K : Nat} : Avoids false router (fun _ => True) ro c q R K where
  find _ _ _ _ := ⟨trivial, fun h => by cases h⟩

/-- The machine. -/
structure MSafe {ρ : Type} (I : ρ → Prop) (ro : Bool) (c : Cell) (q R K : Nat) (m : Mach ρ) : Prop where
  slice : Safe ro c q R K m.slice
  router : I m.rs

/-- An attempt keeps the patch. -/
structure Spared {ρ : Type} (I : ρ → Prop) (ro : Bool) (c : Cell) (q R K : Nat) (r : Wave.Res (Mach ρ)) : Prop where
  safe : MSafe I ro c q R K r.slice
  instr : Sound ro c q r.instr
  followups : ∀ j ∈ r.followups, Sound ro c q j

variable {ρ : Type} {I : ρ → Prop} {ctx : Ctx ρ} {m : Mach ρ} {i : Instr} {r : Wave.Res (Mach ρ)}

theorem spared_fail {m' : Mach ρ} (hs : MSafe I ro c q R K m') (hi : Sound ro c q i) (h : fail m' i = .ok r) : Spared I ro c q R K r := by
  cases h; exact ⟨hs, hi, by simp⟩

theorem spared_success {m' : Mach ρ} (hs : MSafe I ro c q R K m') (hi : Sound ro c q i) (h : success m' i = .ok r) : Spared I ro c q R K r := by
  cases h; exact ⟨hs, hi, by simp⟩

theorem spared_followup {m' : Mach ρ} {f : Instr} (hs : MSafe I ro c q R K m') (hi : Sound ro c q i) (hf : Sound ro c q f) (h : followup m' i f = .ok r) : Spared I ro c q R K r := by
  cases h; exact ⟨hs, hi, by simpa using hf⟩

theorem safe_merge (hR : Avoids ctx.localInstrs ctx.router I ro c q R K) (hs : MSafe I ro c q R K m) (hm : Marks m.slice) {a b : Nat} {opA opB : Pauli} {x : Mach ρ × Bool} (h : merge ctx m a opA b opB = .ok x) :
    MSafe I ro c q R K x.1 := by
  unfold merge at h
  split at h
  · split at h
    · cases h; exact hs
    · obtain ⟨⟨o, rs⟩, h1, h⟩ := Outcome.bind_eq_ok.1 h
      have hI := (hR.find hs.router hs.slice hm h1).1
      simp only at h
      split at h
      · cases h; exact ⟨hs.slice, hI⟩
      · split at h
        · obtain ⟨s, h2, h⟩ := Outcome.bind_eq_ok.1 h
          obtain ⟨y, h3, h⟩ := Outcome.bind_eq_ok.1 h
          cases h
          exact ⟨(hs.slice.same (stitch_same h2)).filled (mark_filled h3).1, hI⟩
        · cases h
  · cases h

theorem spared_sq (hR : Avoids ctx.localInstrs ctx.router I ro c q R K) (hs : MSafe I ro c q R K m) (hm : Marks m.slice) {t : Nat} {op : SqOp} {f : Bool} (hi : i.op = .sq t op f) (h : applySq ctx m i t op = .ok r) :
    Spared I ro c q R K r := by
  have hi' : Sound ro c q i := by unfold Sound; rw [hi]; trivial
  unfold applySq at h
  split at h
  · rename_i hx _
    split at h
    · split at h
      · cases h
      · obtain ⟨⟨m', ok⟩, h1, h⟩ := Outcome.bind_eq_ok.1 h
        have := safe_merge hR hs hm h1
        simp only at h
        split at h
        · cases h; exact ⟨this, hi', by simp [Sound]⟩
        · exact spared_fail this hi' h
    · split at h
      · exact spared_fail hs hi' h
      · split at h
        · exact spared_success (m' := { m with slice := _ }) ⟨hs.slice.turn hx, hs.router⟩ hi' h
        · exact spared_success hs hi' h
  · exact spared_fail hs hi' h

theorem spared_multi (hR : Avoids ctx.localInstrs ctx.router I ro c q R K) (hs : MSafe I ro c q R K m) (hm : Marks m.slice) {obs : List (Nat × Pauli)} {neg : Bool} {lo : Option LocalInstr} (hi : i.op = .multi obs neg lo)
    (h : applyMulti ctx m i obs neg = .ok r) : Spared I ro c q R K r := by
  have hi' : Sound ro c q i := by unfold Sound; rw [hi]; trivial
  unfold applyMulti at h
  split at h
  · split at h
    · split at h
      · unfold applyMultiLocal at h
        obtain ⟨b1, -, h⟩ := Outcome.bind_eq_ok.1 h
        split at h
        · cases h
        · obtain ⟨b2, -, h⟩ := Outcome.bind_eq_ok.1 h
          split at h
          · cases h
          · obtain ⟨x, h1, h⟩ := Outcome.bind_eq_ok.1 h
            cases h
            exact ⟨⟨safe_local hs.slice (by simp [destroys]) h1, hs.router⟩, trivial, by simp⟩
      · split at h
        · cases h
        · obtain ⟨⟨m', ok⟩, h1, h⟩ := Outcome.bind_eq_ok.1 h
          have := safe_merge hR hs hm h1
          simp only at h
          split at h
          · exact spared_success this hi' h
          · exact spared_fail this hi' h
    · exact spared_fail hs hi' h
  · cases h

theorem spared_init (hs : MSafe I ro c q R K m) {t : Nat} {st : InitState} {next : Option NextTo} (hi : i.op = .init t st next)
    (h : applyInit ctx m i t next = .ok r) : Spared I ro c q R K r := by
  have hi' : Sound ro c q i := by unfold Sound; rw [hi]; trivial
  unfold applyInit at h
  obtain ⟨o, -, h⟩ := Outcome.bind_eq_ok.1 h
  split at h
  · exact spared_fail hs hi' h
  · rename_i x
    obtain ⟨y, h2, h⟩ := Outcome.bind_eq_ok.1 h
    obtain ⟨-, hf, -⟩ := placeSingle_ok rfl h2
    exact spared_success (m' := { m with slice := _ }) ⟨(hs.slice.place h2).modPatch (hs.slice.not_free hf) _, hs.router⟩ hi' h

theorem spared_bellRun {b : BellInit} {ls : List LocalInstr} {k : Nat} (hs : MSafe I ro c q R K m) (hl : Mild c (ls.drop k)) (h : bellInitRun ctx m i b ls k = .ok r) :
    Spared I ro c q R K r := by
  unfold bellInitRun at h
  obtain ⟨x, h1, h⟩ := Outcome.bind_eq_ok.1 h
  obtain ⟨g, g'⟩ := mild_runLocals hs.slice hl h1
  have hf : Sound ro c q { i with op := .bell { b with localInstrs := some ls, counter := some (k, k + x.2.1) } } := by
    intro ls' e a k' e'
    cases e
    cases e'
    exact g'
  split at h
  · exact spared_success (m' := { m with slice := _ }) ⟨g, hs.router⟩ hf h
  · exact spared_followup (m' := { m with slice := _ }) ⟨g, hs.router⟩ hf hf h

theorem within_not {route : List Cell} {P : Nat → Prop} (hP : ∀ j, P j → route[j]? ≠ some c) {l : LocalInstr} (h : Within route P l) : c ∉ destroys l := by
  intro hm
  obtain ⟨j, h1, h2⟩ := h c hm
  exact hP j h1 h2

theorem bell_two (b : BellInit) (x y : Cell) : bellInitLocals b [x, y] = .ok [.bellPrepare (some b.side2) (some b.side1) x y] := by
  simp [bellInitLocals, compile, compileRest, compileEnd, byTwo, compilePairs, compileBetween, mkPrepare, cellAt, Layers.push1]

theorem whole_two (b : BellCNOT) (u x y v : Cell) : compileWhole b [u, x, y, v] {} = .ok ⟨[.bellPrepare (some b.side2) (some b.side1) x y], [.mergeContract v y, .mergeContract u x]⟩ := by
  simp [compileWhole, compile, compileRest, compileEnd, byTwo, compilePairs, compileBetween, compileMerge, mkContract, mkPrepare, cellAt, Layers.push1, Layers.push2]

/-- The local instructions of a Bell pair on a route that does not use the cell, or is short. -/
theorem bell_mild {b : BellInit} {reg : RoutingRegion} {ls : List LocalInstr} (hn : 2 ≤ reg.cells.length) (hr : (∀ x ∈ reg.cells, c ≠ x.cell) ∨ reg.cells.length ≤ 2)
    (h : bellInitLocals b (reg.cells.map (·.cell)) = .ok ls) : Mild c (ls.drop 0) := by
  have key : (∀ x ∈ reg.cells, c ≠ x.cell) → Mild c (ls.drop 0) := by
    intro g2
    unfold bellInitLocals at h
    obtain ⟨l, h3, h⟩ := Outcome.bind_eq_ok.1 h
    cases h
    have hw := (compile_within (route := reg.cells.map (·.cell)) (P := fun _ => True) h3 (lwithin_nil _ _) (by intros; trivial)).1
    have hno : ∀ j : Nat, True → (reg.cells.map (·.cell))[j]? ≠ some c := by
      intro j _ hj
      obtain ⟨o, ho, e⟩ := List.mem_map.1 (List.mem_of_getElem? hj)
      exact g2 o ho e.symm
    refine .inl fun l hm => ?_
    rcases List.mem_append.1 hm with hm | hm
    · exact within_not (route := reg.cells.map (·.cell)) hno (hw.1 l hm)
    · exact within_not (route := reg.cells.map (·.cell)) hno (hw.2 l hm)
  rcases hr with hr | hr
  · exact key hr
  · by_cases hc : ∀ x ∈ reg.cells, c ≠ x.cell
    · exact key hc
    · obtain ⟨x, y, e⟩ := List.length_eq_two.1 (Nat.le_antisymm hr hn)
      rw [e] at h hc
      rw [List.map_cons, List.map_cons, List.map_nil, bell_two] at h
      cases h
      refine .inr ⟨_, _, _, _, _, rfl, ?_⟩
      simpa [imp_iff_not_or, Classical.not_and_iff_not_or_not] using hc

theorem spared_bell (hR : Avoids ctx.localInstrs ctx.router I ro c q R K) (hs : MSafe I ro c q R K m) (hm : Marks m.slice) {b : BellInit} (hi : i.op = .bell b) (hi' : Sound ro c q i) (h : applyBell ctx m i b = .ok r) :
    Spared I ro c q R K r := by
  unfold applyBell at h
  split at h
  · cases h
  · rename_i hloc
    have hloc : ctx.localInstrs = true := by simpa using hloc
    split at h
    · exact spared_fail hs hi' h
    · split at h
      · exact spared_fail hs hi' h
      · split at h
        · split at h
          · cases h
          · rename_i ls e
            unfold Sound at hi'
            rw [hi] at hi'
            exact spared_bellRun hs (hi' ls e _ _ ‹_›) h
        · obtain ⟨⟨rt, rs⟩, h1, h⟩ := Outcome.bind_eq_ok.1 h
          obtain ⟨g1, g2⟩ := hR.find hs.router hs.slice hm h1
          replace g2 := g2 hloc
          dsimp only at h
          cases rt with
          | none => exact spared_fail (m' := { m with rs := rs }) ⟨hs.slice, g1⟩ hi' h
          | some reg =>
            dsimp only at h
            split at h
            · exact spared_fail (m' := { m with rs := rs }) ⟨hs.slice, g1⟩ hi' h
            · obtain ⟨ls, h2, h⟩ := Outcome.bind_eq_ok.1 h
              exact spared_bellRun (m := { m with rs := rs }) ⟨hs.slice, g1⟩ (bell_mild (Nat.le_of_not_lt ‹_›) ((g2 reg rfl).imp id (·.2)) h2) h

theorem inner_ends {a b : OccCell} {cells : List OccCell} (h : ∀ x ∈ cells, c ≠ x.cell) (j : Nat) (hj : Inner (b :: cells ++ [a]).length j) :
    ((b :: cells ++ [a]).map (·.cell))[j]? ≠ some c := by
  unfold Inner at hj
  simp only [List.cons_append, List.length_cons, List.length_append, List.length_nil] at hj
  intro e
  obtain ⟨k, rfl⟩ : ∃ k, j = k + 1 := ⟨j - 1, by omega⟩
  simp only [List.cons_append, List.map_cons, List.getElem?_cons_succ, List.map_append, List.map_nil] at e
  rw [List.getElem?_append_left (by simp; omega)] at e
  obtain ⟨o, ho, e⟩ := List.mem_map.1 (List.mem_of_getElem? e)
  exact h o ho e.symm

theorem withEnds_shape {s : DSlice} {b : BellCNOT} {reg reg' : RoutingRegion} (h : withEnds s b reg = .ok reg') :
    ∃ x y, reg' = { reg with cells := bareCell x :: reg.cells ++ [bareCell y] } := by
  unfold withEnds at h
  split at h
  · cases h; exact ⟨_, _, rfl⟩
  · cases h

theorem spared_cnotRun {b : BellCNOT} {sets : List (List LocalInstr)} {ps : List (Nat × Nat)} (hs : MSafe I ro c q R K m) (hl : Spares c b.phase (some ps) sets)
    (hr : ∀ reg, b.route = some reg → 3 ≤ reg.cells.length ∧ ∀ j, Inner reg.cells.length j → (reg.cells.map (·.cell))[j]? ≠ some c)
    (h : cnotRun ctx m i b sets ps = .ok r) : Spared I ro c q R K r := by
  unfold cnotRun at h
  split at h
  · rename_i x1 second ps' ls sets'
    obtain ⟨x, h1, h⟩ := Outcome.bind_eq_ok.1 h
    have hg : Safe ro c q R K x.1 ∧ Spares c b.phase (some ((second, second + x.2.1) :: ps')) (ls :: sets') := by
      rcases hl with hl | ⟨hp, ls', sets'', a, k, ps'', e1, e2, hl⟩
      · exact ⟨safe_runLocals hs.slice (fun l hm => hl ls (by simp) l (List.mem_of_mem_drop hm)) h1, .inl hl⟩
      · cases e1
        cases e2
        cases stuck_runLocals hs.slice hl h1
        exact ⟨hs.slice, .inr ⟨hp, _, _, _, _, _, rfl, rfl, hl⟩⟩
    have hf : Sound ro c q { i with op := .bellCnot { b with localSets := some (ls :: sets'), counterPairs := some ((second, second + x.2.1) :: ps') } } := by
      refine ⟨?_, (fun e => by cases e), hr⟩
      intro ss e
      cases e
      exact hg.2
    dsimp only at h
    split at h
    · exact spared_success (m' := { m with slice := _ }) ⟨hg.1, hs.router⟩ hf h
    · exact spared_followup (m' := { m with slice := _ }) ⟨hg.1, hs.router⟩ hf hf h
  · cases h

theorem spared_cnotPhase {b : BellCNOT} {sets : List (List LocalInstr)} {ps : List (Nat × Nat)} {k : Nat} (hs : MSafe I ro c q R K m) (hl : ∀ ls ∈ sets, ∀ l ∈ ls, c ∉ destroys l)
    (hb : b.localSets = some sets)
    (hr : ∀ reg, b.route = some reg → 3 ≤ reg.cells.length ∧ ∀ j, Inner reg.cells.length j → (reg.cells.map (·.cell))[j]? ≠ some c)
    (h : cnotPhase ctx m i b sets ps k = .ok r) : Spared I ro c q R K r := by
  unfold cnotPhase at h
  split at h
  · rename_i x1 second ls hps hls
    obtain ⟨x, h1, h⟩ := Outcome.bind_eq_ok.1 h
    have g := safe_runLocals hs.slice (fun l hm => hl ls (List.mem_of_getElem? hls) l (List.mem_of_mem_drop hm)) h1
    have hf : ∀ (n : List (Nat × Nat)) (ph : Option Nat), Sound ro c q { i with op := .bellCnot { b with counterPairs := some n, phase := ph } } := by
      intro n ph
      refine ⟨?_, (fun e => by cases e), hr⟩
      intro ss e
      dsimp only at e
      rw [hb] at e
      cases e
      exact .inl hl
    dsimp only at h
    split at h
    · exact spared_followup (m' := { m with slice := _ }) ⟨g, hs.router⟩ (hf _ _) (hf _ _) h
    · split at h
      · exact spared_success (m' := { m with slice := _ }) ⟨g, hs.router⟩ (hf _ _) h
      · exact spared_followup (m' := { m with slice := _ }) ⟨g, hs.router⟩ (hf _ _) (hf _ _) h
  · cases h

/-- The local instructions of a CNOT on a route that does not use the cell, or is short. -/
theorem whole_spares {b : BellCNOT} {u v : Cell} {reg : RoutingRegion} {l : Layers} (hn : 2 ≤ reg.cells.length) (hr : (∀ x ∈ reg.cells, c ≠ x.cell) ∨ reg.cells.length ≤ 2)
    (hp : b.phase = none) (h3 : compileWhole b ((bareCell u :: reg.cells ++ [bareCell v]).map (·.cell)) {} = .ok l) : Spares c b.phase (some [(0, 0)]) [l.l1 ++ l.l2] := by
  have key : (∀ x ∈ reg.cells, c ≠ x.cell) → Spares c b.phase (some [(0, 0)]) [l.l1 ++ l.l2] := by
    intro g2
    have hw := compileWhole_within h3 (lwithin_nil _ _) (by simp; omega)
    rw [List.length_map] at hw
    refine .inl fun ls hls l' hm => ?_
    simp only [List.mem_cons, List.not_mem_nil, or_false] at hls
    subst hls
    have hno := inner_ends (a := bareCell v) (b := bareCell u) g2
    rcases List.mem_append.1 hm with hm | hm
    · exact within_not hno (hw.1 l' hm)
    · exact within_not hno (hw.2 l' hm)
  rcases hr with hr | hr
  · exact key hr
  · by_cases hc : ∀ x ∈ reg.cells, c ≠ x.cell
    · exact key hc
    · obtain ⟨x, y, e⟩ := List.length_eq_two.1 (Nat.le_antisymm hr hn)
      rw [e] at h3 hc
      simp only [List.cons_append, List.nil_append, List.map_cons, List.map_nil] at h3
      rw [whole_two] at h3
      cases h3
      refine .inr ⟨hp, _, _, _, _, _, rfl, rfl, _, _, _, _, _, rfl, ?_⟩
      simpa [imp_iff_not_or, Classical.not_and_iff_not_or_not] using hc

theorem spared_cnot (hR : Avoids ctx.localInstrs ctx.router I ro c q R K) (hs : MSafe I ro c q R K m) (hm : Marks m.slice) {b : BellCNOT} (hi : i.op = .bellCnot b) (hi' : Sound ro c q i) (h : applyCnot ctx m i b = .ok r) :
    Spared I ro c q R K r := by
  have hb := hi'
  unfold Sound at hb
  rw [hi] at hb
  obtain ⟨hb1, hb0, hb2⟩ := hb
  unfold applyCnot at h
  split at h
  · cases h
  · rename_i hloc
    have hloc : ctx.localInstrs = true := by simpa using hloc
    split at h
    · split at h
      · exact spared_fail hs hi' h
      · split at h
        · unfold applyCnotEdpc at h
          split at h
          · unfold cnotRoute at h
            obtain ⟨⟨rt, rs⟩, h1, h⟩ := Outcome.bind_eq_ok.1 h
            obtain ⟨g1, g2⟩ := hR.find hs.router hs.slice hm h1
            replace g2 := g2 hloc
            dsimp only at h
            cases rt with
            | none => exact spared_fail (m' := { m with rs := rs }) ⟨hs.slice, g1⟩ hi' h
            | some reg =>
              dsimp only at h
              split at h
              · cases h
              · obtain ⟨reg', h2, h⟩ := Outcome.bind_eq_ok.1 h
                obtain ⟨x, h3, h⟩ := Outcome.bind_eq_ok.1 h
                cases h
                obtain ⟨u, v, rfl⟩ := withEnds_shape h2
                obtain ⟨k1, k2⟩ := mark_filled h3
                have hlen : x.2.cells.length = (bareCell u :: reg.cells ++ [bareCell v]).length := by simpa using congrArg List.length k2
                have hf : Sound ro c q { i with op := .bellCnot { b with route := some x.2 } } := by
                  refine ⟨hb1, hb0, ?_⟩
                  intro rg e
                  cases e
                  refine ⟨by rw [hlen]; simp; omega, ?_⟩
                  rw [hlen, k2]
                  exact inner_ends ((g2 reg rfl).resolve_right fun e => by rw [‹ctx.router.edpc = true›] at e; cases e.1)
                exact ⟨⟨hs.slice.filled k1, g1⟩, hf, by simpa using hf⟩
          · rename_i reg hreg
            split at h
            · unfold cnotDecompose at h
              obtain ⟨x, h1, h⟩ := Outcome.bind_eq_ok.1 h
              obtain ⟨p, h2, h⟩ := Outcome.bind_eq_ok.1 h
              obtain ⟨k1, k2⟩ := hb2 reg hreg
              have hw := compileEdpc_within (by simpa using k1) h1 h2
              rw [List.length_map] at hw
              refine spared_fail (i := { i with op := .bellCnot _ }) hs ?_ h
              refine ⟨?_, (fun e => by cases e), hb2⟩
              intro ss e
              refine .inl fun ls hls l hm => ?_
              cases e
              simp only [List.mem_cons, List.not_mem_nil, or_false] at hls
              rcases hls with rfl | rfl | rfl | rfl
              · exact within_not k2 (hw.1.1 l hm)
              · exact within_not k2 (hw.1.2 l hm)
              · exact within_not k2 (hw.2.1 l hm)
              · exact within_not k2 (hw.2.2 l hm)
            · split at h
              · rename_i phase sets e1 e2
                exact spared_cnotPhase hs ((hb1 sets e2).resolve_right fun hn => by rw [e1] at hn; cases hn.1) e2 hb2 h
              · cases h
        · unfold applyCnotPlain at h
          split at h
          · split at h
            · cases h
            · rename_i e0 _ sets e
              exact spared_cnotRun hs (by rw [e0] at hb1; exact hb1 sets e) hb2 h
          · rename_i e0
            obtain ⟨⟨rt, rs⟩, h1, h⟩ := Outcome.bind_eq_ok.1 h
            obtain ⟨g1, g2⟩ := hR.find hs.router hs.slice hm h1
            replace g2 := g2 hloc
            dsimp only at h
            cases rt with
            | none => exact spared_fail (m' := { m with rs := rs }) ⟨hs.slice, g1⟩ hi' h
            | some reg =>
              dsimp only at h
              split at h
              · cases h
              · obtain ⟨reg', h2, h⟩ := Outcome.bind_eq_ok.1 h
                obtain ⟨u, v, rfl⟩ := withEnds_shape h2
                obtain ⟨l, h3, h⟩ := Outcome.bind_eq_ok.1 h
                exact spared_cnotRun (m := { m with rs := rs }) ⟨hs.slice, g1⟩ (whole_spares (Nat.le_of_not_lt ‹_›) ((g2 reg rfl).imp id (·.2)) (hb0 e0) h3) hb2 h
    · exact spared_fail hs hi' h

theorem spared_rotate (hs : MSafe I ro c q R K m) {t : Nat} (hi' : Sound ro c q i) (ht : ro = true ∨ t ≠ q) (h : applyRotate ctx m i t = .ok r) : Spared I ro c q R K r := by
  rcases applyRotate_ok h with rfl | ⟨x, p, n, reg, y, hc, hpc, hl, hreg, h3, rfl⟩
  · exact ⟨hs, hi', by simp⟩
  · by_cases hx : c = x
    · subst hx
      have hid := (cellById_holds hc).1
      obtain ⟨p', k1, k2⟩ := hs.slice.get
      rw [hpc] at k1; cases k1
      have hro : ro = true := ht.resolve_right (fun hne => hne (hs.slice.idAt hid))
      have hq : Held q p.toPatch := by
        rcases k2 with k2 | ⟨-, k2⟩
        · exact k2
        · unfold DSlice.idAt at hid
          rw [hpc] at hid
          rw [show (some p).bind (fun x => x.id) = p.id from rfl, k2.1] at hid; cases hid
      obtain ⟨a, b, e1, e2, e3, hne, -, -, -, -, e4, e5⟩ := mark_rotation hreg h3
      have e4' := e4
      refine ⟨⟨?_, hs.router⟩, hi', ?_⟩
      · dsimp only
        rw [e5]
        refine ⟨⟨{ type := .routing, activity := .rotation, opId := reg.regionId }, ?_, .inr ⟨hro, rfl, rfl, rfl⟩⟩, hs.slice.queue, hs.slice.rows, hs.slice.cols⟩
        rw [core_put, if_neg hne, core_put, if_pos rfl]
        rfl
      · intro j hj
        simp only [List.mem_singleton] at hj
        subst hj
        unfold Sound
        dsimp only
        rw [e4]
        refine .inr ⟨hro, ?_, rotated p c, _, rfl, rfl, rfl, ?_⟩
        · rw [e1, ← e2]; simp
        · rcases p with ⟨⟨ty, act, id, lb, op⟩, bs⟩
          obtain ⟨g1, g2, g3⟩ := hq
          simp only at g1 g2 g3
          subst g1 g2
          rcases g3 with rfl | rfl <;> exact ⟨rfl, rfl, .inl rfl⟩
    · have h1 := hs.slice.put hx none
      obtain ⟨g1, g2⟩ := mark_filled h3
      refine ⟨⟨h1.filled g1, hs.router⟩, hi', ?_⟩
      intro j hj
      simp only [List.mem_singleton] at hj
      subst hj
      unfold Sound
      dsimp only
      rw [g2]
      refine .inl ?_
      intro hm
      obtain ⟨o, ho, e⟩ := List.mem_map.1 hm
      unfold mark at h3
      obtain ⟨z, h4, -⟩ := Outcome.bind_eq_ok.1 h3
      exact h1.not_free ((markGo_plain (by decide) h4).2.2.2 o ho).2 e.symm

theorem safe_placeSubs : ∀ {os : List OccCell} {s s' : DSlice}, Safe ro c q R K s → placeSubs false os s = .ok s' → Safe ro c q R K s'
  | [], s, s', hs, h => by cases h; exact hs
  | o :: os, s, s', hs, h => by
    rw [placeSubs] at h
    obtain ⟨x, h1, h⟩ := Outcome.bind_eq_ok.1 h
    exact safe_placeSubs (hs.place h1) h

theorem safe_restore : ∀ {ps : List SparsePatch} {s : DSlice} {x : DSlice × Bool}, Safe ro c q R K s → restore ps s = .ok x → Safe ro c q R K x.1
  | [], s, x, hs, h => by cases h; exact hs
  | p :: ps, s, x, hs, h => by
    rw [restore] at h
    obtain ⟨f, -, h⟩ := Outcome.bind_eq_ok.1 h
    split at h
    · cases h; exact hs
    · obtain ⟨s1, h1, h⟩ := Outcome.bind_eq_ok.1 h
      refine safe_restore (s := s1) ?_ h
      unfold place at h1
      split at h1
      · obtain ⟨y, h2, h1⟩ := Outcome.bind_eq_ok.1 h1
        cases h1
        exact hs.place h2
      · exact safe_placeSubs hs h1

/-- The token of the rotation of `q` itself: it puts the patch back on its cell. -/
theorem safe_own {reg : RoutingRegion} {p : SparsePatch} {o : OccCell} {s1 : DSlice} {x : DSlice × Bool} {b : Bool} (hs : Safe ro c q R K s) (hp : p.cells = .single o) (ho : o.cell = c)
    (hh : Held q p.toPatch) (hc : c ∈ reg.cells.map (·.cell)) (h1 : clear b reg.cells s = .ok s1) (h2 : restore [p] s1 = .ok x) : Safe ro c q R K x.1 := by
  obtain ⟨e, -⟩ := clear_ok h1
  have hfree : s1.cells c = none := by rw [e]; simp only; rw [if_pos hc]
  rw [restore] at h2
  obtain ⟨f, hf, h2⟩ := Outcome.bind_eq_ok.1 h2
  have hocc : p.occ = [o] := by unfold SparsePatch.occ; rw [hp]
  have hft : f = true := by
    rw [hocc, allFree] at hf
    obtain ⟨f1, hf1, hf⟩ := Outcome.bind_eq_ok.1 hf
    cases hf
    simpa using (isFree_ok hf1).2.2 (by rw [ho]; exact hfree)
  subst hft
  simp only [Bool.not_true, Bool.false_eq_true, if_false] at h2
  obtain ⟨s2, h3, h2⟩ := Outcome.bind_eq_ok.1 h2
  cases h2
  unfold place at h3
  rw [hp] at h3
  obtain ⟨y, h4, h3⟩ := Outcome.bind_eq_ok.1 h3
  cases h3
  obtain ⟨-, -, rfl⟩ := placeSingle_ok hp h4
  subst e
  refine ⟨⟨p.toPatch, ?_, .inl hh⟩, hs.queue, hs.rows, hs.cols⟩
  dsimp only
  rw [core_put, if_pos ho.symm]
  rfl

theorem spared_busy (hs : MSafe I ro c q R K m) {reg : RoutingRegion} {k : Nat} {after : List SparsePatch} (hi : i.op = .busy reg k after) (hi' : Sound ro c q i)
    (h : applyBusy ctx m i reg k after = .ok r) : Spared I ro c q R K r := by
  have hm := hi'
  unfold Sound at hm
  rw [hi] at hm
  unfold applyBusy at h
  split at h
  · obtain ⟨s, h1, h⟩ := Outcome.bind_eq_ok.1 h
    obtain ⟨x, h2, h⟩ := Outcome.bind_eq_ok.1 h
    have g : Safe ro c q R K x.1 := by
      rcases hm with hm | ⟨-, hm, p, o, rfl, k2, k3, k4⟩
      · refine safe_restore ?_ h2
        obtain ⟨e, -⟩ := clear_ok h1
        subst e
        exact hs.slice.of (by unfold core; simp only; rw [if_neg hm]) hs.slice.queue rfl rfl
      · exact safe_own hs.slice k2 k3 k4 hm h1 h2
    split at h
    · exact spared_fail (m' := { m with slice := _ }) ⟨g, hs.router⟩ hi' h
    · exact spared_success (m' := { m with slice := _ }) ⟨g, hs.router⟩ hi' h
  · obtain ⟨u, -, h⟩ := Outcome.bind_eq_ok.1 h
    cases h; exact ⟨hs, hi', by simpa [Sound] using hm⟩

theorem spared_magic (hs : MSafe I ro c q R K m) {t near : Nat} (hi' : Sound ro c q i) (h : applyMagic ctx m i t near = .ok r) : Spared I ro c q R K r := by
  unfold applyMagic at h
  split at h
  · cases h
  · split at h
    · exact spared_fail hs hi' h
    · split at h
      · cases h
      · split at h
        · cases h
        · rename_i nc x hx
          obtain ⟨o, -, h⟩ := Outcome.bind_eq_ok.1 h
          cases o with
          | none => cases h
          | some p =>
            have hne : c ≠ x := by
              rintro rfl
              rcases nearest_mem hx with hm | hm
              · exact hs.slice.queue hm
              · cases hm
            cases h
            refine ⟨⟨?_, hs.router⟩, hi', by simp⟩
            refine (hs.slice.modPatch hne fun p => { p with id := some t, type := .qubit, activity := .none }).of rfl ?_ rfl rfl
            intro hm
            exact hs.slice.queue (List.mem_filter.1 hm).1

theorem spared_y (hs : MSafe I ro c q R K m) {t near : Nat} {lo : Option LocalInstr} (hi : i.op = .ystate t near lo) (hi' : Sound ro c q i)
    (h : applyY ctx m i t near = .ok r) : Spared I ro c q R K r := by
  have ht : t ≠ q := by unfold Sound at hi'; rw [hi] at hi'; exact hi'
  unfold applyY at h
  split at h
  · rename_i x hx
    cases h
    exact ⟨⟨(hs.slice.modPatch (hs.slice.not_id hx ht) fun p => { p with id := none }).fields rfl rfl rfl rfl, hs.router⟩, hi', by simp⟩
  · split at h
    · unfold yPredistilled at h
      obtain ⟨cs, h1, h⟩ := Outcome.bind_eq_ok.1 h
      split at h
      · exact spared_fail hs hi' h
      · split at h
        · cases h
        · split at h
          · exact spared_fail hs hi' h
          · rename_i x hn
            have hne : c ≠ x := by
              rintro rfl
              rcases nearest_mem hn with hm | hm
              · obtain ⟨-, p, j2, j3, j4⟩ := mem_yCandidates h1 c hm
                obtain ⟨p', k1, k2 | ⟨-, k2⟩⟩ := hs.slice.get
                · rw [j2] at k1; cases k1
                  have := k2.1
                  rw [j3] at this; cases this
                · rw [j2] at k1; cases k1
                  have := k2.2.2
                  simp [DensePatch.isActive, this] at j4
              · cases hm
            cases h
            exact ⟨⟨(hs.slice.modPatch hne fun p => { p with id := some t }).fields rfl rfl rfl rfl, hs.router⟩, hi', by simp⟩
    · split at h
      · unfold yTwist at h
        split at h
        · cases h
        · obtain ⟨o, -, h⟩ := Outcome.bind_eq_ok.1 h
          split at h
          · exact spared_fail hs hi' h
          · obtain ⟨x, h2, h⟩ := Outcome.bind_eq_ok.1 h
            refine spared_success (m' := { m with slice := _ }) (i := { i with op := .ystate t near _ }) ⟨safe_local hs.slice (by simp [destroys]) h2, hs.router⟩ ht h
      · exact spared_fail hs hi' h

theorem spared_measure (hs : MSafe I ro c q R K m) {t : Nat} (hi' : Sound ro c q i) (ht : t ≠ q) (h : applyMeasure m i t = .ok r) : Spared I ro c q R K r := by
  unfold applyMeasure at h
  split at h
  · exact spared_fail hs hi' h
  · rename_i x hx
    exact spared_success (m' := { m with slice := _ }) ⟨hs.slice.modPatch (hs.slice.not_id hx ht) _, hs.router⟩ hi' h

/-- An attempt at an instruction that does not take `q` off the lattice leaves it where it is. -/
theorem spared_apply (hR : Avoids ctx.localInstrs ctx.router I ro c q R K) (hs : MSafe I ro c q R K m) (hm : Marks m.slice) (hi : Sound ro c q i) (h : apply ctx m i = .ok r) : Spared I ro c q R K r := by
  have hi' := hi
  unfold Sound at hi'
  unfold apply at h
  split at h
  · rename_i e; rw [e] at hi'; exact spared_measure hs hi hi' h
  · rename_i e; exact spared_sq hR hs hm e h
  · rename_i e; exact spared_multi hR hs hm e h
  · rename_i e; exact spared_init hs e h
  · rename_i e; exact spared_bell hR hs hm e hi h
  · rename_i e; exact spared_cnot hR hs hm e hi h
  · rename_i e; rw [e] at hi'; exact spared_rotate hs hi hi' h
  · exact spared_magic hs hi h
  · rename_i e; exact spared_y hs e hi h
  · rename_i e; exact spared_busy hs e hi h
  · exact spared_success hs hi h
  · cases h

/-! ### From slice to slice -/

/-- The patch of the cell, which is not given to a magic state. -/
structure Owned (c : Cell) (a : DensePatch) (N : Prop) (s : DSlice) : Prop where
  held : s.cells c = some a
  kind : a.type = .qubit ∨ N
  queue : c ∉ s.magic

section
variable {a : DensePatch} {N : Prop}

theorem Owned.of (h : Owned c a N s) (h1 : s'.cells c = s.cells c) (h2 : s'.magic = s.magic) : Owned c a N s' := ⟨by rw [h1]; exact h.held, h.kind, by rw [h2]; exact h.queue⟩

theorem owned_spawn {x : Cell} (h : Owned c a N s) (hx : c ≠ x) (hs : s.spawn x = .ok s') : Owned c a N s' := by
  refine ⟨?_, h.kind, ?_⟩
  · rw [spawn_ok hs]
    dsimp only
    rw [put_cells, upd_other _ _ hx]
    exact h.held
  · intro hm
    rcases mem_magic_spawn hs hm with e | e
    · exact hx e
    · exact h.queue e

theorem owned_respawn {L : Layout} : ∀ {cs : List Cell} {k : Nat} {s s' : DSlice}, Owned c a N s → (N → c ∉ cs) → respawn L cs k s = .ok s' → Owned c a N s'
  | [], _, s, s', ho, _, h => by cases h; exact ho
  | x :: cs, k, s, s', ho, hN, h => by
    rw [respawn] at h
    obtain ⟨s1, h1, h⟩ := Outcome.bind_eq_ok.1 h
    obtain ⟨s2, h2, h⟩ := Outcome.bind_eq_ok.1 h
    refine owned_respawn (s := s2) ?_ (fun n hm => hN n (List.mem_cons_of_mem _ hm)) h
    have ho1 : Owned c a N s1 := by
      unfold respawnCount at h1
      obtain ⟨p, hp, h1⟩ := Outcome.bind_eq_ok.1 h1
      split at h1
      · have hne : c ≠ x := by
          rintro rfl
          have e := ho.held
          rw [(patchAt_ok hp).2] at e; cases e
        split at h1 <;> cases h1
        exact ho.of (by rw [put_cells, upd_other _ _ hne]) rfl
      · split at h1
        · split at h1 <;> cases h1
          exact ho.of rfl rfl
        · cases h1; exact ho
    unfold respawnPlace at h2
    split at h2
    · rename_i t p ht hp
      split at h2
      · rename_i hc
        refine owned_spawn ho1 ?_ h2
        rintro rfl
        have e := ho1.held
        rw [hp] at e; cases e
        rcases ho1.kind with e' | e'
        · exact hc.2.2 e'
        · exact hN e' (List.mem_cons_self ..)
      · cases h2; exact ho1
    · cases h2

theorem owned_factories {L : Layout} : ∀ {n k : Nat} {s s' : DSlice}, Owned c a N s → factories L n k s = .ok s' → Owned c a N s'
  | 0, _, s, s', ho, h => by cases h; exact ho
  | n + 1, k, s, s', ho, h => by
    rw [factories] at h
    split at h
    · obtain ⟨s1, h1, h⟩ := Outcome.bind_eq_ok.1 h
      refine owned_factories (s := s1) ?_ h
      unfold deliver at h1
      split at h1
      · obtain ⟨o, h2, h1⟩ := Outcome.bind_eq_ok.1 h1
        split at h1
        · obtain ⟨s2, h4, h1⟩ := Outcome.bind_eq_ok.1 h1
          cases h1
          have hf := (firstFree_ok h2).2.2
          have hb : Owned c a N { s with times := s.times.set k (dec32 (s.times.getD k 0)) } := ho.of rfl rfl
          refine (owned_spawn hb ?_ h4).of rfl rfl
          rintro rfl
          have e := hb.held
          rw [hf] at e; cases e
        · cases h1; exact ho.of rfl rfl
      · cases h1
    · have hb : Owned c a N { s with times := s.times.set k (dec32 (s.times.getD k 0)) } := ho.of rfl rfl
      exact owned_factories hb h

end

theorem safe_advance {L : Layout} (hL : ro = true → c ∉ L.reserved) (hs : Safe ro c q R K s) (h : s.advance L = .ok s') : Safe ro c q R K s' := by
  obtain ⟨p, h1, h2⟩ := hs.get
  obtain ⟨hm, -⟩ := advance_ok h
  have hage : ∃ a, age p = some a ∧ (Held q a.toPatch ∨ (ro = true ∧ Rotary a.toPatch)) := by
    rcases p with ⟨⟨ty, act, id, lb, op⟩, bs⟩
    rcases h2 with ⟨h2, h3, h4⟩ | ⟨h0, h2, h3, h4⟩
    · simp only at h2 h3 h4
      subst h2 h3
      rcases h4 with rfl | rfl <;> exact ⟨_, rfl, .inl ⟨rfl, rfl, .inl rfl⟩⟩
    · simp only at h2 h3 h4
      subst h2 h3 h4
      exact ⟨_, rfl, .inr ⟨h0, rfl, rfl, rfl⟩⟩
  obtain ⟨a, g1, g2⟩ := hage
  have ha : s.ageAll.cells c = some a := by
    unfold ageAll
    simp only [h1, Option.bind_some]
    exact g1
  have ho : Owned c a (ro = true) s' := by
    have ho : Owned c a (ro = true) s.ageAll := ⟨ha, g2.elim (fun g => .inl g.2.1) (fun g => .inr g.1), hs.queue⟩
    unfold advance at h
    simp only at h
    split at h
    · obtain ⟨s1, k1, h⟩ := Outcome.bind_eq_ok.1 h
      cases h
      exact (owned_respawn ho hL k1).of rfl rfl
    · obtain ⟨s1, k1, h⟩ := Outcome.bind_eq_ok.1 h
      cases h
      exact (owned_factories ho k1).of rfl rfl
  refine ⟨⟨a.toPatch, ?_, g2⟩, ho.queue, hm.rows.trans hs.rows, hm.cols.trans hs.cols⟩
  unfold core
  rw [ho.held]
  rfl

theorem safe_init {L : Layout} {ids : List Nat} {p : DensePatch} (h : DSlice.init L ids = .ok s) (hc : s.cells c = some p) (h1 : p.id = some q) (h2 : p.type = .qubit) (h3 : p.activity = .none) :
    Safe ro c q s.rows s.cols s :=
  ⟨⟨p.toPatch, by unfold core; rw [hc]; rfl, .inl ⟨h1, h2, .inl h3⟩⟩, by rw [init_magic h]; simp, rfl, rfl⟩

end

end Apply

end Verif
