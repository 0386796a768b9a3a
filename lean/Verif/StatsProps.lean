import Verif.Stats
import Verif.RouterProps

/-!
# Volume statistics: properties

C43: every cell is counted exactly once, and the totals are sums.
-/

namespace Verif.Stats

namespace Spec

/-- Exactly `n` cells of the slice hold something the predicate is true of. -/
def Holding (s : DSlice) (P : Option DensePatch → Prop) (n : Nat) : Prop :=
  ∃ cs : List Cell, cs.Nodup ∧ cs.length = n ∧
    ∀ c : Cell, c ∈ cs ↔ (0 ≤ c.row ∧ c.row < s.rows ∧ 0 ≤ c.col ∧ c.col < s.cols) ∧ P (s.cells c)

/-- Nothing is on the cell. -/
def Unused (o : Option DensePatch) : Prop := o = none

/-- The cell makes magic states; prepared states count if they wait on reserved cells. -/
def Distilling (L : Layout) (o : Option DensePatch) : Prop :=
  ∃ p, o = some p ∧ (p.type = .distillation ∨ (L.magicReserved = true ∧ p.type = .preparedState))

def Dead (o : Option DensePatch) : Prop := ∃ p, o = some p ∧ p.type = .dead

/-- Logical qubits, routes and prepared states that do not count as distilling. -/
def Active (L : Layout) (o : Option DensePatch) : Prop :=
  ∃ p, o = some p ∧ (p.type = .qubit ∨ p.type = .routing ∨ (L.magicReserved = false ∧ p.type = .preparedState))

end Spec

open Spec

theorem mem_allCells {s : DSlice} {c : Cell} : c ∈ s.allCells ↔ 0 ≤ c.row ∧ c.row < s.rows ∧ 0 ≤ c.col ∧ c.col < s.cols := by
  unfold DSlice.allCells
  simp only [List.mem_flatMap, List.mem_range, List.mem_map]
  constructor
  · rintro ⟨r, hr, k, hk, rfl⟩
    exact ⟨by simp, by simpa using hr, by simp, by simpa using hk⟩
  · rintro ⟨h1, h2, h3, h4⟩
    refine ⟨c.row.toNat, by omega, c.col.toNat, by omega, ?_⟩
    obtain ⟨r, k⟩ := c
    simp only [Cell.mk.injEq] at *
    omega

theorem allCells_nodup (s : DSlice) : s.allCells.Nodup := by
  unfold DSlice.allCells
  unfold List.Nodup
  rw [List.pairwise_flatMap]
  constructor
  · intro r _
    rw [List.pairwise_map]
    exact List.Pairwise.imp (fun h e => h (by simpa using e)) (List.nodup_range)
  · refine List.Pairwise.imp ?_ (List.nodup_range (n := s.rows))
    intro a b hab x hx y hy e
    obtain ⟨_, _, rfl⟩ := List.mem_map.1 hx
    obtain ⟨_, _, rfl⟩ := List.mem_map.1 hy
    exact hab (by simpa using (Cell.mk.inj e).1)

theorem allCells_length (s : DSlice) : s.allCells.length = s.rows * s.cols := by
  unfold DSlice.allCells
  rw [List.length_flatMap]
  simp [List.map_const']

instance (o : Option DensePatch) : Decidable (Unused o) := inferInstanceAs (Decidable (o = none))

/-- Boolean forms of the categories. -/
def isUnused (o : Option DensePatch) : Bool := o.isNone
def isDistilling (r : Bool) : Option DensePatch → Bool
  | none => false
  | some p => decide (p.type = .distillation) || (r && decide (p.type = .preparedState))
def isDead : Option DensePatch → Bool
  | none => false
  | some p => decide (p.type = .dead)
def isActive (r : Bool) : Option DensePatch → Bool
  | none => false
  | some p => decide (p.type = .qubit) || decide (p.type = .routing) || (!r && decide (p.type = .preparedState))

theorem tally_spec (r : Bool) (v : Volume) (o : Option DensePatch) : (tally r v o).volume = v.volume ∧
    (tally r v o).unused = v.unused + (isUnused o).toNat ∧ (tally r v o).distillation = v.distillation + (isDistilling r o).toNat ∧
    (tally r v o).dead = v.dead + (isDead o).toNat ∧
    (isUnused o).toNat + (isDistilling r o).toNat + (isDead o).toNat + (isActive r o).toNat = 1 := by
  cases o with
  | none => simp [tally, isUnused, isDistilling, isDead, isActive]
  | some p =>
    cases ht : p.type <;> cases r <;> simp [tally, isUnused, isDistilling, isDead, isActive, ht]

theorem tallyAll_spec (r : Bool) (s : DSlice) : ∀ (cs : List Cell) (v : Volume), (tallyAll r s cs v).volume = v.volume ∧
    (tallyAll r s cs v).unused = v.unused + (cs.filter fun c => isUnused (s.cells c)).length ∧
    (tallyAll r s cs v).distillation = v.distillation + (cs.filter fun c => isDistilling r (s.cells c)).length ∧
    (tallyAll r s cs v).dead = v.dead + (cs.filter fun c => isDead (s.cells c)).length ∧
    (cs.filter fun c => isUnused (s.cells c)).length + (cs.filter fun c => isDistilling r (s.cells c)).length +
      (cs.filter fun c => isDead (s.cells c)).length + (cs.filter fun c => isActive r (s.cells c)).length = cs.length
  | [], v => by simp [tallyAll]
  | c :: cs, v => by
    obtain ⟨a1, a2, a3, a4, a5⟩ := tally_spec r v (s.cells c)
    obtain ⟨b1, b2, b3, b4, b5⟩ := tallyAll_spec r s cs (tally r v (s.cells c))
    have key : ∀ f : Cell → Bool, ((c :: cs).filter f).length = (f c).toNat + (cs.filter f).length := by
      intro f
      rw [List.filter_cons]
      cases f c <;> simp; omega
    simp only [tallyAll, key, List.length_cons]
    rw [b1, b2, b3, b4, a1, a2, a3, a4]
    refine ⟨rfl, ?_, ?_, ?_, ?_⟩ <;> omega

theorem holding_filter (s : DSlice) {P : Option DensePatch → Prop} {f : Option DensePatch → Bool} (h : ∀ o, f o = true ↔ P o) :
    Holding s P (s.allCells.filter fun c => f (s.cells c)).length := by
  refine ⟨_, (allCells_nodup s).sublist List.filter_sublist, rfl, fun c => ?_⟩
  rw [List.mem_filter, mem_allCells, h]

theorem isUnused_iff (o : Option DensePatch) : isUnused o = true ↔ Unused o := by
  cases o <;> simp [isUnused, Unused]

theorem isDistilling_iff (L : Layout) (o : Option DensePatch) : isDistilling L.magicReserved o = true ↔ Distilling L o := by
  cases o <;> simp [isDistilling, Distilling]

theorem isDead_iff (o : Option DensePatch) : isDead o = true ↔ Dead o := by
  cases o <;> simp [isDead, Dead]

theorem isActive_iff (L : Layout) (o : Option DensePatch) : isActive L.magicReserved o = true ↔ Active L o := by
  cases o <;> simp [isActive, Active, or_assoc]

namespace Spec

/-- C43: for a slice of the size of its layout (in the range of the integers used) the volume is the number of cells, and the
four reported categories count the cells that are unused, distilling, dead and active, every cell in exactly one of them. -/
theorem c43_slice {L : Layout} {s : DSlice} (hf : Router.Spec.Fits L s) (hsize : s.rows < 2 ^ 31 ∧ s.cols < 2 ^ 31 ∧ s.rows * s.cols < 2 ^ 31) :
    ∃ v, volumeCounts L s = .ok v ∧ v.volume = s.rows * s.cols ∧ Holding s Unused v.unused ∧ Holding s (Distilling L) v.distillation ∧
      Holding s Dead v.dead ∧ Holding s (Active L) v.other ∧ v.unused + v.distillation + v.dead + v.other = v.volume := by
  obtain ⟨_, _, h3, h4⟩ := hf
  obtain ⟨s1, s2, s3⟩ := hsize
  have hprod : (L.furthest.row + 1) * (L.furthest.col + 1) = ((s.rows * s.cols : Nat) : Int) := by
    rw [← h3, ← h4]; simp
  obtain ⟨a1, a2, a3, a4, a5⟩ := tallyAll_spec L.magicReserved s s.allCells { volume := s.rows * s.cols }
  rw [allCells_length] at a5
  refine ⟨tallyAll L.magicReserved s s.allCells { volume := s.rows * s.cols }, ?_, a1, ?_, ?_, ?_, ?_, ?_⟩
  · unfold volumeCounts
    dsimp only
    rw [hprod, ← h3, ← h4]
    have hw : ((((s.rows * s.cols : Nat) : Int) % (word : Int)).toNat) = s.rows * s.cols := by
      have : s.rows * s.cols < word := Nat.lt_of_lt_of_le s3 (by decide)
      rw [← Int.natCast_emod, Nat.mod_eq_of_lt this]; rfl
    rw [hw, if_pos]
    unfold intLimit
    refine ⟨?_, ?_, ?_⟩
    · omega
    · omega
    · exact_mod_cast s3
  · rw [a2]
    dsimp only
    rw [Nat.zero_add]
    exact holding_filter s isUnused_iff
  · rw [a3]
    dsimp only
    rw [Nat.zero_add]
    exact holding_filter s (isDistilling_iff L)
  · rw [a4]
    dsimp only
    rw [Nat.zero_add]
    exact holding_filter s isDead_iff
  · have : (tallyAll L.magicReserved s s.allCells { volume := s.rows * s.cols }).other =
        (s.allCells.filter fun c => isActive L.magicReserved (s.cells c)).length := by
      unfold Volume.other
      rw [a1, a2, a3, a4]
      dsimp only
      unfold word
      omega
    rw [this]
    exact holding_filter s (isActive_iff L)
  · unfold Volume.other
    rw [a1, a2, a3, a4]
    dsimp only
    unfold word
    omega

/-- The slice of the examples: an unused cell, a cell of a factory, a dead cell, a logical qubit. -/
private def exSlice : DSlice where
  rows := 2
  cols := 2
  cells := fun c =>
    if c = ⟨0, 1⟩ then some { type := .distillation, bounds := ⟨⟨.none, false⟩, ⟨.none, false⟩, ⟨.none, false⟩, ⟨.none, false⟩⟩, activity := .distillation, id := none }
    else if c = ⟨1, 0⟩ then some { type := .dead, bounds := ⟨⟨.none, false⟩, ⟨.none, false⟩, ⟨.none, false⟩, ⟨.none, false⟩⟩, activity := .none, id := none }
    else if c = ⟨1, 1⟩ then some { type := .qubit, bounds := ⟨⟨.none, false⟩, ⟨.none, false⟩, ⟨.none, false⟩, ⟨.none, false⟩⟩, activity := .none, id := some 3 }
    else none

private def exLayout : Layout := { core := [], furthest := ⟨1, 1⟩ }

/-- The hypotheses of `c43_slice` are met by a slice with one cell in each category. -/
example : Router.Spec.Fits exLayout exSlice ∧ exSlice.rows * exSlice.cols < 2 ^ 31 ∧
    volumeCounts exLayout exSlice = .ok ⟨4, 1, 1, 1⟩ ∧ (Volume.mk 4 1 1 1).other = 1 :=
  ⟨⟨by decide, by decide, by decide, by decide⟩, by decide, rfl, by decide⟩

/-- C43: as long as the total number of cells fits into `size_t`, the totals over any sequence of slices are the sums of the
counts of the slices, and so is the reported rest. -/
theorem c43_totals {L : Layout} {ss : List DSlice} (hf : ∀ s ∈ ss, Router.Spec.Fits L s)
    (hsize : ∀ s ∈ ss, s.rows < 2 ^ 31 ∧ s.cols < 2 ^ 31 ∧ s.rows * s.cols < 2 ^ 31) (htotal : (ss.map fun s => s.rows * s.cols).sum < 2 ^ 64) :
    ∃ (vs : List Volume) (v : Volume), totals L ss {} = .ok v ∧ vs.length = ss.length ∧ (∀ (i : Nat) s w, ss[i]? = some s → vs[i]? = some w → volumeCounts L s = .ok w) ∧
      v.volume = (vs.map (·.volume)).sum ∧ v.unused = (vs.map (·.unused)).sum ∧ v.distillation = (vs.map (·.distillation)).sum ∧
      v.dead = (vs.map (·.dead)).sum ∧ v.other = (vs.map (·.other)).sum := by
  have gen : ∀ (ss : List DSlice) (u : Volume), (∀ s ∈ ss, Router.Spec.Fits L s) →
      (∀ s ∈ ss, s.rows < 2 ^ 31 ∧ s.cols < 2 ^ 31 ∧ s.rows * s.cols < 2 ^ 31) → u.volume + (ss.map fun s => s.rows * s.cols).sum < 2 ^ 64 →
      u.unused + u.distillation + u.dead ≤ u.volume →
      ∃ (vs : List Volume) (v : Volume), totals L ss u = .ok v ∧ vs.length = ss.length ∧ (∀ (i : Nat) s w, ss[i]? = some s → vs[i]? = some w → volumeCounts L s = .ok w) ∧
        v.volume = u.volume + (vs.map (·.volume)).sum ∧ v.unused = u.unused + (vs.map (·.unused)).sum ∧
        v.distillation = u.distillation + (vs.map (·.distillation)).sum ∧ v.dead = u.dead + (vs.map (·.dead)).sum ∧
        v.other = u.other + (vs.map (·.other)).sum := by
    intro ss
    induction ss with
    | nil =>
      intro u _ _ _ _
      exact ⟨[], u, rfl, rfl, by simp, by simp, by simp, by simp, by simp, by simp⟩
    | cons s ss ih =>
      intro u hf hsize ht hu
      obtain ⟨w, e, hv, _, _, _, _, hsum⟩ := c43_slice (hf s (by simp)) (hsize s (by simp))
      simp only [List.map_cons, List.sum_cons] at ht
      have hadd : u.add w = ⟨u.volume + w.volume, u.unused + w.unused, u.distillation + w.distillation, u.dead + w.dead⟩ := by
        unfold Volume.add word
        rw [Nat.mod_eq_of_lt, Nat.mod_eq_of_lt, Nat.mod_eq_of_lt, Nat.mod_eq_of_lt] <;> omega
      obtain ⟨vs, v, g1, g2, g3, g4, g5, g6, g7, g8⟩ := ih (u.add w) (fun x hx => hf x (by simp [hx])) (fun x hx => hsize x (by simp [hx]))
        (by rw [hadd]; dsimp only; omega) (by rw [hadd]; dsimp only; omega)
      have hoth : (u.add w).other = u.other + w.other := by
        have : w.other = w.volume - w.unused - w.distillation - w.dead := by omega
        rw [this, hadd]
        unfold Volume.other word
        dsimp only
        omega
      rw [hoth] at g8
      rw [hadd] at g4 g5 g6 g7
      dsimp only at g4 g5 g6 g7
      refine ⟨w :: vs, v, by rw [totals, e, Outcome.bind_ok, g1], by simp [g2], ?_, ?_, ?_, ?_, ?_, ?_⟩
      · intro i x y hx hy
        cases i with
        | zero => simp at hx hy; subst hx; subst hy; exact e
        | succ i => simp at hx hy; exact g3 i x y hx hy
      all_goals simp only [List.map_cons, List.sum_cons]; omega
  obtain ⟨vs, v, g1, g2, g3, g4, g5, g6, g7, g8⟩ := gen ss {} hf hsize (by simpa using htotal) (by decide)
  refine ⟨vs, v, g1, g2, g3, ?_, ?_, ?_, ?_, ?_⟩
  · simpa using g4
  · simpa using g5
  · simpa using g6
  · simpa using g7
  · rw [g8]; simp [Volume.other]

/-- The hypotheses of `c43_totals` are met by showing the slice twice. -/
example : ([exSlice, exSlice].map fun s => s.rows * s.cols).sum < 2 ^ 64 ∧ totals exLayout [exSlice, exSlice] {} = .ok ⟨8, 2, 2, 2⟩ :=
  ⟨by decide, rfl⟩

end Spec

end Verif.Stats
