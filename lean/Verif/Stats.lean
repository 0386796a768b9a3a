import Verif.Slice

/-!
# Volume statistics (src/patches/slice_stats.cpp, include/lsqecc/patches/slice_stats.hpp)

`size_t` numbers are natural numbers below 2^64. The product of the sides is computed in 32-bit integers (patches.hpp:41), whose
overflow is undefined. Percentages (floating point) are not modelled.
-/

namespace Verif.Stats

/-- slice_stats.hpp:13-19 `VolumeCounts`. -/
structure Volume where
  volume : Nat := 0
  unused : Nat := 0
  distillation : Nat := 0
  dead : Nat := 0
  deriving DecidableEq, Repr

/-- The range of `size_t`. -/
def word : Nat := 2 ^ 64

/-- slice_stats.cpp:28-35 `operator+=`. -/
def Volume.add (a b : Volume) : Volume :=
  ⟨(a.volume + b.volume) % word, (a.unused + b.unused) % word, (a.distillation + b.distillation) % word, (a.dead + b.dead) % word⟩

/-- slice_stats.cpp:45-55: one cell. -/
def tally (reserved : Bool) (v : Volume) : Option DensePatch → Volume
  | none => { v with unused := v.unused + 1 }
  | some p =>
    if p.type = .distillation then { v with distillation := v.distillation + 1 }
    else if reserved && decide (p.type = .preparedState) then { v with distillation := v.distillation + 1 }
    else if p.type = .dead then { v with dead := v.dead + 1 }
    else v

/-- slice_stats.cpp:41-57: all cells. -/
def tallyAll (reserved : Bool) (s : DSlice) : List Cell → Volume → Volume
  | [], v => v
  | c :: cs, v => tallyAll reserved s cs (tally reserved v (s.cells c))

/-- The largest 32-bit integer plus one. -/
def intLimit : Int := 2 ^ 31

/-- slice_stats.cpp:37-59 `compute_volume_counts`. -/
def volumeCounts (L : Layout) (s : DSlice) : Outcome Volume :=
  let a := L.furthest.row + 1
  let b := L.furthest.col + 1
  if a < intLimit ∧ b < intLimit ∧ a * b < intLimit then
    .ok (tallyAll L.magicReserved s s.allCells { volume := ((a * b) % (word : Int)).toNat })
  else .ub

/-- slice_stats.cpp:20: what is left, computed in `size_t`. -/
def Volume.other (v : Volume) : Nat := (v.volume + 3 * word - v.unused - v.distillation - v.dead) % word

/-- slicer.cpp:624-632: the totals over the slices handed to the visitor. -/
def totals (L : Layout) : List DSlice → Volume → Outcome Volume
  | [], v => .ok v
  | s :: ss, v => do
    let w ← volumeCounts L s
    totals L ss (v.add w)

end Verif.Stats
