import Mathlib.Data.Nat.Sqrt
import Verif.Lstk
import Verif.Slice

/-!
# Layouts (model)

Models `/repo/src/layout/ascii_layout_spec.cpp`, `/repo/include/lsqecc/layout/ascii_layout_spec.hpp` and the generators
`/repo/src/layout/dynamic_layouts/compact_layout.cpp` and `edpc_layout.cpp`.

Simplified: sizes and coordinates are unbounded numbers, so nothing overflows `int32_t` coordinates;
square roots and halves computed through `double` are exact (they are for fewer than 2^52 qubits). Reading or writing a grid
outside its bounds is undefined behaviour, with `at` it throws.
-/

namespace Verif.Layouts

/-- ascii_layout_spec.hpp:17-36 `CellType`. -/
inductive CellType where
  | routing | qubit | rotated | dynamic | ancilla | distillation (n : Fin 10) | magic | dead | ystate
  deriving DecidableEq, Repr

/-- ascii_layout_spec.hpp:51-77 `cell_type_from_char`. -/
def ofChar : Char → Outcome CellType
  | 'r' => .ok .routing
  | 'Q' => .ok .qubit
  | 'T' => .ok .rotated
  | 'D' => .ok .dynamic
  | 'A' => .ok .ancilla
  | 'M' => .ok .magic
  | 'X' => .ok .dead
  | 'Y' => .ok .ystate
  | '0' => .ok (.distillation 0)
  | '1' => .ok (.distillation 1)
  | '2' => .ok (.distillation 2)
  | '3' => .ok (.distillation 3)
  | '4' => .ok (.distillation 4)
  | '5' => .ok (.distillation 5)
  | '6' => .ok (.distillation 6)
  | '7' => .ok (.distillation 7)
  | '8' => .ok (.distillation 8)
  | '9' => .ok (.distillation 9)
  | _ => .throws

/-- The character an enumerator stands for, ascii_layout_spec.hpp:17-36. -/
def toChar : CellType → Char
  | .routing => 'r'
  | .qubit => 'Q'
  | .rotated => 'T'
  | .dynamic => 'D'
  | .ancilla => 'A'
  | .magic => 'M'
  | .dead => 'X'
  | .ystate => 'Y'
  | .distillation 0 => '0'
  | .distillation 1 => '1'
  | .distillation 2 => '2'
  | .distillation 3 => '3'
  | .distillation 4 => '4'
  | .distillation 5 => '5'
  | .distillation 6 => '6'
  | .distillation 7 => '7'
  | .distillation 8 => '8'
  | .distillation 9 => '9'

/-- ascii_layout_spec.hpp:79-80 `CellGrid`: rows of possibly different lengths. -/
abbrev Grid := List (List CellType)

/-- ascii_layout_spec.cpp:25-29: the characters of a row. -/
def parseRow : Str → Outcome (List CellType)
  | [] => .ok []
  | c :: cs => do
    let t ← ofChar c
    let ts ← parseRow cs
    .ok (t :: ts)

/-- ascii_layout_spec.cpp:20-30: the rows; empty ones are skipped. -/
def parseRows : List Str → Outcome Grid
  | [] => .ok []
  | l :: ls =>
    if l.length = 0 then parseRows ls
    else do
      let r ← parseRow l
      let rs ← parseRows ls
      .ok (r :: rs)

/-- ascii_layout_spec.cpp:18-32 `parse_grid`. -/
def parseGrid (input : Str) : Outcome Grid := parseRows (splitOn input '\n')

/-- ascii_layout_spec.cpp:104-112 `operator<<`. -/
def printGrid (g : Grid) : Str := g.flatMap fun r => r.map toChar ++ ['\n']

/-- ascii_layout_spec.cpp:60-71 `furthest_cell`. -/
def furthest (g : Grid) : Outcome Cell :=
  match g with
  | [] => .throws
  | r :: rs =>
    if (r :: rs).any (fun x => r.length != x.length) then .throws
    else if r.length = 0 then .throws
    else .ok ⟨(r :: rs).length - 1, r.length - 1⟩

/-- `grid_spec_[c.row][c.col]`. -/
def gridAt (g : Grid) (c : Cell) : Outcome CellType :=
  if 0 ≤ c.row ∧ 0 ≤ c.col then
    match g[c.row.toNat]? with
    | none => .ub
    | some r =>
      match r[c.col.toNat]? with
      | none => .ub
      | some t => .ok t
  else .ub

/-- ascii_layout_spec.cpp:97-99: the wanted cells of one row, the next column being `col`. -/
def findRow (t : CellType) (row : Nat) : Nat → List CellType → List Cell
  | _, [] => []
  | col, x :: xs => if x = t then ⟨row, col⟩ :: findRow t row (col + 1) xs else findRow t row (col + 1) xs

/-- ascii_layout_spec.cpp:96-101: the wanted cells of the rows, the next row being `row`. -/
def findRows (t : CellType) : Nat → Grid → List Cell
  | _, [] => []
  | row, r :: rs => findRow t row 0 r ++ findRows t (row + 1) rs

/-- ascii_layout_spec.cpp:92-102 `find_all_cells_of_type`. -/
def findAll (g : Grid) (t : CellType) : List Cell := findRows t 0 g

/-- ascii_layout_spec.cpp:85-87: the first wanted cell of one row. -/
def firstRow (t : CellType) (row : Nat) : Nat → List CellType → Option Cell
  | _, [] => none
  | col, x :: xs => if x = t then some ⟨row, col⟩ else firstRow t row (col + 1) xs

/-- ascii_layout_spec.cpp:84-89: the first wanted cell of the rows. -/
def firstRows (t : CellType) : Nat → Grid → Option Cell
  | _, [] => none
  | row, r :: rs =>
    match firstRow t row 0 r with
    | some c => some c
    | none => firstRows t (row + 1) rs

/-- ascii_layout_spec.cpp:82-90 `find_a_cell_of_type`. -/
def findFirst (g : Grid) (t : CellType) : Option Cell := firstRows t 0 g

/-- ascii_layout_spec.cpp:46-53: the neighbours of a cell joining the frontier. -/
def pushSame (g : Grid) (t : CellType) (found : List Cell) : List Cell → List Cell → Outcome (List Cell)
  | [], fr => .ok fr
  | n :: ns, fr => do
    let k ← gridAt g n
    if k = t ∧ n ∉ fr ∧ n ∉ found then pushSame g t found ns (fr ++ [n]) else pushSame g t found ns fr

/-- ascii_layout_spec.cpp:41-55, at most `fuel` rounds. Running out of fuel stands for not terminating; `component_spec`
shows that it does not happen. -/
def grow (g : Grid) (t : CellType) : (fuel : Nat) → (fr found : List Cell) → Outcome (List Cell)
  | _, [], found => .ok found
  | 0, _ :: _, _ => .ub
  | k + 1, c :: fr, found => do
    let f ← furthest g
    let fr' ← pushSame g t (found ++ [c]) (c.neighboursIn ⟨0, 0⟩ f) fr
    grow g t k fr' (found ++ [c])

/-- ascii_layout_spec.cpp:34-58 `connected_component`. -/
def component (g : Grid) (start : Cell) : Outcome (List Cell) := do
  let t ← gridAt g start
  grow g t (g.map List.length).sum [start] []

/-- layout.hpp:36-39 `DistillationOptions`. -/
structure Options where
  staggered : Bool := true
  time : Nat := 10
  deriving Repr

/-- ascii_layout_spec.cpp:166-169: the sides of a cell of a distillation region. Dereferencing the empty optional would be
undefined. -/
def frame (region : List Cell) : List Cell → OccCell → Outcome OccCell
  | [], o => .ok o
  | n :: ns, o =>
    match o.setBoundaryWith n fun b => { b with ty := if n ∈ region then .none else .smooth } with
    | none => .ub
    | some o' => frame region ns o'

/-- ascii_layout_spec.cpp:177-183: the routing cells among the neighbours of a cell. -/
def queueOf (g : Grid) : List Cell → Outcome (List Cell)
  | [] => .ok []
  | n :: ns => do
    let k ← gridAt g n
    let q ← queueOf g ns
    .ok (if k = .routing then n :: q else q)

/-- ascii_layout_spec.cpp:161-185: all cells of a region, and the region's queue. -/
def outline (g : Grid) (far : Cell) (region : List Cell) : List Cell → Outcome (List OccCell × List Cell)
  | [] => .ok ([], [])
  | c :: cs => do
    let o ← frame region c.neighbours (distillationCell c)
    let q ← queueOf g (c.neighboursIn ⟨0, 0⟩ far)
    let r ← outline g far region cs
    .ok (o :: r.1, q ++ r.2)

/-- The region part of the cache, ascii_layout_spec.hpp:136-149. -/
structure Regions where
  regions : List (List OccCell) := []
  distilled : List (List Cell) := []
  times : List Nat := []
  deriving Repr

/-- ascii_layout_spec.cpp:151-190: the region of one cell, unless it is in a region already. -/
def addRegion (g : Grid) (far : Cell) (o : Options) (k : Regions) (c : Cell) : Outcome Regions :=
  if k.regions.any fun r => r.any fun x => x.cell = c then .ok k
  else do
    let cs ← component g c
    let r ← outline g far cs cs
    let regions := k.regions ++ [r.1]
    .ok ⟨regions, k.distilled ++ [r.2], k.times ++ [(o.time + if o.staggered then regions.length - 1 else 0) % 2 ^ 32]⟩

def addRegions (g : Grid) (far : Cell) (o : Options) : List Cell → Regions → Outcome Regions
  | [], k => .ok k
  | c :: cs, k => do
    let k' ← addRegion g far o k c
    addRegions g far o cs k'

/-- ascii_layout_spec.cpp:141-192: the regions of each kind; reserved magic state cells exclude factories. -/
def addKinds (g : Grid) (far : Cell) (o : Options) (magicReserved : Bool) : List (Fin 10) → Regions → Outcome Regions
  | [], k => .ok k
  | d :: ds, k =>
    if findAll g (.distillation d) ≠ [] ∧ magicReserved = true then .throws
    else do
      let k' ← addRegions g far o (findAll g (.distillation d)) k
      addKinds g far o magicReserved ds k'

/-- ascii_layout_spec.cpp:134-207 `init_cache`, also the constructors of `LayoutFromSpec` from a grid. -/
def fromGrid (g : Grid) (o : Options) : Outcome Layout := do
  let far ← furthest g
  let reserved := findAll g .magic
  let magicReserved := decide (reserved ≠ [])
  let k ← addKinds g far o magicReserved [0, 1, 2, 3, 4, 5, 6, 7, 8, 9] {}
  .ok { core := (findAll g .qubit).map fun c => basicSquare c none none
        furthest := far
        regions := k.regions
        distilled := k.distilled
        times := k.times ++ List.replicate reserved.length (o.time % 2 ^ 32)
        ancilla := findAll g .ancilla
        dead := findAll g .dead
        reserved := reserved
        predistilled := findAll g .ystate
        magicReserved := magicReserved }

/-- ascii_layout_spec.hpp:107-110: `LayoutFromSpec` from a text. -/
def fromText (s : Str) (o : Options) : Outcome Layout := do
  let g ← parseGrid s
  fromGrid g o

/-! ## Generated grids -/

/-- A rectangular grid while it is being filled in. -/
structure Table where
  rows : Nat
  cols : Nat
  at' : Nat → Nat → CellType

namespace Table

/-- `CellGrid grid{rows, CellRow{cols, RoutingAncilla}}`. -/
def fresh (rows cols : Nat) : Table := ⟨rows, cols, fun _ _ => .routing⟩

def write (t : Table) (i j : Nat) (v : CellType) : Table := { t with at' := fun a b => if a = i ∧ b = j then v else t.at' a b }

/-- `grid[i][j] = v`. -/
def put (t : Table) (i j : Nat) (v : CellType) : Outcome Table := if i < t.rows ∧ j < t.cols then .ok (t.write i j v) else .ub

/-- `grid.at(i).at(j) = v`. -/
def putAt (t : Table) (i j : Nat) (v : CellType) : Outcome Table := if i < t.rows ∧ j < t.cols then .ok (t.write i j v) else .throws

/-- `grid[i][j]`. -/
def get (t : Table) (i j : Nat) : Outcome CellType := if i < t.rows ∧ j < t.cols then .ok (t.at' i j) else .ub

def filled (t : Table) (i j n : Nat) (v : CellType) : Table :=
  { t with at' := fun a b => if a = i ∧ j ≤ b ∧ b < j + n then v else t.at' a b }

/-- `std::fill_n(grid.at(i).begin() + j, n, v)`. -/
def fill (t : Table) (i j n : Nat) (v : CellType) : Outcome Table :=
  if i < t.rows then
    if j + n ≤ t.cols then .ok (t.filled i j n v) else .ub
  else .throws

/-- The finished grid. -/
def toGrid (t : Table) : Grid := (List.range t.rows).map fun i => (List.range t.cols).map fun j => t.at' i j

end Table

/-- compact_layout.cpp:11-40. -/
def compactTable (n : Nat) (noClogging : Bool) : Outcome Table := do
  let dist := if noClogging then 0 else 5
  let core := (n + 1) / 2
  let t := Table.fresh 3 (core + (3 + dist))
  let t ← t.fill 0 0 core .qubit
  let t ← t.fill 2 0 (n - core) .qubit
  let t ← t.putAt 0 (core + 1) .ancilla
  if noClogging then t.putAt 1 (core + 2) .magic
  else do
    let t ← t.putAt 2 (core + 1) .ancilla
    let t ← t.fill 0 (core + 3) dist (.distillation 0)
    let t ← t.fill 1 (core + 3) dist (.distillation 0)
    t.fill 2 (core + 3) dist (.distillation 0)

/-- compact_layout.cpp:9-43 `make_compact_layout`. -/
def makeCompact (n : Nat) (o : Options) (noClogging : Bool) : Outcome Layout := do
  let t ← compactTable n noClogging
  fromGrid t.toGrid o

/-- `static_cast<size_t>(std::ceil(sqrt(n)))`. -/
def ceilSqrt (n : Nat) : Nat := if n.sqrt * n.sqrt = n then n.sqrt else n.sqrt + 1

/-- The value of an expression of type `size_t`. -/
def wrap (x : Int) : Nat := (x % 2 ^ 64).toNat

/-- edpc_layout.cpp:24-30: the side of the square core, with wrap-around when there are no qubits. -/
def coreSide (n lanes : Nat) (condensed : Bool) : Nat :=
  let sr := ceilSqrt n
  wrap (sr + lanes * ((sr : Int) - 1) + 2 * lanes + 2) - if condensed then lanes * (sr / 2) else 0

/-- The variables of the loops in edpc_layout.cpp:43-47. -/
structure Place where
  table : Table
  placed : Nat := 0
  shiftV : Bool := false
  shiftH : Bool := false
  rowsLost : Nat := 0
  rowLost : Bool := false
  colsLost : Nat := 0

/-- edpc_layout.cpp:54, 55: is position `x` on the lattice of patches? -/
def onLattice (x t lanes : Nat) (shift : Bool) (lost : Nat) : Bool :=
  let sh := if shift then 1 else 0
  wrap ((x : Int) - t - ((1 - sh) * lost + sh) * (lanes + 1 + (1 - sh))) % (lanes + 1 + sh) = 0

/-- The bound in edpc_layout.cpp:64, 70, 77, …: `size - t - (lanes+1) - 1`. -/
def lastPair (size t lanes : Nat) : Nat := wrap ((size : Int) - t - (lanes + 1) - 1)

/-- edpc_layout.cpp:62-78: pairs of resource state cells of the condensed layout. -/
def pairY (lanes t i j : Nat) (s : Place) : Outcome Place := do
  let s ← if t < j ∧ j < lastPair s.table.cols t lanes then do
      let tb ← s.table.put i (j + 1) .ystate
      .ok { s with table := tb, shiftH := true, colsLost := s.colsLost + 1 }
    else .ok s
  let s ← if t < i ∧ i < lastPair s.table.rows t lanes then do
      let tb ← s.table.put (i + 1) j .ystate
      .ok { s with table := tb, shiftV := true, rowLost := true }
    else .ok s
  .ok (if lastPair s.table.cols t lanes ≤ j then { s with shiftH := false } else s)

/-- edpc_layout.cpp:110, 111, 116, 117: leaving a group of patches. -/
def endPair (lanes t i j : Nat) (s : Place) : Place :=
  let s := if lastPair s.table.cols t lanes ≤ j then { s with shiftH := false } else s
  if lastPair s.table.rows t lanes ≤ i then { s with shiftV := false } else s

/-- edpc_layout.cpp:87-112: blocks of four patches of the condensed layout. -/
def pairQ (n lanes t i j : Nat) (s : Place) : Outcome Place := do
  let s ← if s.placed < n ∧ j < lastPair s.table.cols t lanes then do
      let tb ← s.table.put i (j + 1) .qubit
      .ok { s with table := tb, placed := s.placed + 1, shiftH := true, colsLost := s.colsLost + 1 }
    else .ok s
  let s ← if s.placed < n ∧ i < lastPair s.table.rows t lanes then do
      let tb ← s.table.put (i + 1) j .qubit
      .ok { s with table := tb, placed := s.placed + 1, shiftV := true, rowLost := true }
    else .ok s
  let s ← if s.placed < n ∧ j < lastPair s.table.cols t lanes ∧ i < lastPair s.table.rows t lanes then do
      let tb ← s.table.put (i + 1) (j + 1) .qubit
      .ok { s with table := tb, placed := s.placed + 1 }
    else .ok s
  .ok (endPair lanes t i j s)

/-- edpc_layout.cpp:53-120: one position. -/
def placeCell (n lanes t : Nat) (condensed : Bool) (i j : Nat) (s : Place) : Outcome Place :=
  if onLattice i t lanes s.shiftV s.rowsLost && onLattice j t lanes s.shiftH s.colsLost then
    if i = t ∨ j = t ∨ i = s.table.rows - t - 1 ∨ j = s.table.cols - t - 1 then do
      let tb ← s.table.put i j .ystate
      if condensed then pairY lanes t i j { s with table := tb } else .ok { s with table := tb }
    else if s.placed < n then do
      let tb ← s.table.put i j .qubit
      let s := { s with table := tb, placed := s.placed + 1 }
      if condensed then pairQ n lanes t i j s else .ok s
    else .ok (endPair lanes t i j s)
  else .ok s

/-- edpc_layout.cpp:51-121: the positions of a row. -/
def placeRow (n lanes t : Nat) (condensed : Bool) (i : Nat) : List Nat → Place → Outcome Place
  | [], s => .ok s
  | j :: js, s => do
    let s ← placeCell n lanes t condensed i j s
    placeRow n lanes t condensed i js s

/-- edpc_layout.cpp:47-123: the rows. -/
def placeRows (n lanes t : Nat) (condensed : Bool) (cols : List Nat) : List Nat → Place → Outcome Place
  | [], s => .ok s
  | i :: is, s => do
    let s ← placeRow n lanes t condensed i cols { s with rowLost := false, colsLost := 0 }
    placeRows n lanes t condensed cols is { s with rowsLost := s.rowsLost + if s.rowLost then 1 else 0 }

def putAll (v : CellType) : List (Nat × Nat) → Table → Outcome Table
  | [], tb => .ok tb
  | p :: ps, tb => do
    let tb ← tb.put p.1 p.2 v
    putAll v ps tb

/-- The positions of a block of `r` rows from `i` and `c` columns from `j`. -/
def block (i r j c : Nat) : List (Nat × Nat) := (List.range' i r).flatMap fun k => (List.range' j c).map fun l => (k, l)

/-- edpc_layout.cpp:129-149, 156-176, 183-203, 210-230: one position of an edge; every second resource cell is for magic
states. -/
def edgeCell (explicit predistilled : Bool) (blk : Nat × Nat → List (Nat × Nat)) (p : Nat × Nat) (tb : Table) (count : Nat) :
    Outcome (Table × Nat) := do
  let v ← tb.get p.1 p.2
  if v = .ystate then
    if (count + 1) % 2 = 0 then do
      let tb ← tb.put p.1 p.2 (if explicit then .routing else .magic)
      let tb ← putAll (.distillation 0) (blk p) tb
      .ok (tb, count + 1)
    else if !predistilled then do
      let tb ← tb.put p.1 p.2 (if explicit then .routing else .magic)
      .ok (tb, count + 1)
    else .ok (tb, count + 1)
  else .ok (tb, count)

/-- edpc_layout.cpp:128-150, 155-177, 182-204, 209-231: an edge. -/
def edge (explicit predistilled : Bool) (blk : Nat × Nat → List (Nat × Nat)) : List (Nat × Nat) → Table → Nat → Outcome Table
  | [], tb, _ => .ok tb
  | p :: ps, tb, k => do
    let r ← edgeCell explicit predistilled blk p tb k
    edge explicit predistilled blk ps r.1 r.2

/-- edpc_layout.cpp:233-243: routing cells outside the core become dead cells. -/
def bury (t : Nat) (tb : Table) : Table :=
  { tb with at' := fun i j =>
      if t ≤ i ∧ i < tb.rows - t ∧ t ≤ j ∧ j < tb.cols - t then tb.at' i j
      else if tb.at' i j = .routing then .dead else tb.at' i j }

/-- edpc_layout.cpp:12-243. -/
def edpcTable (n lanes : Nat) (condensed explicit predistilled : Bool) : Outcome Table := do
  let t := if explicit then 5 else 0
  let core := coreSide n lanes condensed
  let size := core + 2 * t
  let span := List.range' t core
  let s ← placeRows n lanes t condensed span span { table := Table.fresh size size }
  let e := edge explicit predistilled
  let low := size - t - 1
  let tb ← e (fun p => block (p.1 - t) t (p.2 - 1) 3) (span.map fun j => (t, j)) s.table 0
  let tb ← e (fun p => block (p.1 + 1) t (p.2 - 1) 3) (span.map fun j => (low, j)) tb 0
  let tb ← e (fun p => block (p.1 - 1) 3 (p.2 - t) t) (span.map fun i => (i, t)) tb 0
  let tb ← e (fun p => block (p.1 - 1) 3 (p.2 + 1) t) (span.map fun i => (i, low)) tb 0
  .ok (bury t tb)

/-- edpc_layout.cpp:10-258 `make_edpc_layout`. -/
def makeEdpc (n lanes : Nat) (condensed explicit predistilled : Bool) (o : Options) : Outcome Layout := do
  let tb ← edpcTable n lanes condensed explicit predistilled
  fromGrid tb.toGrid o

end Verif.Layouts
