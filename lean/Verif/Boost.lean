import Verif.Router

/-!
# The search based on Boost (model)

Models `/repo/src/layout/graph_search/boost_based_graph_search.cpp` as built with `ENABLE_BOOST_GRAPH_SEARCH` (without it the
function throws, lines 160-169).

Of Boost is assumed: `adjacency_list` grows when an edge names a vertex it does not have; the weight of an edge given without
properties is zero; `dijkstra_shortest_paths` makes every vertex its own predecessor, and, as all weights are zero, sets the
predecessor of a vertex once, when it is first met. The order in which the queue hands out vertices of equal distance is an
arbitrary function `pick`.

Simplifications: vertices and coordinates are unbounded; a search has a number of rounds, and running out of them is reported
as `ub` (`Boost.explore_ok` shows that it does not happen).
-/

namespace Verif.Boost

open Search Router

/-- Lines 65-67 for an occupied cell. -/
def freeInto (q : Query) (c : Cell) : List Cell → Outcome (List (Nat × Nat))
  | [] => .ok []
  | n :: ns => do
    let f ← q.slice.isFree n
    let r ← freeInto q c ns
    .ok (if f then (q.vertex n, q.vertex c) :: r else r)

/-- Lines 58-70 for the given cells. -/
def fromFree (q : Query) : List Cell → Outcome (List (Nat × Nat))
  | [] => .ok []
  | c :: cs => do
    let f ← q.slice.isFree c
    let e ← if !f then freeInto q c (q.neighbours c) else .ok []
    let r ← fromFree q cs
    .ok (e ++ r)

/-- The cells of lines 58-62. -/
def lattice (q : Query) : List Cell :=
  (List.range (q.layout.furthest.row + 1).toNat).flatMap fun (r : Nat) => (List.range (q.layout.furthest.col + 1).toNat).map fun (c : Nat) => Cell.mk r c

/-- The neighbours among `ns` towards which the patch on `c` has a boundary for the operator (lines 74-79, 89-93). -/
def offered (q : Query) (c : Cell) (op : Pauli) : List Cell → Outcome (List Cell)
  | [] => .ok []
  | n :: ns => do
    let b ← q.slice.haveBoundaryOfType c n op
    let r ← offered q c op ns
    .ok (if b then n :: r else r)

/-- Lines 86-87. -/
def goal (q : Query) : Nat := if q.cycle then q.size else q.vertex q.tgt

/-- Lines 57-93. -/
def edges (q : Query) : Outcome (List (Nat × Nat)) := do
  let e ← fromFree q (lattice q)
  let s ← offered q q.src q.srcOp (q.neighbours q.src)
  let t ← offered q q.tgt q.tgtOp (q.neighbours q.tgt)
  .ok (e ++ s.map (fun n => (q.vertex q.src, q.vertex n)) ++ t.map (fun n => (q.vertex n, goal q)))

/-- Line 95: the number of vertices. -/
def total (q : Query) (e : List (Nat × Nat)) : Nat := e.foldl (fun n x => max n (max x.1 x.2 + 1)) q.size

/-- The predecessors of the vertices met, and the queue. -/
structure St where
  found : Nat → Option Nat
  fr : List Nat

abbrev Pick := Nat → (Nat → Option Nat) → List Nat → Nat

/-- Line 101: the edges out of one vertex. -/
def visit (v : Nat) : List Nat → St → St
  | [], st => st
  | w :: ws, st => visit v ws (match st.found w with | none => { found := upd st.found w (some v), fr := st.fr ++ [w] } | some _ => st)

/-- Line 101. -/
def explore (e : List (Nat × Nat)) (pick : Pick) : Nat → St → Outcome St
  | 0, st => if st.fr = [] then .ok st else .ub
  | fuel + 1, st =>
    match popAt st.fr (pick fuel st.found st.fr) with
    | none => .ok st
    | some (v, rest) => explore e pick fuel (visit v ((e.filter (fun x => x.1 == v)).map (·.2)) { st with fr := rest })

def pred (st : St) (v : Nat) : Nat := (st.found v).getD v

/-- Lines 95-155. -/
def run (q : Query) (pick : Pick) : Outcome (Option RoutingRegion) := do
  let e ← edges q
  let n := total q e
  if q.vertex q.src < n then do
    let st ← explore e pick (n + 1) { found := upd (fun _ => none) (q.vertex q.src) (some (q.vertex q.src)), fr := [q.vertex q.src] }
    if goal q < n then do
      let r ← walk ⟨n, fun _ => .ok []⟩ (fun v => ⟨none, pred st v⟩) (n + 2) (q.vertex q.tgt) (pred st (goal q))
      .ok (if r.2 = q.vertex q.src then some { cells := r.1.map q.regionCell } else none)
    else .ub
  else .ub

/-- Lines 19-156; the cell of an unknown id is read (lines 73, 82). -/
def find (L : Layout) (pick : Pick) (s : DSlice) (source : Nat) (srcOp : Pauli) (target : Nat) (tgtOp : Pauli) : Outcome (Option RoutingRegion) :=
  match s.cellById source, s.cellById target with
  | some a, some b => run ⟨L, s, a, b, srcOp, tgtOp, source == target, false⟩ pick
  | _, _ => .ub

/-- router.cpp:53-69 `CustomDPRouter` with the provider `Boost`; with EDPC it throws when it is set up (router.hpp:49-54). -/
def boostRouter (L : Layout) (pick : Pick) : RouterI Unit where
  find _ s source srcOp target tgtOp := do
    let r ← find L pick s source srcOp target tgtOp
    .ok (r, ())
  edpc := false

/-- router.cpp:9-37 `CachedRouter::find_routing_ancilla` with the provider `Boost` (router.hpp:85-87). Unlike Boost's search, it throws for an unknown id. -/
def storedFind (L : Layout) (pick : Pick) (cache : Cache) (s : DSlice) (source : Nat) (srcOp : Pauli) (target : Nat) (tgtOp : Pauli) :
    Outcome (Option RoutingRegion × Cache) :=
  match s.cellById source, s.cellById target with
  | some a, some b =>
    match cache ⟨a, srcOp, b, tgtOp⟩ with
    | some r => .ok (some r, cache)
    | none => do
      match ← find L pick s source srcOp target tgtOp with
      | none => .ok (none, cache)
      | some r => .ok (some r, upd cache ⟨a, srcOp, b, tgtOp⟩ (some r))
  | _, _ => .throws

/-- router.hpp:69-107 `CachedRouter` with the provider `Boost`. -/
def storedRouter (L : Layout) (pick : Pick) : RouterI Cache where
  find := storedFind L pick
  edpc := false

end Verif.Boost
