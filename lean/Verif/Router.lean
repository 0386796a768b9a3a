import Verif.Search
import Verif.Apply

/-!
# Routers (model)

Models `/repo/src/layout/graph_search/custom_graph_search.cpp`, `/repo/src/layout/router.cpp` and
`/repo/include/lsqecc/layout/router.hpp`.

Simplifications: the search based on Boost (`GraphSearchProvider::Boost`) is in `Boost.lean`; vertices and coordinates are
unbounded; the layout is a parameter of the router (in the code the slice refers to it); a
hash map is a function.
-/

namespace Verif.Router

open Search

/-- The members of `SliceSearchAdaptor` (custom_graph_search.cpp:186-194) and the flags of the search. -/
structure Query where
  layout : Layout
  slice : DSlice
  src : Cell
  tgt : Cell
  srcOp : Pauli
  tgtOp : Pauli
  cycle : Bool
  edpc : Bool

namespace Query

def width (q : Query) : Int := q.layout.furthest.col + 1

/-- custom_graph_search.cpp:154-157 `make_vertex`. -/
def vertex (q : Query) (c : Cell) : Nat := (c.row * q.width + c.col).toNat

/-- custom_graph_search.cpp:88-91 `num_vertices_on_lattice`; also the simulated source (line 80). -/
def size (q : Query) : Nat := q.vertex q.layout.furthest + 1

/-- custom_graph_search.cpp:160-172 `cell_from_vertex`. -/
def cellOf (q : Query) (v : Nat) : Cell :=
  if q.cycle = true ∧ v = q.size then q.tgt
  else ⟨((v : Int) - (v : Int) % q.width) / q.width, (v : Int) % q.width⟩

/-- custom_graph_search.cpp:174-182 `get_neighbours`. -/
def neighbours (q : Query) (c : Cell) : List Cell := c.neighboursIn ⟨0, 0⟩ q.layout.furthest

/-- May the search step on the cell? `is_cell_free`, or `is_cell_free_or_activity` with the EDPC activity. -/
def passes (q : Query) (c : Cell) : Outcome Bool :=
  if q.edpc then q.slice.isFreeOr c [.edpc] else q.slice.isFree c

/-- The first test of custom_graph_search.cpp:110-129 and 131-152. -/
def clear (q : Query) (a b : Cell) : Outcome Bool := do
  if ← q.passes a then
    if ← q.passes b then
      if q.edpc then do
        let r ← q.slice.boundaryReserved a b
        .ok !r
      else .ok true
    else .ok false
  else .ok false

/-- custom_graph_search.cpp:110-129 `have_directed_edge`, 131-152 `have_directed_edge_EDPC`. -/
def edge (q : Query) (a b : Cell) : Outcome Bool := do
  if ← q.clear a b then .ok true
  else if a = q.cellOf (q.vertex q.src) ∧ b = q.cellOf (q.vertex q.tgt) then
    if ← q.slice.haveBoundaryOfType q.src b q.srcOp then q.slice.haveBoundaryOfType q.tgt a q.tgtOp else .ok false
  else if ← (if a = q.cellOf (q.vertex q.src) then q.passes b else .ok false) then
    q.slice.haveBoundaryOfType q.src b q.srcOp
  else if ← q.passes a then
    if b = q.cellOf (q.vertex q.tgt) then q.slice.haveBoundaryOfType q.tgt a q.tgtOp else .ok false
  else .ok false

/-- The neighbours among `ns` there is an edge to. -/
def targets (q : Query) (c : Cell) : List Cell → Outcome (List Cell)
  | [] => .ok []
  | n :: ns => do
    let e ← q.edge c n
    let r ← q.targets c ns
    .ok (if e then n :: r else r)

/-- The graph searched (custom_graph_search.cpp:250-257). -/
def graph (q : Query) : Graph where
  total := if q.cycle then q.size + 1 else q.size
  next v := do
    let cs ← q.targets (q.cellOf v) (q.neighbours (q.cellOf v))
    .ok (cs.map q.vertex)

/-- custom_graph_search.cpp:213-215. -/
def blank : Nat → Node := fun i => ⟨none, i⟩

/-- custom_graph_search.cpp:231-238: every neighbour of the source is at distance one of the simulated source. -/
def seed (q : Query) : List Nat → State → Outcome State
  | [], st => .ok st
  | w :: ws, st =>
    if w < q.size + 1 then q.seed ws { pm := upd st.pm w ⟨some 1, q.size⟩, fr := st.fr ++ [w] } else .ub

/-- custom_graph_search.cpp:220-240. -/
def start (q : Query) : Outcome State :=
  if q.cycle then do
    let cs ← q.targets q.src (q.neighbours q.src)
    q.seed (cs.map q.vertex) { pm := upd blank q.size ⟨some 0, q.size⟩, fr := [] }
  else if q.vertex q.src < q.size then .ok { pm := upd blank (q.vertex q.src) ⟨some 0, q.vertex q.src⟩, fr := [q.vertex q.src] }
  else .ub

/-- The side of a route cell that joins it to its neighbours (custom_graph_search.cpp:312-314). -/
def joined (q : Query) : Boundary := if q.edpc then ⟨.reserved1, true⟩ else ⟨.connected, true⟩

/-- custom_graph_search.cpp:307-317: write `joined` on the sides towards `prec` and `next`. -/
def join (q : Query) (prec next : Cell) : List Cell → OccCell → OccCell
  | [], o => o
  | n :: ns, o =>
    q.join prec next ns (if prec = n ∨ next = n then (o.setBoundaryWith n fun _ => q.joined).getD o else o)

/-- custom_graph_search.cpp:295-317: one cell of the region. -/
def regionCell (q : Query) (t : Nat × Nat × Nat) : OccCell :=
  let c := q.cellOf t.2.1
  q.join (q.cellOf t.1) (q.cellOf t.2.2) (q.neighbours c) ⟨.all ⟨.none, false⟩, c⟩

/-- custom_graph_search.cpp:199-328. `stop` tells whether the heuristic search is used. -/
def run (q : Query) (pick : Pick) (stop : Bool) : Outcome (Option RoutingRegion) := do
  let st ← q.start
  let st ← loop q.graph pick (if stop then some (q.vertex q.tgt) else none) (q.size + 1) st
  if q.vertex q.tgt < q.graph.total then
    let r ← walk q.graph st.pm (q.size + 2) (q.vertex q.tgt) (st.pm (q.vertex q.tgt)).pred
    .ok (if r.2 = (if q.cycle then q.size else q.vertex q.src) then some { cells := r.1.map q.regionCell } else none)
  else .ub

end Query

/-- custom_graph_search.cpp:199-210 and 331-345: the route between two patches; `value()` throws for an unknown id. -/
def find (L : Layout) (pick : Pick) (stop edpc : Bool) (s : DSlice) (source : Nat) (srcOp : Pauli) (target : Nat) (tgtOp : Pauli) :
    Outcome (Option RoutingRegion) :=
  match s.cellById source, s.cellById target with
  | some a, some b => Query.run ⟨L, s, a, b, srcOp, tgtOp, source == target, edpc⟩ pick stop
  | _, _ => .throws

/-- router.hpp:36-67 and router.cpp:53-69 `CustomDPRouter`. -/
def dpRouter (L : Layout) (pick : Pick) (stop edpc : Bool) : RouterI Unit where
  find _ s source srcOp target tgtOp := do
    let r ← find L pick stop edpc s source srcOp target tgtOp
    .ok (r, ())
  edpc := edpc

/-- router.hpp:90-95 `PathIdentifier`. -/
structure Key where
  src : Cell
  srcOp : Pauli
  tgt : Cell
  tgtOp : Pauli
  deriving DecidableEq, Repr

/-- The routes stored so far, `cached_routes_`. -/
abbrev Cache := Key → Option RoutingRegion

/-- router.cpp:9-37 `CachedRouter::find_routing_ancilla`. -/
def cachedFind (L : Layout) (pick : Pick) (stop : Bool) (cache : Cache) (s : DSlice) (source : Nat) (srcOp : Pauli) (target : Nat) (tgtOp : Pauli) :
    Outcome (Option RoutingRegion × Cache) :=
  match s.cellById source, s.cellById target with
  | some a, some b =>
    match cache ⟨a, srcOp, b, tgtOp⟩ with
    | some r => .ok (some r, cache)
    | none => do
      match ← find L pick stop false s source srcOp target tgtOp with
      | none => .ok (none, cache)
      | some r => .ok (some r, upd cache ⟨a, srcOp, b, tgtOp⟩ (some r))
  | _, _ => .throws

/-- router.hpp:69-107 `CachedRouter`. -/
def cachedRouter (L : Layout) (pick : Pick) (stop : Bool) : RouterI Cache where
  find := cachedFind L pick stop
  edpc := false

/-- A queue that hands out the first vertex of least distance. -/
def minIndex (pm : Nat → Node) : List Nat → Nat
  | [] => 0
  | [_] => 0
  | x :: y :: l =>
    let i := minIndex pm (y :: l)
    match (y :: l)[i]? with
    | none => 0
    | some v => if ((pm x).dist.getD 0) ≤ ((pm v).dist.getD 0) then 0 else i + 1

def pickMin : Pick := fun _ pm fr => minIndex pm fr

end Verif.Router
