import Verif.Basic
import Verif.Slice

/-!
# The frontier search of the router (model)

Models lines 210-298 and 300-322 of `/repo/src/layout/graph_search/custom_graph_search.cpp`, apart from the lattice: the
vertices are numbers and `next v` lists the neighbours `have_directed_edge` lets the search step to, in the order in
which they are visited.

Simplifications:
* the order in which `std::priority_queue` hands out vertices is an arbitrary function `pick` of the number of
  remaining rounds, the predecessor map and the queued vertices, so what is proved holds for every heap, every
  comparator and every way of breaking ties;
* a search has a number of rounds `fuel`; running out of it with a non-empty queue is reported as `ub`, and
  `Search.loop_ok` shows that it does not happen with the number of rounds used;
* distances are natural numbers.
-/

namespace Verif.Search

/-- custom_graph_search.cpp:17-25 `PredecessorData`. -/
structure Node where
  dist : Option Nat
  pred : Nat
  deriving DecidableEq, Repr

/-- A graph to search; `total` is the length of `predecessor_map`. -/
structure Graph where
  total : Nat
  next : Nat → Outcome (List Nat)

/-- The predecessor map and the queue. -/
structure State where
  pm : Nat → Node
  fr : List Nat

abbrev Pick := Nat → (Nat → Node) → List Nat → Nat

/-- The vertex at place `i` of the queue and the rest; the first one if there is no such place. -/
def popAt : List Nat → Nat → Option (Nat × List Nat)
  | [], _ => none
  | x :: xs, i =>
    match (x :: xs)[i]? with
    | some v => some (v, (x :: xs).eraseIdx i)
    | none => some (x, xs)

/-- Lines 259-270 for one neighbour that can be stepped to. -/
def relax1 (g : Graph) (d curr w : Nat) (st : State) : Outcome State :=
  if w < g.total then
    match (st.pm w).dist with
    | none => .ok { pm := upd st.pm w ⟨some (d + 1), curr⟩, fr := st.fr ++ [w] }
    | some e => if e > d + 1 then .ok { st with pm := upd st.pm w ⟨some (d + 1), curr⟩ } else .ok st
  else .ub

def relax (g : Graph) (d curr : Nat) : List Nat → State → Outcome State
  | [], st => .ok st
  | w :: ws, st => do
    let st ← relax1 g d curr w st
    relax g d curr ws st

/-- Lines 242-272, the loop; `early` is the vertex at which the heuristic search stops. -/
def loop (g : Graph) (pick : Pick) (early : Option Nat) : Nat → State → Outcome State
  | 0, st => if st.fr = [] then .ok st else .ub
  | fuel + 1, st =>
    match popAt st.fr (pick fuel st.pm st.fr) with
    | none => .ok st
    | some (v, rest) =>
      match (st.pm v).dist with
      | none => .ub
      | some d =>
        if early = some v then .ok { st with fr := rest }
        else do
          let ns ← g.next v
          let st ← relax g d v ns { st with fr := rest }
          loop g pick early fuel st

/-- Lines 289-322: the vertices met from `curr` back to one that is its own predecessor, each with the vertex
before and after it, and the vertex reached. -/
def walk (g : Graph) (pm : Nat → Node) : Nat → Nat → Nat → Outcome (List (Nat × Nat × Nat) × Nat)
  | 0, _, _ => .ub
  | fuel + 1, prec, curr =>
    if curr < g.total then
      if curr = (pm curr).pred then .ok ([], curr)
      else do
        let r ← walk g pm fuel curr (pm curr).pred
        .ok ((prec, curr, (pm curr).pred) :: r.1, r.2)
    else .ub

end Verif.Search
