import Verif.Basic

/-!
# `DirectedGraph` (model)

Models `/repo/src/dag/directed_graph.cpp` and `/repo/include/lsqecc/dag/directed_graph.hpp`.

`edges_` and `back_edges_` are `tsl::ordered_map<label_t, ordered_set<label_t>>`
with identical key sequences (always inserted and erased together), modelled as
one insertion-ordered key list `nodes` and two lookup functions. `label_t` is
`size_t`, modelled by `Nat` (labels are only compared and stored).
-/

namespace Verif.Dag

scoped notation "Label" => Nat

/-- directed_graph.hpp:53-58. -/
structure Graph where
  nodes : List Label
  succ : Label → List Label
  pred : Label → List Label

/-- Default-constructed graph. -/
def Graph.empty : Graph := ⟨[], fun _ => [], fun _ => []⟩

/-- directed_graph.cpp:8-15 `add_node`. -/
def Graph.addNode (g : Graph) (l : Label) : Graph :=
  if l ∈ g.nodes then g
  else { nodes := g.nodes ++ [l], succ := upd g.succ l [], pred := upd g.pred l [] }

/-- directed_graph.cpp:17-23 `add_edge`. -/
def Graph.addEdge (g : Graph) (frm to : Label) : Graph :=
  let g1 := (g.addNode to).addNode frm
  { g1 with succ := upd g1.succ frm (oset (g1.succ frm) to),
            pred := upd g1.pred to (oset (g1.pred to) frm) }

/-- directed_graph.cpp:25-35 `remove_edge`. Erasing the result of `std::find` is
undefined when the element is absent (erase of `end()`). -/
def Graph.removeEdge (g : Graph) (frm to : Label) : Outcome Graph :=
  if frm ∉ g.nodes then .throws
  else if to ∉ g.nodes then .throws
  else if to ∉ g.succ frm then .ub
  else if frm ∉ g.pred to then .ub
  else .ok { g with succ := upd g.succ frm ((g.succ frm).erase to),
                    pred := upd g.pred to ((g.pred to).erase frm) }

/-- The two loops of `remove_node` and `expand`: `remove_edge(target, to)` for each `to`. -/
def Graph.removeOut (g : Graph) (t : Label) : List Label → Outcome Graph
  | [] => .ok g
  | to :: rest => do
      let g ← g.removeEdge t to
      g.removeOut t rest

/-- `remove_edge(from, target)` for each `from`. -/
def Graph.removeIn (g : Graph) (t : Label) : List Label → Outcome Graph
  | [] => .ok g
  | f :: rest => do
      let g ← g.removeEdge f t
      g.removeIn t rest

/-- Erasing a key from both maps (directed_graph.cpp:48-49); entries of absent keys are unreachable. -/
def Graph.eraseNode (g : Graph) (t : Label) : Graph :=
  { g with nodes := g.nodes.erase t }

/-- directed_graph.cpp:37-50 `remove_node`. The C++ loops iterate over the very
sets that `remove_edge` erases from; this definition gives the behaviour of the
loop over the set as it was on entry, which is what the libstdc++ container does
(see `removeNodeStrict` for the standard's reading). -/
def Graph.removeNode (g : Graph) (t : Label) : Outcome Graph :=
  if t ∉ g.nodes then .throws
  else do
    let g ← g.removeOut t (g.succ t)
    let g ← g.removeIn t (g.pred t)
    .ok (g.eraseNode t)

/-- `remove_node` read strictly: erasing an element invalidates the iterator of
the enclosing range-for (directed_graph.cpp:42-46), so any incident edge is undefined behaviour. -/
def Graph.removeNodeStrict (g : Graph) (t : Label) : Outcome Graph :=
  if t ∉ g.nodes then .throws
  else if g.succ t ≠ [] ∨ g.pred t ≠ [] then .ub
  else .ok (g.eraseNode t)

/-- directed_graph.cpp:92-93: chain the replacement labels. -/
def Graph.addChain (g : Graph) : List Label → Graph
  | a :: b :: rest => (g.addEdge a b).addChain (b :: rest)
  | _ => g

/-- `add_edge(x, to)` for each `to` (directed_graph.cpp:100-101). -/
def Graph.addOut (g : Graph) (x : Label) : List Label → Graph
  | [] => g
  | to :: rest => (g.addEdge x to).addOut x rest

/-- `add_edge(from, x)` for each `from` (directed_graph.cpp:108-109). -/
def Graph.addIn (g : Graph) (x : Label) : List Label → Graph
  | [] => g
  | f :: rest => (g.addEdge f x).addIn x rest

/-- directed_graph.cpp:76-112 `expand`. -/
def Graph.expand (g : Graph) (t : Label) (r : List Label) : Outcome Graph :=
  if t ∉ g.nodes then .throws
  else match r with
    | [] => .throws
    | r0 :: rs =>
      if (r0 :: rs).any (fun l => decide (l ∈ g.nodes)) then .throws
      else do
        let g := (g.addNode r0).addChain (r0 :: rs)
        let fwd := g.succ t
        let g ← g.removeOut t fwd
        let g := g.addOut ((r0 :: rs).getLast (by simp)) fwd
        let bwd := g.pred t
        let g ← g.removeIn t bwd
        let g := g.addIn r0 bwd
        g.removeNode t

/-- directed_graph.cpp:114-123 `heads`: nodes without predecessors, in key order. -/
def Graph.heads (g : Graph) : List Label := g.nodes.filter (fun l => (g.pred l).length = 0)

/-- directed_graph.cpp:125-134 `tails`. -/
def Graph.tails (g : Graph) : List Label := g.nodes.filter (fun l => (g.succ l).length = 0)

/-- directed_graph.cpp:53-62 `successors`. -/
def Graph.successors (g : Graph) (l : Label) : Outcome (List Label) :=
  if l ∈ g.nodes then .ok (g.succ l) else .throws

/-- directed_graph.cpp:65-74 `predecessors`. -/
def Graph.predecessors (g : Graph) (l : Label) : Outcome (List Label) :=
  if l ∈ g.nodes then .ok (g.pred l) else .throws

/-- directed_graph.cpp:142-152 `topological_order_helper`. State = (visited, order).
`none` = recursion deeper than the fuel (shown impossible for the fuel used below). -/
def Graph.topoHelper (g : Graph) : Nat → List Label × List Label → Label → Option (List Label × List Label)
  | 0, _, _ => none
  | n + 1, (v, o), cur =>
    if cur ∈ v then some (v, o)
    else do
      let (v, o) ← (g.succ cur).foldlM (g.topoHelper n) (v ++ [cur], o)
      some (v, o ++ [cur])

/-- directed_graph.cpp:156-163 `topological_order_tails_first`. -/
def Graph.topoOrder (g : Graph) : Option (List Label) :=
  (g.heads.foldlM (g.topoHelper (g.nodes.length + 1)) ([], [])).map (·.2)

/-- The public mutating interface (directed_graph.hpp:29-41). -/
inductive Op where
  | addNode (l : Label)
  | addEdge (a b : Label)
  | removeEdge (a b : Label)
  | removeNode (l : Label)
  | expand (t : Label) (r : List Label)

def Graph.step (g : Graph) : Op → Outcome Graph
  | .addNode l => .ok (g.addNode l)
  | .addEdge a b => .ok (g.addEdge a b)
  | .removeEdge a b => g.removeEdge a b
  | .removeNode l => g.removeNode l
  | .expand t r => g.expand t r

/-- A client's history of calls. -/
def Graph.run (g : Graph) : List Op → Outcome Graph
  | [] => .ok g
  | op :: ops => do
      let g ← g.step op
      g.run ops

/-! ## Specification vocabulary -/

/-- `b` is listed as a successor of the existing node `a`. -/
def Graph.Edge (g : Graph) (a b : Label) : Prop := a ∈ g.nodes ∧ b ∈ g.succ a

/-- `a` is listed as a predecessor of the existing node `b`. -/
def Graph.BackEdge (g : Graph) (a b : Label) : Prop := b ∈ g.nodes ∧ a ∈ g.pred b

/-- Consistency of the cached backward edges. -/
structure Graph.WF (g : Graph) : Prop where
  nodup : g.nodes.Nodup
  snodup : ∀ a ∈ g.nodes, (g.succ a).Nodup
  pnodup : ∀ a ∈ g.nodes, (g.pred a).Nodup
  sclosed : ∀ a ∈ g.nodes, ∀ b ∈ g.succ a, b ∈ g.nodes
  pclosed : ∀ a ∈ g.nodes, ∀ b ∈ g.pred a, b ∈ g.nodes
  mirror : ∀ a ∈ g.nodes, ∀ b ∈ g.nodes, (b ∈ g.succ a ↔ a ∈ g.pred b)

/-- `b` can be reached from `a` along one or more edges. -/
def Graph.Reach (g : Graph) : Label → Label → Prop := Relation.TransGen g.Edge

/-- No directed cycle. -/
def Graph.Acyclic (g : Graph) : Prop := ∀ x, ¬ g.Reach x x

end Verif.Dag
