import Verif.Dag
import Verif.Gates
import Verif.Lli

/-!
# Graphs of gates, and graphs as text (model)

Models `CommutationTrait<Gate>` and `get_operating_qubits` (`/repo/include/lsqecc/gates/gates.hpp:160-182`, `/repo/src/gates/gates.cpp:143-178`),
the printing of gates (`/repo/src/gates/gates.cpp:188-258`), `full_dependency_dag_from_gate_stream` (`/repo/src/dag/domain_dags.cpp`) and the
output of graphs for GraphViz (`/repo/src/dag/directed_graph.cpp:167-200`, `/repo/include/lsqecc/dag/dependency_dag.hpp:149-175`).
-/

namespace Verif.Gates

/-- The qubit of the gate that is controlled. -/
def SingleGate.qubit : SingleGate → Nat
  | .basic q _ => q
  | .rz q _ => q

/-- gates.cpp:143-178 `get_operating_qubits`. A reset that is not controlled ends in `LSTK_UNREACHABLE`, which throws (lstk.hpp:28). -/
def Gate.operating : Gate → Outcome (List Nat)
  | .basic q _ => .ok [q]
  | .rz q _ => .ok [q]
  | .ctrl c t _ _ => .ok (oset [c] t.qubit)
  | .reset _ _ => .throws

/-- lstk.hpp `set_intersection(…).empty()`. -/
def apartSets (a b : List Nat) : Bool := (a.filter fun x => decide (x ∈ b)).isEmpty

/-- gates.hpp:160-182 `CommutationTrait<Gate>::can_commute`. -/
def Gate.canCommute (a b : Gate) : Outcome Bool :=
  match a, b with
  | .ctrl c t _ _, .ctrl c' t' _ _ =>
    if c = c' then .ok (apartSets [t.qubit] [t'.qubit])
    else .ok (apartSets (oset [c] t.qubit) (oset [c'] t'.qubit))
  | a, b => do
    let x ← a.operating
    let y ← b.operating
    .ok (apartSets x y)

/-- gates.cpp:203-212 and 223-232. -/
def BasicType.print : BasicType → Str
  | .X => ['x'] | .Y => ['y'] | .Z => ['z'] | .S => ['s'] | .T => ['t'] | .H => ['h']
  | .SDg => ['s', 'd', 'g'] | .TDg => ['t', 'd', 'g']

/-- `q[n]` -/
def qubitText (n : Nat) : Str := "q[".toList ++ showNat n ++ [']']

/-- gates.cpp:195-258 `operator<<`. The sign of an angle is not printed. -/
def Gate.print : Gate → Str
  | .basic q t => t.print ++ ' ' :: qubitText q ++ [';']
  | .rz q f => "rz(".toList ++ showInt f.num ++ "pi/".toList ++ showInt f.den ++ ") ".toList ++ qubitText q ++ [';']
  | .ctrl c (.basic q t) _ _ => 'c' :: t.print ++ ' ' :: qubitText c ++ ',' :: qubitText q ++ [';']
  | .ctrl c (.rz q f) _ _ =>
    "crz(".toList ++ (if f.num ≠ 1 then showInt f.num ++ "*pi".toList else []) ++ "pi/".toList ++ showInt f.den ++ ") ".toList ++
      qubitText c ++ ',' :: qubitText q ++ [';']
  | .reset _ q => "reset".toList ++ qubitText q

end Verif.Gates

namespace Verif.Dag
open Verif.Gates

variable {I : Type}

/-- dependency_dag.hpp:29-34 when comparing may throw (`DDag.linkNew` is the same for a test that does not). -/
def DDag.linkNewM (comm : I → I → Outcome Bool) (instr : Label → Option I) (new : Label) : Graph → List Label → Outcome Graph
  | g, [] => .ok g
  | g, e :: es =>
    if e = new then DDag.linkNewM comm instr new g es
    else match instr e, instr new with
      | some a, some b => do
        let c ← comm a b
        if c then DDag.linkNewM comm instr new g es
        else DDag.linkNewM comm instr new (g.addEdge e new) es
      | _, _ => .throws

/-- dependency_dag.hpp:25-36 `push_instruction_based_on_commutation` when comparing may throw. -/
def DDag.pushM (comm : I → I → Outcome Bool) (d : DDag I) (i : I) : Outcome (DDag I) :=
  let (d, new) := d.addIsolated i
  match d.graph.topoOrder with
  | none => .ub
  | some order => do
      let g ← DDag.linkNewM comm d.instr new d.graph order
      .ok { d with graph := g }

/-- domain_dags.cpp: push everything in order. -/
def DDag.pushAllM (comm : I → I → Outcome Bool) : DDag I → List I → Outcome (DDag I)
  | d, [] => .ok d
  | d, i :: is => do
      let d ← DDag.pushM comm d i
      DDag.pushAllM comm d is

/-- domain_dags.cpp `full_dependency_dag_from_gate_stream`. -/
def gateDag (gs : List Gate) : Outcome (DDag Gate) := DDag.pushAllM Gate.canCommute DDag.empty gs

/-! ## GraphViz -/

/-- directed_graph.cpp:179-186. -/
def nodeOpen : Str := " [shape=\"plaintext\",label=<<table cellborder=\"0\"><tr><td><b>".toList

def nodeMid : Str := "</b></td></tr><tr><td><font color=\"darkgray\">node: ".toList

def nodeClose : Str := "</font></td></tr></table>>];".toList

/-- directed_graph.cpp:177-189. -/
def nodeLine (m : Label → Option Str) (l : Label) : Str :=
  match m l with
  | some t => "  ".toList ++ showNat l ++ nodeOpen ++ strReplace t '>' "&gt;".toList ++ nodeMid ++ showNat l ++ nodeClose ++ ['\n']
  | none => "  ".toList ++ showNat l ++ ";\n".toList

/-- directed_graph.cpp:192-194. -/
def edgeLine (a b : Label) : Str := "  ".toList ++ showNat a ++ " -> ".toList ++ showNat b ++ ";\n".toList

/-- directed_graph.cpp:167-200 `DirectedGraph::to_graphviz`. -/
def Graph.dot (g : Graph) (m : Label → Option Str) (extra : Str) : Str :=
  "digraph DirectedGraph {\n".toList ++ g.nodes.flatMap (nodeLine m) ++ g.nodes.flatMap (fun a => (g.succ a).flatMap (edgeLine a)) ++ extra ++ "}\n".toList

/-- dependency_dag.hpp:153-159: the texts of the stored instructions. -/
def DDag.contents (pr : I → Outcome Str) (d : DDag I) : List Label → (Label → Option Str) → Outcome (Label → Option Str)
  | [], m => .ok m
  | l :: ls, m =>
    match d.instr l with
    | none => DDag.contents pr d ls m
    | some i => do
      let t ← pr i
      DDag.contents pr d ls (upd m l (some t))

/-- dependency_dag.hpp:163-165. -/
def headLine (l : Label) : Str := "  ".toList ++ showNat l ++ " [fontcolor=red];\n".toList

/-- dependency_dag.hpp:167-171. -/
def nearLine (p : Label × Label) : Str := "  ".toList ++ showNat p.1 ++ " -> ".toList ++ showNat p.2 ++ " [penwidth=5];\n".toList

/-- dependency_dag.hpp:149-175 `to_graphviz`. Every label in use is below `next`. -/
def DDag.dot (pr : I → Outcome Str) (d : DDag I) : Outcome Str := do
  let m ← d.contents pr (List.range d.next) (fun _ => none)
  .ok (d.graph.dot m (d.proxHeads.flatMap headLine ++ d.proxDeps.flatMap nearLine))

/-- The text of the graph of instructions (slicer.cpp:547-549). Making the graph takes instructions from the stream one by one; here the stream is read before. -/
def lliGraph (P : List Instr) : Outcome Str := do
  let d ← DDag.pushAll Instr.canCommute DDag.empty P
  d.dot (fun i => Lli.printOp i.op)

/-- The text of the graph of gates (slicer.cpp:415-417). -/
def gateGraph (gs : List Gate) : Outcome Str := do
  let d ← gateDag gs
  d.dot (fun g => .ok g.print)

end Verif.Dag
