import Verif.GraphTopo

/-!
# `DependencyDag` (model)

Models `/repo/include/lsqecc/dag/dependency_dag.hpp`. The instruction type `I` and the
commutation test `comm` (`CommutationTrait<Instruction>::can_commute`,
commutation_trait.hpp) are parameters.
-/

namespace Verif.Dag

/-- dependency_dag.hpp:177-192. `instructions_` is a map: a lookup function. -/
structure DDag (I : Type) where
  graph : Graph
  instr : Label → Option I
  proxDeps : List (Label × Label)
  proxHeads : List Label
  next : Label

def DDag.empty {I : Type} : DDag I := ⟨Graph.empty, fun _ => none, [], [], 0⟩

variable {I : Type}

/-- dependency_dag.hpp:38-44 `add_instruction_isolated`. -/
def DDag.addIsolated (d : DDag I) (i : I) : DDag I × Label :=
  ({ d with graph := d.graph.addNode d.next, instr := upd d.instr d.next (some i), next := d.next + 1 }, d.next)

/-- dependency_dag.hpp:29-34: the loop adding an edge from every existing instruction that does
not commute with the new one. `instructions_.at` throws on a missing key. -/
def DDag.linkNew (comm : I → I → Bool) (instr : Label → Option I) (new : Label) : Graph → List Label → Outcome Graph
  | g, [] => .ok g
  | g, e :: es =>
    if e = new then DDag.linkNew comm instr new g es
    else match instr e, instr new with
      | some a, some b =>
        if comm a b then DDag.linkNew comm instr new g es
        else DDag.linkNew comm instr new (g.addEdge e new) es
      | _, _ => .throws

/-- dependency_dag.hpp:25-36 `push_instruction_based_on_commutation`. -/
def DDag.push (comm : I → I → Bool) (d : DDag I) (i : I) : Outcome (DDag I) :=
  let (d, new) := d.addIsolated i
  match d.graph.topoOrder with
  | none => .ub
  | some order => do
      let g ← DDag.linkNew comm d.instr new d.graph order
      .ok { d with graph := g }

/-- domain_dags.hpp `full_dependency_dag_from_instruction_stream`: push every instruction in order. -/
def DDag.pushAll (comm : I → I → Bool) : DDag I → List I → Outcome (DDag I)
  | d, [] => .ok d
  | d, i :: is => do
      let d ← DDag.push comm d i
      DDag.pushAll comm d is

/-- dependency_dag.hpp:51-58 `applicable_instructions`. -/
def DDag.applicable (d : DDag I) : List Label := d.graph.heads

/-- dependency_dag.hpp:84-91: promotion loop of `pop_head`. -/
def DDag.popProx (label : Label) : List (Label × Label) × List Label → List Label → List (Label × Label) × List Label
  | s, [] => s
  | (deps, heads), p :: ps =>
    if (p, label) ∈ deps then DDag.popProx label (deps.erase (p, label), oset heads p) ps
    else DDag.popProx label (deps, heads) ps

/-- dependency_dag.hpp:79-96 `pop_head`. -/
def DDag.popHead (d : DDag I) (l : Label) : Outcome (DDag I) :=
  match d.instr l with
  | none => .throws
  | some _ => do
      let preds ← d.graph.predecessors l
      let (deps, heads) := DDag.popProx l (d.proxDeps, d.proxHeads) preds
      let g ← d.graph.removeNode l
      .ok { d with graph := g, instr := upd d.instr l none, proxDeps := deps, proxHeads := heads.erase l }

/-- dependency_dag.hpp:106-112: the fresh labels of a replacement. -/
def DDag.freshLabels (d : DDag I) (r : List I) : List Label := (List.range r.length).map (d.next + ·)

/-- dependency_dag.hpp:107-112: storing the replacement instructions. -/
def DDag.storeFrom (instr : Label → Option I) : Label → List I → Label → Option I
  | _, [] => instr
  | k, i :: is => DDag.storeFrom (upd instr k (some i)) (k + 1) is

/-- Consecutive pairs of a list (dependency_dag.hpp:116-117). -/
def pairs : List Label → List (Label × Label)
  | a :: b :: rest => (a, b) :: pairs (b :: rest)
  | _ => []

/-- dependency_dag.hpp:115-117: the chain of a proximate replacement is proximate. -/
def DDag.expandDeps (d : DDag I) (ls : List Label) (prox : Bool) : List (Label × Label) :=
  if prox then (pairs ls).foldl oset d.proxDeps else d.proxDeps

/-- dependency_dag.hpp:135-139: the first replacement takes over a proximate head. -/
def DDag.expandHeads (d : DDag I) (t : Label) : List Label :=
  if t ∈ d.proxHeads then oset (d.proxHeads.erase t) d.next else d.proxHeads

/-- dependency_dag.hpp:100-142 `expand`; also returns the first new label. The loop at lines
121-133 erases from and inserts into the set it iterates over, which is undefined as soon as
some stored pair mentions `target`. -/
def DDag.expand (d : DDag I) (t : Label) (r : List I) (prox : Bool) : Outcome (DDag I × Label) :=
  if r = [] then .throws
  else
    let ls := d.freshLabels r
    do
      let g ← d.graph.expand t ls
      if (d.expandDeps ls prox).any (fun p => decide (p.1 = t ∨ p.2 = t)) then .ub
      else
        .ok ({ graph := g, instr := DDag.storeFrom d.instr d.next r, proxDeps := d.expandDeps ls prox,
               proxHeads := d.expandHeads t, next := d.next + r.length }, d.next)

/-- dependency_dag.hpp:144-147 `make_proximate`. -/
def DDag.makeProximate (d : DDag I) (l : Label) : DDag I := { d with proxHeads := oset d.proxHeads l }

/-! ## Executions -/

/-- One action of a client working off the graph: take out a ready instruction, or replace an
instruction by follow-ups. -/
inductive DAct (I : Type) where
  | pop (l : Label)
  | makeProximate (l : Label)
  | expand (t : Label) (r : List I) (prox : Bool)

/-- State of an execution with ghost history: `origin` tells from which source instruction (by
program index) a node stems, `popped` is the sequence of labels taken out so far. -/
structure DRun (I : Type) where
  dag : DDag I
  origin : Label → Nat
  popped : List Label

def DRun.start (d : DDag I) : DRun I := ⟨d, id, []⟩

/-- A client action. Only labels reported as applicable may be popped (otherwise `throws`). -/
def DRun.act (s : DRun I) : DAct I → Outcome (DRun I)
  | .pop l =>
    if l ∈ s.dag.applicable then do
      let d ← s.dag.popHead l
      .ok { s with dag := d, popped := s.popped ++ [l] }
    else .throws
  | .makeProximate l => .ok { s with dag := s.dag.makeProximate l }
  | .expand t r prox => do
      let (d, _) ← s.dag.expand t r prox
      .ok { s with dag := d,
                   origin := fun x => if s.dag.next ≤ x ∧ x < s.dag.next + r.length then s.origin t else s.origin x }

def DRun.acts (s : DRun I) : List (DAct I) → Outcome (DRun I)
  | [] => .ok s
  | a :: as => do
      let s ← s.act a
      s.acts as

end Verif.Dag
