import Verif.Model.Graph
/-
Model of csdl/opt/combine_operations.py (the pass over the flat graph) and csdl/opt/remove_dead_code.py.
-/
namespace Csdl.Opt
open Csdl

/-- Kinds of nodes of the flat graph: a variable node, whose variable is an `Output` or not; an operation node, whose operation is a `StandardOperation` with the property 'elementwise' or not (csdl/utils/check_property.py:5-10). -/
inductive Kind where
  | var (output : Bool)
  | op (elementwise : Bool)
  deriving DecidableEq, Repr

/-- One line `out = f(args)` of a compute string; `f` is given by the operation it comes from. -/
structure Line where
  out : Nat
  op : Nat
  args : List Nat
  deriving DecidableEq, Repr

/-- A flat graph: nodes are numbers; each operation has the lines of its compute string (for an operation without a compute string: one line per output). `next` numbers new nodes. -/
structure CGraph where
  g : Graph
  kind : Nat → Kind
  prog : Nat → List Line
  next : Nat

inductive CErr where
  | index | networkx | runtime | recursion
  deriving DecidableEq, Repr

/-- csdl/opt/combine_operations.py:20-32 `combinable` -/
def combinable (cg : CGraph) (regs : List Nat) (op : Nat) : Bool :=
  match cg.g.preds op, cg.g.succs op with
  | [v], [_] => !regs.contains v && cg.kind op == .op true
  | _, _ => false

/-- csdl/opt/combine_operations.py:35-82 `insert_new_op`; the new operation node is `cg.next`.  The four edges removed first are incident to `op1` or `op2`, which are removed with all their edges.  The attributes of the front end objects (lines 58-70) are not modelled. -/
def insertNewOp (cg : CGraph) (v01 op1 v12 op2 v23 : Nat) : CGraph :=
  { g := (cg.g.removeNodes [op1, v12, op2]).addEdges [(v01, cg.next), (cg.next, v23)]
    kind := fun n => if n = cg.next then .op true else cg.kind n
    prog := fun n => if n = cg.next then cg.prog op1 ++ cg.prog op2 else cg.prog n
    next := cg.next + 1 }

/-- `list(graph.predecessors(n))`; NetworkXError if `n` is not in the graph -/
def predsOf (cg : CGraph) (n : Nat) : Except CErr (List Nat) := if n ∈ cg.g.nodes then .ok (cg.g.preds n) else .error .networkx

/-- `list(graph.predecessors(n))[0]` -/
def firstPred (cg : CGraph) (n : Nat) : Except CErr Nat :=
  match predsOf cg n with
  | .error e => .error e
  | .ok [] => .error .index
  | .ok (p :: _) => .ok p

/-- csdl/opt/combine_operations.py:163-173: the loop over a copy of the predecessors -/
def forList (f : CGraph → Nat → Except CErr CGraph) : CGraph → List Nat → Except CErr CGraph
  | cg, [] => .ok cg
  | cg, v :: vs =>
    match f cg v with
    | .error e => .error e
    | .ok cg' => forList f cg' vs

/-- csdl/opt/combine_operations.py:174-183: the loop over the predecessors of `op` themselves (`p` is not a copy): RuntimeError if their number has changed -/
def forPreds (f : CGraph → Nat → Except CErr CGraph) (op : Nat) : CGraph → List Nat → Except CErr CGraph
  | cg, [] => .ok cg
  | cg, v :: vs =>
    match f cg v with
    | .error e => .error e
    | .ok cg' => if (cg'.g.preds op).length ≠ (cg.g.preds op).length then .error .runtime else forPreds f op cg' vs

/-- csdl/opt/combine_operations.py:137-183 `_combine_operations`; the first argument is what is left of Python's recursion limit -/
def combineFrom : Nat → CGraph → List Nat → Nat → Except CErr CGraph
  | 0, _, _, _ => .error .recursion
  | fuel + 1, cg, regs, v23 =>
    if cg.kind v23 ≠ .var true then .ok cg
    else match firstPred cg v23 with
      | .error e => .error e
      | .ok op2 =>
        if combinable cg regs op2 then
          match firstPred cg op2 with
          | .error e => .error e
          | .ok v12 =>
            if cg.kind v12 ≠ .var true then .ok cg
            else match firstPred cg v12 with
              | .error e => .error e
              | .ok op1 =>
                if combinable cg regs op1 then
                  match firstPred cg op1 with
                  | .error e => .error e
                  | .ok v01 => combineFrom fuel (insertNewOp cg v01 op1 v12 op2 v23) regs v01
                else forList (fun cg v => combineFrom fuel cg regs v) cg (cg.g.preds op1)
        else forPreds (fun cg v => combineFrom fuel cg regs v) op2 cg (cg.g.preds op2)

/-- csdl/opt/combine_operations.py:97-106: the pass over the flat graph; `regs` is the set of registered outputs in some order -/
def combineAll (limit : Nat) (cg : CGraph) (regs : List Nat) : Except CErr CGraph := forList (fun cg v => combineFrom limit cg regs v) cg regs

/-- csdl/rep/get_registered_outputs_from_graph.py:6-17: the outputs without successors; `named` tells whether the user has registered a variable -/
def registered (cg : CGraph) (named : Nat → Bool) : List Nat := cg.g.nodes.filter fun n => cg.kind n = .var true && (cg.g.succs n).isEmpty && named n

/-- csdl/opt/remove_dead_code.py:12-26 with `flat=True`: the nodes that are not in the sorted list are removed -/
def removeUnsorted (g : Graph) (sorted : List Nat) : Graph := g.removeNodes (g.nodes.filter (· ∉ sorted))

/-- csdl/opt/remove_dead_code.py:38-48: sort the flat graph and remove nodes -/
def removeDeadCode (g : Graph) : Except RepErr Graph :=
  match flatSort g with
  | .error e => .error e
  | .ok l => .ok (removeUnsorted g l)

end Csdl.Opt
