import Verif.Model.Compile
/-
Model of csdl/rep/graph_representation.py:227-393 for hierarchies in which one `Model` object is used as several submodels (`self.add(m, name='a'); self.add(m, name='b')`),
or in which a variable is used in several models.

Every call of csdl/rep/construct_unflat_graph.py:198-252 `construct_graphs_all_models` starts with an empty dictionary of nodes, so that a csdl object has a node of its own
(`VariableNode`, `OperationNode`, `ModelNode`) for each use of the model it belongs to.  Uses are numbered; the node of the object `i < N` in use `k` is `k * N + i`.
All other functions read of the csdl objects only names, roles, shapes and values, which are those of the object, whatever the use
(csdl/rep/resolve_promotions.py:351 stores in each model a map that is the same for all uses; the others store nothing but C13).
-/
namespace Csdl

mutual
/-- number of uses of models in a hierarchy (one call of `construct_graphs_all_models` each, csdl/rep/construct_unflat_graph.py:218-230) -/
def OModel.size : OModel → Nat
  | .mk _ _ _ _ _ _ _ subs => 1 + subs.size
def OSubs.size : OSubs → Nat
  | .nil => 0
  | .cons _ _ m rest => m.size + rest.size
end

/-- What a node knows of its csdl object (csdl/rep/variable_node.py:15-31, csdl/rep/operation_node.py:9-17, csdl/rep/model_node.py): the object; its dependencies and results are the nodes of the same use. -/
def Objs.uses (H : Objs) (N : Nat) : Objs := fun j =>
  { H (j % N) with deps := (H (j % N)).deps.map (j / N * N + ·), outs := (H (j % N)).outs.map (j / N * N + ·) }

mutual
/-- csdl/rep/construct_unflat_graph.py:198-252: use number `k` of a model, with the uses of its submodels, numbered in the order of the calls -/
def OModel.unfold (N k : Nat) : OModel → OModel
  | .mk i o d c dv cn ob subs => .mk (i.map (k * N + ·)) (o.map (k * N + ·)) (d.map (k * N + ·)) c dv cn ob (subs.unfold N k (k + 1))
def OSubs.unfold (N k next : Nat) : OSubs → OSubs
  | .nil => .nil
  | .cons i p m rest => .cons (k * N + i) p (m.unfold N next) (rest.unfold N k (next + m.size))
end

/-- csdl/rep/graph_representation.py:227-393 `GraphRepresentation.__init__`, when models may be used several times; `N` bounds the identities of objects. -/
def compileUses (H : Objs) (N fuel : Nat) (order : List Nat → List Nat) (root : OModel) : Except BuildErr Rep := compile (H.uses N) fuel order (root.unfold N 0)

end Csdl
