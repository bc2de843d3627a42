import Verif.Model.Names
import Verif.Model.Dict
/-
Model hierarchies.
-/
namespace Csdl

/-- Array shapes (csdl/utils/typehints.py `Shape`). -/
abbrev Shape := List Nat

/-- `np.prod(shape)` -/
def Shape.size (s : Shape) : Nat := s.foldr (· * ·) 1

/-- Name and shape of a variable of a model (csdl/lang/variable.py:32-54). -/
structure VarInfo where
  name : Name
  shape : Shape := [1]
  deriving DecidableEq, Repr

/-- The data a model holds itself (csdl/lang/model.py:49-98): created inputs, registered outputs,
declared variables, connections, and the names of its design variables, constraints
and objective.  Simplification: of a design variable, constraint or objective only
the name and an opaque payload (`Nat`) are kept. -/
structure Local where
  inputs : List VarInfo := []
  outputs : List VarInfo := []
  declared : List VarInfo := []
  connections : List (Name × Name) := []
  designVars : Dict Name Nat := []
  constraints : Dict Name Nat := []
  objective : Option (Name × Nat) := none

mutual
/-- A csdl `Model` (csdl/lang/model.py:46-98) after `define` has run. -/
inductive Model where
  | mk (loc : Local) (subs : Subs)
/-- The list `Model.subgraphs` of `Subgraph` objects (csdl/lang/subgraph.py:6-31):
name, promotes and submodel of each. -/
inductive Subs where
  | nil
  | cons (name : Name) (promotes : Option (List Name)) (m : Model) (rest : Subs)
end

/-- A `Subgraph` object (csdl/lang/subgraph.py:6-31). -/
structure Subgraph where
  name : Name
  promotes : Option (List Name)
  model : Model

/-- `model.subgraphs` as a list. -/
def Subs.toList : Subs → List Subgraph
  | .nil => []
  | .cons n p m rest => ⟨n, p, m⟩ :: rest.toList

/-- Local sources: inputs then registered outputs
(csdl/rep/collect_locally_defined_variables.py:16-18). -/
def Local.sources (l : Local) : List VarInfo := l.inputs ++ l.outputs

end Csdl
