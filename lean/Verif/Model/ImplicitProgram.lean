import Verif.Model.ProgramFull
/-
Model of implicit operations whose residuals are defined by a program: csdl/lang/model.py:743-933, 935-1135.
Simplification: the objects of the model that defines the residuals are not among the objects of the program that contains the operation (Verif/Model/ProgramFull.lean), the two are run separately.
-/
namespace Csdl.Prog
open Csdl Csdl.Arith
variable {K F : Type}

/-- csdl/lang/model.py:945-965: what `_generate_maps_for_implicit_operation` reads of the model that defines the residuals, after `GraphRepresentation(model)` has called its `define` method: its lists of inputs,
registered outputs and declared variables, and the objects. -/
def residualModel (objs : List (PObj K F)) (root : OModel) : IModel where
  h := (objects objs).heap
  shape i := (objects objs i).shape
  inputs := root.inputs
  outputs := root.outputs
  declared := root.declared

/-- csdl/lang/model.py:997-1014: the loop over the arguments, which checks each of them (as `checkArgs` in Verif/Model/Implicit.lean) and gives its value (`arg.val`, ones if it has none) to the declared variable of the residual model, the
last one of that name (lines 997-1000, a dictionary).  The objects are those the representation of the residual model refers to: `GraphRepresentation(model)` has been built before (line 949).  The attribute `default_val` is not changed.
The objects are changed up to an argument that is rejected. -/
def passArgs (root : OModel) : List (PObj K F) → List (Name × Shape × Val K) → List (PObj K F) × Option ImpErr
  | objs, [] => (objs, none)
  | objs, a :: as =>
    match (nameMap (residualModel objs root).h (residualModel objs root).declared).get? a.1 with
    | none => (objs, some .arg)
    | some d => if a.2.1 ≠ (residualModel objs root).shape d then (objs, some .argShape) else passArgs root (objs.modify d fun p => { p with val := some a.2.2 }) as

end Csdl.Prog
