import Verif.Model.Tree
import Verif.Model.Indexing
import Mathlib.Algebra.BigOperators.Group.List.Basic
/-
Model of csdl/utils/get_shape_val.py, csdl/utils/check_default_val_type.py and the constructors of variables
(csdl/lang/variable.py:32-54, input.py, declared_variable.py, output.py, concatenation.py:18-53), csdl/std/reshape.py.
-/
namespace Csdl

/-- A NumPy array: its shape and the element at each index. -/
structure Arr (V : Type) where
  shape : Shape
  get : List Nat → V

/-- The argument `shape`: an int or a tuple. -/
inductive ShapeArg where
  | int (n : Nat)
  | tuple (s : Shape)

/-- The argument `val`: a number, a (nested) list, given by the array `np.array(list)`, or an array. -/
inductive ValArg (V : Type) where
  | number (x : V)
  | list (a : Arr V)
  | array (a : Arr V)

/-- csdl/utils/get_shape_val.py:26-27 -/
def ShapeArg.shape : ShapeArg → Shape
  | .int n => [n]
  | .tuple s => s

/-- `x * np.ones(shape)` -/
def onesTimes {V : Type} [Mul V] [One V] (x : V) (s : Shape) : Arr V := ⟨s, fun _ => x * 1⟩

/-- csdl/utils/get_shape_val.py:28-37: the array made of the value; `none` is Python's `None` -/
def valArray {V : Type} [Mul V] [One V] (s : Shape) (noVal : Bool) : ValArg V → Option (Arr V)
  | .number x => if noVal then none else some (onesTimes x s)
  | .list a => if noVal then none else some a
  | .array a => some a

/-- csdl/utils/get_shape_val.py:26-46 `get_shape_val`; `none`: ValueError -/
def getShapeVal {V : Type} [Mul V] [One V] (shape : ShapeArg) (val : ValArg V) (noVal : Bool) : Option (Shape × Option (Arr V)) :=
  match valArray shape.shape noVal val with
  | none => some (shape.shape, none)
  | some a => if shape.shape = [1] then some (a.shape, some a) else if noVal = false ∧ a.shape ≠ shape.shape then none else some (shape.shape, some a)

/-- csdl/utils/check_default_val_type.py:8-13, for numbers, lists and arrays -/
def checkDefault {V : Type} : ValArg V → ValArg V
  | .list a => .array a
  | v => v

/-- The attributes `shape`, `size` and `val` of a variable. -/
structure VarObj (V : Type) where
  shape : Shape
  size : Nat
  val : Option (Arr V)

/-- csdl/lang/variable.py:47-48: `shape` and `size` (the value is not stored) -/
def variableInit {V : Type} [Mul V] [One V] (shape : ShapeArg) (val : ValArg V) : Option (VarObj V) :=
  (getShapeVal shape val true).map fun r => ⟨r.1, r.1.prod, none⟩

/-- csdl/lang/input.py:10-30, csdl/lang/declared_variable.py:8-29: `Variable.__init__`, then `shape` and `val` are set again -/
def inputInit {V : Type} [Mul V] [One V] (shape : ShapeArg) (val : ValArg V) : Option (VarObj V) :=
  match variableInit shape val with
  | none => none
  | some v => (getShapeVal shape val false).map fun r => { v with shape := r.1, val := r.2 }

/-- csdl/lang/model.py:348-384 `create_input` and 299-345 `declare_variable`: the new variable -/
def createInput {V : Type} [Mul V] [One V] (shape : ShapeArg) (val : ValArg V) : Option (VarObj V) := inputInit shape (checkDefault val)

/-- csdl/lang/concatenation.py:40-43: `Variable.__init__` is called with the default value and shape, then `shape` and `val` are set -/
def concatInit {V : Type} [Mul V] [One V] (shape : ShapeArg) (val : ValArg V) : Option (VarObj V) :=
  match variableInit (.tuple [1]) (.number (1 : V)) with
  | none => none
  | some v => (getShapeVal shape (checkDefault val) false).map fun r => { v with shape := r.1, val := r.2 }

/-- csdl/lang/model.py:386-428 `create_output`: the new variable -/
def createOutput {V : Type} [Mul V] [One V] (shape : ShapeArg) (val : ValArg V) : Option (VarObj V) := concatInit shape (checkDefault val)

/-- csdl/lang/output.py:11-30: an `Output` of an operation, with the default value -/
def outputInit {V : Type} [Mul V] [One V] (shape : Shape) : Option (VarObj V) := variableInit (.tuple shape) (.number (1 : V))

/-- csdl/std/reshape.py:7-40 `reshape` for a tuple of ints: the shape of the output; `none`: ValueError -/
def reshape {V : Type} (var : VarObj V) (new : Shape) : Option Shape := if var.shape.prod ≠ new.prod then none else some new

/-- csdl/std/reshape.py:43-55 `flatten` -/
def flattenVar {V : Type} (var : VarObj V) : Option Shape := reshape var [var.size]

end Csdl
