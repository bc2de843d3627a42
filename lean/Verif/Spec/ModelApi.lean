import Verif.Model.ModelApi
/-
Specification vocabulary for histories of API calls.
-/
namespace Csdl.Api

/-- No output object is registered with two different models. -/
def NotShared (w : World) : Prop :=
  ∀ (i j : Nat) (s t : MState), w.models[i]? = some s → w.models[j]? = some t → i ≠ j → ∀ o ∈ s.outputs, o ∉ t.outputs

/-- Entry `i` of a bound, after broadcasting (a number or an array of length one applies to all entries). -/
def Bound.at : Bound → Nat → Option Rat
  | .num q, _ => some q
  | .arr [q], _ => some q
  | .arr l, i => l[i]?
  | .other, _ => none

/-- The caller uses a new name: `create_input` with a name that is not used by a variable of the model, and
`declare_variable` with a name that is not used by an input or registered output of the model. -/
def FreshUse (w : World) : Call → Prop
  | .createInput i name _ => ∀ s, w.models[i]? = some s → name ∉ s.inputs ∧ name ∉ w.outputNames s ∧ name ∉ s.declared
  | .declareVariable i name _ => ∀ s, w.models[i]? = some s → name ∉ s.inputs ∧ name ∉ w.outputNames s
  | _ => True

/-- Every call of the history uses new names in the above sense. -/
def FreshHistory (cs : List Call) : Prop :=
  ∀ pre c post, cs = pre ++ c :: post → FreshUse (exec pre) c

/-- The connection of a call, if it is a `connect` on model `i` that does not raise. -/
def acceptedPair (w : World) (i : Nat) : Call → List (Name × Name)
  | .connect j a b => if j = i ∧ (step w (.connect j a b)).2 = none then [(a, b)] else []
  | _ => []

/-- The connections of the calls `connect` made on model `i` that did not raise, in order. -/
def accepted (w : World) (i : Nat) : List Call → List (Name × Name)
  | [] => []
  | c :: cs => acceptedPair w i c ++ accepted (step w c).1 i cs

end Csdl.Api
