import Verif.Spec.Defaults
/-
Specification for C96, C97, C99, C101, C102 with default values.
-/
namespace Csdl.Prog
open Csdl
variable {K F : Type}

/-- The program gives no two different values for the same variable at the same depth: for every variable that must be given, only one value can be its default value. -/
def ClearDefaults (b : Body K F) : Prop := ∀ path x v v', GivenVar b path x → DefaultOf b path x v → DefaultOf b path x v' → v = v'

/-- If the main method declares a variable without a value, then no direct submodel declares the same variable with a value. -/
def UntiedDefaults (b : Body K F) : Prop :=
  ∀ y name shape m c z nm s w, b.Has y (.declare name shape none) → b.LastDeclared name y → BAt b [m] c → c.Has z (.declare nm s w) → c.LastDeclared nm z → SameVar b [] y [m] z → w = none

/-- Inputs that are the same variable are given the same value. -/
def ClearInputs (b : Body K F) : Prop :=
  ∀ path c y name shape v path' c' y' name' shape' v', BAt b path c → c.Has y (.input name shape v) → BAt b path' c' → c'.Has y' (.input name' shape' v') → SameVar b path y path' y' → v = v'

/-- The methods give the same values: to inputs of the same name, and to variables of the same name where it is declared last. -/
structure SameValues (c c' : Body K F) : Prop where
  inputs : ∀ name v, (∃ y shape, c.Has y (.input name shape v)) ↔ ∃ y shape, c'.Has y (.input name shape v)
  declared : ∀ name v, (∃ y shape, c.Has y (.declare name shape v) ∧ c.LastDeclared name y) ↔ ∃ y shape, c'.Has y (.declare name shape v) ∧ c'.LastDeclared name y

end Csdl.Prog
