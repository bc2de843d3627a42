import Verif.Spec.Print
/-
Specification for C103: a submodel of which nothing is promoted.
-/
namespace Csdl.Prog
open Csdl
variable {K F : Type}

/-- `self.add(sub, name=n, promotes=[])` as the last statement of the method `b` (`i`: the submodel is written inline) -/
def Body.addApart (b : Body K F) (i : Bool) (n : Name) (sub : Body K F) : Body K F := b.append (.add i n (some []) sub .done)

/-- The name `n` can be used for a new submodel of the model with the method `b`. -/
structure NewSub (b : Body K F) (n : Name) : Prop where
  nonEmpty : n ≠ []
  allowed : Allowed n
  notAuto : ¬ AutoLike n
  newSub : n ∉ b.subs.map (·.1)
  newVar : n ∉ (b.locals.sources ++ b.locals.declared).map VarInfo.name

end Csdl.Prog
