import Verif.Spec.Optimise
import Verif.Spec.Collect
/-
Specification for C115: setting values by name and running, in any order.
-/
namespace Csdl

/-- What a user does with a simulator: give a variable a value by its promoted or full name, or run. -/
inductive SimStep (V : Type)
  | set (name : Name) (value : V)
  | run

/-- csdl/sim/simulator_base.py:117-164: one step changes the values `σ` of the nodes of a representation to `σ'`.  `set` finds the node of the name as `ValueByName` does (C87: `_find_promoted_name`, then the variable that represents it) and stores the value there; an unknown name
raises KeyError and changes nothing.  What `run` does is up to the back end: it is the parameter `exec` here. -/
inductive SimStep.Does {V : Type} (maps : NodeMaps) (done : Dict Nat Nat) (exec : (Nat → V) → Nat → V) : (Nat → V) → SimStep V → (Nat → V) → Prop
  | set {σ : Nat → V} {n : Name} {v : V} {u : Nat} : NodeByName maps done n u → Does maps done exec σ (.set n v) (fun i => if i = u then v else σ i)
  | unknown {σ : Nat → V} {n : Name} {v : V} {e : FErr} : findNode maps n = .error e → Does maps done exec σ (.set n v) σ
  | run {σ : Nat → V} : Does maps done exec σ .run (exec σ)

/-- The steps, the latest first, change the values `σ0` to `σ`. -/
inductive SimHistory {V : Type} (maps : NodeMaps) (done : Dict Nat Nat) (exec : (Nat → V) → Nat → V) (σ0 : Nat → V) : List (SimStep V) → (Nat → V) → Prop
  | start : SimHistory maps done exec σ0 [] σ0
  | step {s : SimStep V} {older : List (SimStep V)} {σ σ' : Nat → V} : SimHistory maps done exec σ0 older σ → s.Does maps done exec σ σ' → SimHistory maps done exec σ0 (s :: older) σ'

namespace Prog
variable {K F : Type}

/-- The name `n` is a name of the variable `x` of the model at `path`, or of a variable that is the same variable because of promotions, aliases and connections. -/
def Concerns (b : Body K F) (n : Name) (path : List Name) (x : Nat) : Prop := ∃ p path' y, Denotes b.toModel n p ∧ HasName b path' y p ∧ SameVar b path' y path x

/-- The value given last for the variable `x` of the model at `path`, in steps of which the latest is first; if there is none, the value `start` from before. -/
inductive LastGiven {V : Type} (b : Body K F) (start : List Name → Nat → V) : List (SimStep V) → List Name → Nat → V → Prop
  | never {path : List Name} {x : Nat} : LastGiven b start [] path x (start path x)
  | set {n : Name} {v : V} {older : List (SimStep V)} {path : List Name} {x : Nat} : Concerns b n path x → LastGiven b start (.set n v :: older) path x v
  | other {n : Name} {v w : V} {older : List (SimStep V)} {path : List Name} {x : Nat} : ¬ Concerns b n path x → LastGiven b start older path x w → LastGiven b start (.set n v :: older) path x w
  | run {w : V} {older : List (SimStep V)} {path : List Name} {x : Nat} : LastGiven b start older path x w → LastGiven b start (.run :: older) path x w

end Prog
end Csdl
