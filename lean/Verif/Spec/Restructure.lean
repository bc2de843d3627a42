import Verif.Spec.Apart
/-
Specification for C105: programs that consist of the same computations, distributed over models in different ways.
-/
namespace Csdl.Prog
open Csdl Csdl.Arith
variable {K F : Type}

/-- the operator applied to other variables -/
def onVars (f : Nat → Nat) : Instr K → Instr K
  | .pos x => .pos (f x) | .neg x => .neg (f x)
  | .add x y => .add (f x) (f y) | .addc x c => .addc (f x) c
  | .sub x y => .sub (f x) (f y) | .subc x c => .subc (f x) c | .rsubc c x => .rsubc c (f x)
  | .mul x y => .mul (f x) (f y) | .mulc x c => .mulc (f x) c
  | .div x y => .div (f x) (f y) | .divc x c => .divc (f x) c | .rdivc c x => .rdivc c (f x)
  | .powc x c => .powc (f x) c

/-- Directly or indirectly the variables are the same: they have the same promoted name, are the two ends of a connection, or are aliases. -/
def Coupled (b : Body K F) (u v : List Name × Nat) : Prop := Relation.EqvGen (Same b) u v

/-- The computation `s` of a method `b` and the computation `t` of a method `c` are the same, for operands that correspond according to `R`. -/
inductive SameComputation (b c : Body K F) (R : Nat → Nat → Prop) : Stmt K F → Stmt K F → Prop
  | expr (i : Instr K) (f : Nat → Nat) : (∀ x ∈ i.first :: i.others, R x (f x)) → SameComputation b c R (.expr i) (.expr (onVars f i))
  | call (g : F) {args args' : List Nat} (outs : List Shape) : List.Forall₂ R args args' → SameComputation b c R (.call g args outs) (.call g args' outs)
  | index {x y : Nat} (key : Key) : R x y → b.shapes.getD x [] = c.shapes.getD y [] → SameComputation b c R (.index x key) (.index y key)
  | output (name name' : Name) (shape : Shape) (val : Val K) : SameComputation b c R (.output name shape val) (.output name' shape val)

/-- The program `c` does what the program `b` does: the variable `φ v` of `c` corresponds to the variable `v` of `b`. -/
structure Restructured (b c : Body K F) (φ : List Name × Nat → List Name × Nat) : Prop where
  /-- every computation of `b` that matters (an operator, a function, a part of a variable, an output assembled from parts) is, for corresponding variables, a computation of `c` that matters -/
  computations : ∀ path b' n s, BAt b path b' → b'.Has n s → s.Computes → (∀ j < s.count, b'.Live (n + j)) →
    ∃ path' c' m t, BAt c path' c' ∧ c'.Has m t ∧ SameComputation b' c' (fun x y => Coupled c (φ (path, x)) (path', y)) s t ∧
      ∀ j < s.count, c'.Live (m + j) ∧ Coupled c (φ (path, n + j)) (path', m + j)
  /-- an output assembled from parts corresponds to one assembled from the same parts -/
  parts : ∀ path b' y name shape val, BAt b path b' → b'.Has y (.output name shape val) →
    ∃ path' c' y' name', BAt c path' c' ∧ c'.Has y' (.output name' shape val) ∧ Coupled c (φ (path, y)) (path', y') ∧
      (∀ key x, b'.Assigned y key x → ∃ x', c'.Assigned y' key x' ∧ Coupled c (φ (path, x)) (path', x')) ∧ ∀ key x', c'.Assigned y' key x' → ∃ x, b'.Assigned y key x
  /-- variables of `b` that are the same correspond to variables of `c` that are the same -/
  joined : ∀ u v, Same b u v → Coupled c (φ u) (φ v)

/-! ### Moving the last statements of the main method to a submodel -/

/-- `self.add(sub, name=n)` as the last statement of the method `b`: all names of the submodel are promoted (`i`: the submodel is written inline) -/
def Body.addPromoted (b : Body K F) (i : Bool) (n : Name) (sub : Body K F) : Body K F := b.append (.add i n none sub .done)

/-- the statement with other variables -/
def Stmt.onVars (f : Nat → Nat) : Stmt K F → Stmt K F
  | .expr i => .expr (Prog.onVars f i)
  | .call g args outs => .call g (args.map f) outs
  | .index x key => .index (f x) key
  | .register name x => .register name (f x)
  | .assign z key x => .assign (f z) key (f x)
  | s => s

/-- The variable `x` of the method is its input or output `name`. -/
def Body.SourceNamed (b : Body K F) (x : Nat) (name : Name) : Prop := (∃ s, (x, name, s) ∈ (b.stmts 0).filterMap inputOf) ∨ (x, name) ∈ (b.stmts 0).filterMap outputOf

/-- `Inlined b μ k N sub rest`: `rest` are the statements of `sub`, to be made at the end of `b` itself.  The variable number `x` of `sub` becomes the variable number `μ x`; `k` and `N` are the numbers of the next variables. -/
inductive Inlined (b : Body K F) (μ : Nat → Nat) : Nat → Nat → Body K F → Body K F → Prop
  | done (k N : Nat) : Inlined b μ k N .done .done
  /-- a variable that `sub` declares to get the input or output `name` of `b` is not declared: the input or output is used instead -/
  | known {k N y : Nat} {name : Name} {shape : Shape} {sub rest : Body K F} (val : Option (Val K)) : b.SourceNamed y name → b.shapes.getD y [] = shape → μ k = y → Inlined b μ (k + 1) N sub rest →
      Inlined b μ k N (.stmt (.declare name shape val) sub) rest
  /-- all other statements stay the same -/
  | stmt {k N : Nat} {s : Stmt K F} {sub rest : Body K F} : (∀ j < s.count, μ (k + j) = N + j) → Inlined b μ (k + s.count) (N + s.count) sub rest → Inlined b μ k N (.stmt s sub) (.stmt (s.onVars μ) rest)

/-- the variable of the program without the submodel `n` that corresponds to a variable of the program with it -/
def moved (n : Name) (μ : Nat → Nat) (v : List Name × Nat) : List Name × Nat := if v.1 = [n] then ([], μ v.2) else v

end Csdl.Prog
