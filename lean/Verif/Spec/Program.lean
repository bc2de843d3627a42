import Verif.Model.Program
import Verif.Spec.Arith
import Verif.Spec.Compile
/-
Specification for C73, C74: the meaning of a program (a hierarchy of `define` methods), stated on its text: without objects, operations, copies or graphs.
-/
namespace Csdl.Prog
open Csdl Csdl.Arith
variable {K F : Type}

/-- how many variables a statement creates -/
def Stmt.count : Stmt K F → Nat
  | .input _ _ _ | .declare _ _ _ | .expr _ | .index _ _ | .output _ _ _ => 1
  | .call _ _ outs => outs.length
  | .register _ _ | .connect _ _ | .assign _ _ _ => 0

/-- the variables a statement computes something from -/
def Stmt.operands : Stmt K F → List Nat
  | .expr i => i.first :: i.others
  | .call _ args _ => args
  | .index x _ => [x]
  | _ => []

/-- The statements of a method in order, each with the number of variables created before it; `n` variables have been created before. -/
def Body.stmts : Nat → Body K F → List (Nat × Stmt K F)
  | _, .done => []
  | n, .stmt s rest => (n, s) :: rest.stmts (n + s.count)
  | n, .add _ _ _ _ rest => rest.stmts n

/-- the statement `s` of the method, which creates variables from number `n` -/
def Body.Has (b : Body K F) (n : Nat) (s : Stmt K F) : Prop := (n, s) ∈ b.stmts 0

/-- the submodels: name, promotes, method -/
def Body.subs : Body K F → List (Name × Option (List Name) × Body K F)
  | .done => []
  | .stmt _ rest => rest.subs
  | .add _ n p sub rest => (n, p, sub) :: rest.subs

/-- `BAt b path b'`: `b'` is the method of the model reached from the main model through the submodels named in `path`. -/
inductive BAt : Body K F → List Name → Body K F → Prop
  | here (b : Body K F) : BAt b [] b
  | down {b : Body K F} {n : Name} {p : Option (List Name)} {sub : Body K F} {path : List Name} {b' : Body K F} : (n, p, sub) ∈ b.subs → BAt sub path b' → BAt b (n :: path) b'

/-- the normalised key and the flat indices that `key` selects from an array (Verif/Model/Indexing.lean; for keys of ints and slices these are NumPy's: C19, `C73_part_is_numpy`) -/
def keyPart (shape : Shape) (key : Key) : Except IErr (NKey × List Nat) :=
  match normalizeKey shape key with
  | .error e => .error e
  | .ok k => (srcIndices shape k).map fun src => (k, src)

/-- the shape of the part `key` of an array -/
def partShape (shape : Shape) (key : Key) : Shape :=
  match normalizeKey shape key with
  | .error _ => []
  | .ok k => npSliceShape shape k

/-- the multi-index at a row-major position (the inverse of `ravel`) -/
def unravel : Shape → Nat → List Nat
  | [], _ => []
  | _ :: shape, i => i / Shape.size shape :: unravel shape (i % Shape.size shape)

/-- the array whose elements in row-major order are the elements of `a` at the row-major positions `e.2`; its shape is that of the slice `e.1` -/
def gather (shape : Shape) (e : NKey × List Nat) (a : Val K) : Val K := fun j => a (unravel shape (e.2.getD (ravel (npSliceShape shape e.1) j) 0))

/-- the part `key` of an array `a` of shape `shape` -/
def part (shape : Shape) (key : Key) (a : Val K) : Val K :=
  match keyPart shape key with
  | .error _ => a
  | .ok e => gather shape e a

/-- the shapes of the variables: an operator's result has the shape of its first operand -/
def stepShapes (ss : List Shape) : Stmt K F → List Shape
  | .input _ s _ | .declare _ s _ | .output _ s _ => ss ++ [s]
  | .expr i => ss ++ [ss.getD i.first []]
  | .call _ _ outs => ss ++ outs
  | .index x key => ss ++ [partShape (ss.getD x []) key]
  | .register _ _ | .connect _ _ | .assign _ _ _ => ss

/-- the shapes of the variables that statements create -/
def shapesOf (L : List (Nat × Stmt K F)) : List Shape := L.foldl (fun ss s => stepShapes ss s.2) []

/-- the shapes of all variables of a method -/
def Body.shapes (b : Body K F) : List Shape := shapesOf (b.stmts 0)

/-- After the statements `L`, the variables `x` and `y` are one and the same: one is `+` the other, or both are the same part (`u[0:3]`, `u[:3]`) of variables that are one and the same. -/
inductive Alias (L : List (Nat × Stmt K F)) : Nat → Nat → Prop
  | refl (x : Nat) : Alias L x x
  | symm {x y : Nat} : Alias L x y → Alias L y x
  | trans {x y z : Nat} : Alias L x y → Alias L y z → Alias L x z
  | plus {x y : Nat} : (x, .expr (.pos y)) ∈ L → Alias L x y
  | part {x y u v : Nat} {k l : Key} : (x, .index u k) ∈ L → (y, .index v l) ∈ L → Alias L u v →
      normalizeKey ((shapesOf L).getD u []) k = normalizeKey ((shapesOf L).getD v []) l → Alias L x y

/-- inputs: number, name, shape -/
def inputOf : Nat × Stmt K F → Option (Nat × Name × Shape)
  | (n, .input name s _) => some (n, name, s)
  | _ => none

/-- declared variables: number, name, shape -/
def declaredOf : Nat × Stmt K F → Option (Nat × Name × Shape)
  | (n, .declare name s _) => some (n, name, s)
  | _ => none

/-- outputs: number, name -/
def outputOf : Nat × Stmt K F → Option (Nat × Name)
  | (_, .register name x) => some (x, name)
  | (n, .output name _ _) => some (n, name)
  | _ => none

/-- connections; a repeated connection is issued once -/
def stepConnections (cs : List (Name × Name)) : Stmt K F → List (Name × Name)
  | .connect a b => if (a, b) ∈ cs then cs else cs ++ [(a, b)]
  | _ => cs

/-- the names a method defines -/
def Body.locals (b : Body K F) : Local where
  inputs := ((b.stmts 0).filterMap inputOf).map fun x => ⟨x.2.1, x.2.2⟩
  outputs := ((b.stmts 0).filterMap outputOf).map fun x => ⟨x.2, b.shapes.getD x.1 []⟩
  declared := ((b.stmts 0).filterMap declaredOf).map fun x => ⟨x.2.1, x.2.2⟩
  connections := (b.stmts 0).foldl (fun cs s => stepConnections cs s.2) []

/-- the submodels with their names -/
def Body.toSubs : Body K F → Subs
  | .done => .nil
  | .stmt _ rest => rest.toSubs
  | .add _ n p sub rest => .cons n p (.mk sub.locals sub.toSubs) rest.toSubs

/-- The names of the whole hierarchy. -/
def Body.toModel (b : Body K F) : Model := .mk b.locals b.toSubs

/-- The variable `x` of the method has a name: it is an input, a declared variable, or registered as an output. -/
def Body.Named (b : Body K F) (x : Nat) (name : Name) : Prop :=
  (∃ s, (x, name, s) ∈ (b.stmts 0).filterMap inputOf ∨ (x, name, s) ∈ (b.stmts 0).filterMap declaredOf) ∨ (x, name) ∈ (b.stmts 0).filterMap outputOf

/-- `z[key] = x` is a statement of the method, where `z` and `y` are one and the same. -/
def Body.Assigned (b : Body K F) (y : Nat) (key : Key) (x : Nat) : Prop := ∃ n z, b.Has n (.assign z key x) ∧ Alias (b.stmts 0) z y

/-- The variable `x` matters: it is an input or a registered output, or used to compute one that matters, or is computed by a statement that computes one that matters, or is a part of a
variable of which another part matters, or is assigned to a part of an output, or has the name of one that matters.  (Other variables do not become part of the graph.) -/
inductive Body.Live (b : Body K F) : Nat → Prop
  | input {x : Nat} {name : Name} {s : Shape} : (x, name, s) ∈ (b.stmts 0).filterMap inputOf → b.Live x
  | output {x : Nat} {name : Name} : (x, name) ∈ (b.stmts 0).filterMap outputOf → b.Live x
  | operand {x y n : Nat} {s : Stmt K F} : b.Live y → b.Has n s → n ≤ y → y < n + s.count → x ∈ s.operands → b.Live x
  | result {x y n : Nat} {s : Stmt K F} : b.Live y → b.Has n s → n ≤ y → y < n + s.count → n ≤ x → x < n + s.count → b.Live x
  | part {x y u v : Nat} {k l : Key} : b.Live y → b.Has y (.index u k) → b.Has x (.index v l) → Alias (b.stmts 0) u v → b.Live x
  | assigned {x n z : Nat} {key : Key} : b.Has n (.assign z key x) → b.Live x
  | same {x y : Nat} {name : Name} : b.Live y → b.Named y name → b.Named x name → b.Live x

/-- The variable `x` of the model at `path` matters and has, in the main model, the promoted name `p`. -/
def HasName (b : Body K F) (path : List Name) (x : Nat) (p : Name) : Prop :=
  ∃ b' name k w, BAt b path b' ∧ b'.Live x ∧ b'.Named x name ∧ PromotedAs b.toModel path k w p ∧ w.name = name

/-- Values `ρ` (of the variables of all models) solve the program: every statement that matters, of every model, holds as an equation; variables with the same promoted name have equal values, and so have the two ends
of every connection.  `den` is the meaning of the functions. -/
structure Solution [Field K] (P : Power K) (den : F → List (Val K) → Nat → Val K) (b : Body K F) (ρ : List Name → Nat → Val K) : Prop where
  expr : ∀ path b', BAt b path b' → ∀ n i, b'.Has n (.expr i) → b'.Live n → ρ path n = i.meaning P ((List.range n).map (ρ path))
  call : ∀ path b', BAt b path b' → ∀ n f args outs, b'.Has n (.call f args outs) → ∀ j < outs.length, b'.Live (n + j) → ρ path (n + j) = den f (args.map (ρ path)) j
  index : ∀ path b', BAt b path b' → ∀ n x key, b'.Has n (.index x key) → b'.Live n → ρ path n = part (b'.shapes.getD x []) key (ρ path x)
  /-- the assigned parts of an output `y = self.create_output(...)` have the assigned values, element by element in row-major order; all other elements have the value given to `create_output`.
  (`tgtIndices` are the row-major positions recorded by the assignment: NumPy's for keys with one element per axis that are not negative ints, `C73_assignment_is_numpy`; a negative int is recorded as it is,
  C22, and taken here to be the position of no element.) -/
  output : ∀ path b', BAt b path b' → ∀ y name shape val, b'.Has y (.output name shape val) →
    (∀ key x idx shp, b'.Assigned y key x → tgtIndices shape key = .ok (idx, shp) → ∀ i j : _, idx[j]? = some (ravel shape i : Int) → ρ path y i = ρ path x (unravel shp j)) ∧
    ∀ i, (∀ key x idx shp, b'.Assigned y key x → tgtIndices shape key = .ok (idx, shp) → (ravel shape i : Int) ∉ idx) → ρ path y i = val i
  shared : ∀ path x path' y p, HasName b path x p → HasName b path' y p → ρ path x = ρ path' y
  connected : ∀ path b', BAt b path b' → ∀ s t p q, (s, t) ∈ b'.locals.connections → Denotes b.toModel (fullName path s) p → Denotes b.toModel (fullName path t) q →
    ∀ path1 x path2 y, HasName b path1 x p → HasName b path2 y q → ρ path1 x = ρ path2 y

/-- The variables `(path, x)` and `(path', y)` are the same: they have the same promoted name, or are the two ends of a connection, or are aliases. -/
inductive Same (b : Body K F) : List Name × Nat → List Name × Nat → Prop
  | name {path path' : List Name} {x y : Nat} (p : Name) : HasName b path x p → HasName b path' y p → Same b (path, x) (path', y)
  | connection {path1 path2 : List Name} {x y : Nat} (path : List Name) (b' : Body K F) (s t p q : Name) : BAt b path b' → (s, t) ∈ b'.locals.connections →
      Denotes b.toModel (fullName path s) p → Denotes b.toModel (fullName path t) q → HasName b path1 x p → HasName b path2 y q → Same b (path1, x) (path2, y)
  | «alias» {path : List Name} {x y : Nat} (b' : Body K F) : BAt b path b' → b'.Live x → b'.Live y → Alias (b'.stmts 0) x y → Same b (path, x) (path, y)

/-- the statement computes its results: a call, an operator other than unary plus, a part of a variable, or an output that is assembled from parts -/
def Stmt.Computes : Stmt K F → Prop
  | .expr (.pos _) => False
  | .expr _ | .call _ _ _ | .index _ _ | .output _ _ _ => True
  | _ => False

/-- The variable `x` of the model at `path` matters, and no variable that is the same is computed by a statement that matters: its value must be given. -/
def GivenVar (b : Body K F) (path : List Name) (x : Nat) : Prop :=
  (∃ b', BAt b path b' ∧ b'.Live x) ∧ ∀ path' b' n s y, BAt b path' b' → b'.Has n s → s.Computes → n ≤ y → y < n + s.count → b'.Live y → ¬ Relation.EqvGen (Same b) (path, x) (path', y)

/-- objects refer only to objects that exist -/
def Closed (objs : List (PObj K F)) : Prop := ∀ p ∈ objs, ∀ i ∈ p.obj.deps ++ p.obj.outs, i < objs.length

/-- a name of the form automatic names have (in programs with fewer than 63^4 objects) -/
def AutoLike (name : Name) : Prop := name.length = 5 ∧ name.head? = some '_'

/-- The names of a program are as they should be (most of this is not checked by csdl: C15, C28, C01): in every model inputs and outputs have different names, declared variables other names without
dots, submodels non-empty names that are not names of variables, and no name looks like an automatic one. -/
structure GoodNames (b : Body K F) : Prop where
  sources : ∀ path b', BAt b path b' → (b'.locals.sources.map VarInfo.name).Nodup
  declared : ∀ path b', BAt b path b' → ∀ w ∈ b'.locals.declared, '.' ∉ w.name ∧ w.name ∉ b'.locals.sources.map VarInfo.name
  notAuto : ∀ path b', BAt b path b' → ∀ w ∈ b'.locals.sources ++ b'.locals.declared, ¬ AutoLike w.name
  subs : ∀ path b', BAt b path b' → ∀ s ∈ b'.subs, s.1 ≠ [] ∧ ¬ AutoLike s.1 ∧ s.1 ∉ (b'.locals.sources ++ b'.locals.declared).map VarInfo.name

/-- the array whose elements at the row-major positions `e.2` are the elements of `a`, an array of shape `e.1`, in row-major order, for the first such `(e, a)`, and the elements of `val` elsewhere -/
def scatter (shape : Shape) (val : Val K) : List ((Shape × List Int) × Val K) → Val K
  | [] => val
  | (e, a) :: rest => fun i => if (ravel shape i : Int) ∈ e.2 then a (unravel e.1 (e.2.idxOf (ravel shape i : Int))) else scatter shape val rest i

/-- the meaning of an operation: of each of its results, from the values of its arguments -/
def Kind.eval [Field K] (P : Power K) (den : F → List (Val K) → Nat → Val K) (args : List (Val K)) (j : Nat) : Kind K F → Val K
  | .arith k => k.eval P args
  | .fn f => den f args j
  | .part shape es => gather shape (es.getD j ([], [])) (args.headD fun _ => 0)
  | .assemble shape val es => scatter shape val (es.zip args)

/-- The meaning of the operation objects of a program: `v` is one of the results of `i`. -/
def opMeaning [Field K] (P : Power K) (den : F → List (Val K) → Nat → Val K) (objs : List (PObj K F)) (i : Nat) (args : List (Val K)) (v : Nat) : Val K :=
  match kindOf objs i with
  | some k => k.eval P den args ((objects objs i).outs.idxOf v)
  | none => fun _ => 0

end Csdl.Prog
