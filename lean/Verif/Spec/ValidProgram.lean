import Verif.Spec.Program
/-
Specification for C74: which programs run, and which are valid.  All conditions are on the text of the program.
-/
namespace Csdl.Prog
open Csdl Csdl.Arith
variable {K F : Type}

/-- letters, digits and underscores -/
def Allowed (name : Name) : Prop := ∀ c ∈ name, c.isAlphanum = true ∨ c = '_'

/-- the number of variables the statements create -/
def numVars (L : List (Nat × Stmt K F)) : Nat := (L.map fun s => s.2.count).sum

/-- the name a statement defines -/
def Stmt.defines : Stmt K F → Option Name
  | .input name _ _ | .declare name _ _ | .register name _ | .output name _ _ => some name
  | _ => none

/-- the statement divides by the number zero -/
def DividesByZero [Zero K] : Instr K → Prop
  | .divc _ (.num c) => c = 0
  | _ => False

/-- After the statements `L`, `x` has the name `name`: it is the same variable as an input, declared variable or output of this name. -/
def NamedIn (L : List (Nat × Stmt K F)) (x : Nat) (name : Name) : Prop :=
  ∃ y, Alias L x y ∧ ((∃ s, (y, name, s) ∈ L.filterMap inputOf ∨ (y, name, s) ∈ L.filterMap declaredOf) ∨ (y, name) ∈ L.filterMap outputOf)

/-- The name `x` had after the statements `L` is the name `x'` has after the statements `L'`, which begin with `L`: both had no name and are one and the same variable, or both had the same name. -/
def SameNameIn (L : List (Nat × Stmt K F)) (x : Nat) (L' : List (Nat × Stmt K F)) (x' : Nat) : Prop :=
  (∃ name, NamedIn L x name ∧ NamedIn L' x' name) ∨ (Alias L' x x' ∧ (∀ name, ¬ NamedIn L x name) ∧ ∀ name, ¬ NamedIn L' x' name)

/-- The statement is fine after the statements `L` of the same method. -/
def StmtOk [Zero K] (L : List (Nat × Stmt K F)) : Stmt K F → Prop
  | .input name _ _ => Allowed name
  | .declare _ _ _ => True
  | .expr i => (∀ x ∈ i.first :: i.others, x < numVars L) ∧ (∀ x ∈ i.others, (shapesOf L).getD x [] = (shapesOf L).getD i.first []) ∧ ¬ DividesByZero i
  | .call _ args _ => ∀ x ∈ args, x < numVars L
  -- the key selects elements of the variable
  | .index x key => x < numVars L ∧ ∃ e, keyPart ((shapesOf L).getD x []) key = .ok e
  | .output name _ _ => Allowed name ∧ ∀ y ∈ L, y.2.defines ≠ some name
  | .assign z key x => z < numVars L ∧ x < numVars L ∧
      -- an output assembled from parts
      ∃ y name shape val idx, (y, Stmt.output name shape val) ∈ L ∧ Alias L z y ∧
        -- the key selects elements, as many as `x` has
        tgtIndices shape key = .ok (idx, (shapesOf L).getD x []) ∧ (∀ i ∈ idx, i < shape.size) ∧
        -- earlier assignments are of variables of other names, to other elements
        ∀ L1 n z' key' x' L2, L = L1 ++ (n, .assign z' key' x') :: L2 → Alias L z' y → ¬ SameNameIn L1 x' L x ∧ ∀ idx' shp, tgtIndices shape key' = .ok (idx', shp) → ∀ i ∈ idx', i ∉ idx
  | .register name x => Allowed name ∧ x < numVars L ∧
      -- a result of an operation
      (∃ n s y, (n, s) ∈ L ∧ s.Computes ∧ n ≤ y ∧ y < n + s.count ∧ Alias L x y) ∧
      -- registered once
      (∀ x' name', (x', name') ∈ L.filterMap outputOf → ¬ Alias L x' x) ∧
      -- the name is new
      ∀ y ∈ L, y.2.defines ≠ some name
  | .connect a b => a ≠ b

/-- the most objects a statement creates: an operation, its results, and for each operand a copy with its operation -/
def Stmt.maxObjects : Stmt K F → Nat
  | .input _ _ _ | .declare _ _ _ | .output _ _ _ | .assign _ _ _ => 1
  | .expr i => 2 * (i.first :: i.others).length + 2
  | .call _ args outs => 2 * args.length + 1 + outs.length
  | .index _ _ => 2
  | .register _ _ | .connect _ _ => 0

/-- the most objects the program creates -/
def Body.maxObjects : Body K F → Nat
  | .done => 0
  | .stmt s rest => s.maxObjects + rest.maxObjects
  | .add _ _ _ sub rest => 1 + sub.maxObjects + rest.maxObjects

/-- the program contains an assignment to a part of an output -/
def Body.Assigns (b : Body K F) : Prop := ∃ path b' n z key x, BAt b path b' ∧ b'.Has n (.assign z key x)

/-- The names given in the program are not automatic names.  (This matters for programs with assignments to parts of outputs only: they are recorded under the name of what is assigned.) -/
def PlainNames (b : Body K F) : Prop :=
  b.Assigns → b.maxObjects ≤ 63 ^ 4 ∧ ∀ path b' n s name, BAt b path b' → b'.Has n s → s.defines = some name → ¬ AutoLike name

/-- as `PlainNames`, in a session in which `n` objects were created before -/
def PlainAfter (n : Nat) (b : Body K F) : Prop :=
  b.Assigns → n + b.maxObjects ≤ 63 ^ 4 ∧ ∀ path b' n s name, BAt b path b' → b'.Has n s → s.defines = some name → ¬ AutoLike name

/-- A method is fine: every statement is, after the ones before it; outputs assembled from parts have one; submodels have different allowed names; there is an input, an output or a submodel. -/
structure MethodOk [Zero K] (b : Body K F) : Prop where
  stmts : ∀ L y L', b.stmts 0 = L ++ y :: L' → StmtOk L y.2
  assigned : ∀ y name shape val, b.Has y (.output name shape val) → ∃ key x, b.Assigned y key x
  subNames : (b.subs.map (·.1)).Nodup
  subAllowed : ∀ s ∈ b.subs, Allowed s.1
  nonEmpty : b.locals.inputs ≠ [] ∨ b.locals.outputs ≠ [] ∨ b.subs ≠ []

/-- The connection from `src` to `tgt` (full or promoted names) is valid: both names denote variables; the source is the name of an input or registered output; the target is the name of a variable that matters
and not the name of a registered output; the numbers of elements agree. -/
def ConnectionOk (b : Body K F) (src tgt : Name) : Prop :=
  ∃ p q, Denotes b.toModel src p ∧ Denotes b.toModel tgt q ∧ (∃ path w, PromotedAs b.toModel path .source w p) ∧ (∃ path x, HasName b path x q) ∧
    (∀ path b' w, BAt b path b' → w ∈ b'.locals.outputs → ¬ PromotedAs b.toModel path .source w q) ∧
    ∀ k path w k' path' w', PromotedAs b.toModel path k w p → PromotedAs b.toModel path' k' w' q → w.shape.size = w'.shape.size

/-- A statement that matters computes the variable `r` from the variable `q`, or assigns `q` to a part of `r`. -/
def Feeds (b : Body K F) (q r : List Name × Nat) : Prop :=
  (∃ b' n s, q.1 = r.1 ∧ BAt b r.1 b' ∧ b'.Has n s ∧ s.Computes ∧ n ≤ r.2 ∧ r.2 < n + s.count ∧ b'.Live r.2 ∧ q.2 ∈ s.operands) ∨
  ∃ b' name shape val key, q.1 = r.1 ∧ BAt b r.1 b' ∧ b'.Has r.2 (.output name shape val) ∧ b'.Assigned r.2 key q.2

/-- A variable is computed from itself, through statements and variables that are the same. -/
def CircularProgram (b : Body K F) : Prop := ∃ q, Relation.TransGen (fun a c => ∃ a', Relation.EqvGen (Same b) a a' ∧ Feeds b a' c) q q

/-- A program is valid. -/
structure ValidProgram [Zero K] (b : Body K F) : Prop where
  methods : ∀ path b', BAt b path b' → MethodOk b'
  names : GoodNames b
  /-- in no model do inputs or outputs of different models have the same name -/
  oneSource : ∀ path b', BAt b path b' → ∀ p path1 v1 path2 v2, PromotedAs b'.toModel path1 .source v1 p → PromotedAs b'.toModel path2 .source v2 p → path1 = path2
  /-- variables of different models with the same name in some model have equal numbers of elements -/
  sizes : ∀ path b', BAt b path b' → ∀ p k1 path1 v1 k2 path2 v2, PromotedAs b'.toModel path1 k1 v1 p → PromotedAs b'.toModel path2 k2 v2 p → path1 ≠ path2 → v1.shape.size = v2.shape.size
  /-- promoted names are names of the submodel -/
  promotes : ∀ path b', BAt b path b' → ∀ n q sub, (n, some q, sub) ∈ b'.subs → ∀ x ∈ q, '.' ∉ x ∧ ∃ path' k v, PromotedAs sub.toModel path' k v x
  connections : ∀ path b' a c, BAt b path b' → (a, c) ∈ b'.locals.connections → ConnectionOk b (fullName path a) (fullName path c)
  /-- a variable is the target of one connection -/
  oneConnection : (issuedPost Local.connections b.toModel).Pairwise fun i j => ∀ q, Denotes b.toModel (fullName i.1 i.2.2) q → ¬ Denotes b.toModel (fullName j.1 j.2.2) q
  noChain : NoChain b.toModel
  acyclic : ¬ CircularProgram b

end Csdl.Prog
