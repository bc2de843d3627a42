import Verif.Model.ProgramFull
import Verif.Model.Elementwise
import Verif.Model.StdShapes
/-
Model of csdl programs that call the functions of the standard library: csdl/std/__init__.py:1-47.  A function computes the shapes of its results from the shapes of its arguments, or raises an exception; then it creates its operation.
Simplifications: arguments are variables (unless said otherwise); new shapes given to `reshape` and `expand` are tuples of numbers that are not negative; constant matrices and arrays are given by their shapes
and a number that stands for their elements; parameters on which no shape depends are left out where there is no check on them (`rho` of `max` and `min`, the solver of `solve`).
-/
namespace Csdl.Prog
open Csdl Csdl.Arith Csdl.Axes Csdl.StdShapes

/-- The functions of the library that create one operation.  `sp`: the shape of a sparse matrix, `m`: its elements. -/
inductive Lib (K : Type) where
  | elem (f : Elem.Fn)
  | matmat | matvec | matvecSparse (sp : Nat × Nat) (m : Nat) | sparsematmat (sp : Nat × Nat) (m : Nat)
  | dot (axis : Option Int) | cross (axis : Int) | outer | inner (axes : Option (List (List Int)))
  | sum (axes : AxesArg) | max (axis : Option Int) | min (axis : Option Int) | average (axes : AxesArg) | pnorm (p : Int) (axis : AxesArg)
  | quatrotvec | rotmat (axis : Name) | eigenvalues
  | reshape (new : Shape) | transpose | reorderAxes (operation : List Char) | expand (shape : Shape) (indices : Option (List Char))
  | einsum (subscripts : List Char) | einsumNewApi (operation : List (List Nat))
  | expA (a : Elem.Base K) (elems : Nat) | bessel (kind : Int) (order : Elem.Order) (elems : Nat)

/-- The operations of the library: those of its functions, `csdl.operations.exp_a` with a variable as base, and `csdl.operations.solve_linear` (csdl/operations/exp_a.py:4-16, csdl/operations/solve_linear.py:5-24);
`a`, `b`: the constant matrix and right-hand side, if they are constants.  `ins`: the shapes of the arguments, which the operation has as attributes of its dependencies. -/
inductive LOp (K : Type) where
  | lib (f : Lib K) (ins : List Shape)
  | expAVar (ins : List Shape)
  | solveLinear (a b : Option Nat) (ins : List Shape)

/-- exceptions of Verif/Model/Axes.lean -/
def ofX : XErr → Err
  | .value => .value
  | .index => .index .index
  | .key => .key

/-- exceptions of Verif/Model/Elementwise.lean -/
def ofE : Elem.EErr → Err
  | .value => .value
  | .type => .type

/-- one result -/
def oneX : Except XErr Shape → Except Err (List Shape)
  | .error e => .error (ofX e)
  | .ok s => .ok [s]
def oneE : Except Elem.EErr Shape → Except Err (List Shape)
  | .error e => .error (ofE e)
  | .ok s => .ok [s]

/-- two results -/
def twoX : Except XErr (Shape × Shape) → Except Err (List Shape)
  | .error e => .error (ofX e)
  | .ok s => .ok [s.1, s.2]

/-- csdl/std/reshape.py:19-38 for a tuple of numbers that are not negative -/
def reshapeShape (s new : Shape) : Except XErr Shape := if s.size ≠ new.size then .error .value else .ok new

/-- The shapes of the results, from those of the arguments; with a wrong number of arguments: TypeError. -/
def Lib.shapes {K : Type} : Lib K → List Shape → Except Err (List Shape)
  | .elem _, [s] => .ok [s]                                                             -- csdl/std/sin.py:6-17 etc.
  | .matmat, [a, b] => oneX (StdShapes.matmat a b)                                      -- csdl/std/matmat.py:25-40
  | .matvec, [a, b] => oneX (StdShapes.matvec a b)                                      -- csdl/std/matvec.py:24-54
  | .matvecSparse sp _, [b] => oneX (StdShapes.matvec [sp.1, sp.2] b)                   -- csdl/std/matvec.py:24-54
  | .sparsematmat sp _, [a] => oneX (StdShapes.sparsematmat a sp)                       -- csdl/std/sparsematmat.py:24-48
  | .dot axis, [a, b] => oneX (StdShapes.dot a b axis)                                  -- csdl/std/dot.py:26-47
  | .cross axis, [a, b] => oneX (StdShapes.cross a b axis)                              -- csdl/std/cross.py:25-37
  | .outer, [a, b] => .ok [StdShapes.outer a b]                                         -- csdl/std/outer.py:26-32
  | .inner axes, [a, b] => oneX (StdShapes.inner a b axes)                              -- csdl/std/inner.py:29-53
  | .sum axes, l => oneX (StdShapes.sum l axes)                                         -- csdl/std/sum.py:8-73
  | .max axis, l => oneX (maxMin l axis)                                                -- csdl/std/max.py:8-72
  | .min axis, l => oneX (maxMin l axis)                                                -- csdl/std/min.py:8-72
  | .average axes, l => oneX (StdShapes.average l axes)                                 -- csdl/std/average.py:27-40
  | .pnorm p axis, [a] => oneX (StdShapes.pnorm a p axis)                               -- csdl/std/pnorm.py:26-46
  | .quatrotvec, [a, b] => oneX (StdShapes.quatrotvec a b)                              -- csdl/std/quatrotvec.py:25-43
  | .rotmat _, [a] => .ok [StdShapes.rotmat a]                                          -- csdl/std/rotmat.py:20-33
  | .eigenvalues, [a] => twoX (StdShapes.eigenvalues a)                                 -- csdl/std/eigenvalues.py:24-55
  | .reshape new, [a] => oneX (reshapeShape a new)                                      -- csdl/std/reshape.py:19-38
  | .transpose, [a] => .ok [Axes.transpose a]                                           -- csdl/std/transpose.py:18-28
  | .reorderAxes operation, [a] => oneX (Axes.reorderAxes a operation)                  -- csdl/std/reorder_axes.py:22-39
  | .expand shape indices, [a] => oneX (Axes.expand a shape indices)                    -- csdl/std/expand.py:9-57
  | .einsum subscripts, l => oneX (Axes.einsum l subscripts)                            -- csdl/std/einsum.py:10-44
  | .einsumNewApi operation, l => oneX (Axes.einsumNewApi l operation)                  -- csdl/std/einsum_new_api.py:9-45
  | .expA a _, [s] => oneE (Elem.expA a (some s))                                       -- csdl/std/exp_a.py:8-48
  | .bessel kind order _, [s] => oneE (Elem.bessel (some s) (some kind) order)          -- csdl/std/bessel.py:7-45
  | _, _ => .error .type

/-- a variable, or a constant array of the given shape -/
inductive Operand where
  | var (x : Nat)
  | const (shape : Shape) (elems : Nat)

/-- A statement of a `define` method.  Variables are numbered in the order of their creation, also those that a function creates for itself. -/
inductive LStmt (K G I : Type) where
  /-- a statement that calls no function of the library -/
  | base (s : XStmt K Empty G I)
  /-- `x = csdl.f(*args)`, or two results -/
  | call (f : Lib K) (args : List Nat)
  /-- `y = csdl.flatten(x)` -/
  | flatten (x : Nat)
  /-- `y = csdl.arsinh(x)` etc. -/
  | inv (f : Elem.Inv) (x : Nat)
  /-- `y = csdl.exp_a(a, x)` for a variable `a` -/
  | expAVar (a x : Nat)
  /-- `x = csdl.solve(a, b)` -/
  | solve (a b : Operand)

variable {K G I : Type}

/-- a statement that calls no function of the library, in a program that does -/
def XStmt.base : XStmt K Empty G I → XStmt K (LOp K) G I
  | .plain s => .plain (s.mapFn fun e => nomatch e)
  | .custom g calls args names => .custom g calls args names
  | .implicit i M fuel fac expose args => .implicit i M fuel fac expose args
  | .designVar name d => .designVar name d
  | .constraint name d => .constraint name d
  | .objective name d => .objective name d

/-- an operation of the library with the arguments `args` and results of the shapes `outs` -/
def libCall (f : LOp K) (args : List Nat) (outs : List Shape) : XStmt K (LOp K) G I := .plain (.call f args outs)

/-- the shape of an operand -/
def Operand.shape (ss : List Shape) : Operand → Except Err Shape
  | .var x => if x < ss.length then .ok (ss.getD x []) else .error .scope
  | .const s _ => .ok s

/-- csdl/std/solve_linear.py:58-70: the right-hand side, of shape `t`, is reshaped to a column, the operation is created, its result is reshaped to the shape `t`; `n`: the number of the next variable; `k`: the number of
rows.  A constant right-hand side is a numpy array, which is reshaped by numpy. -/
def solveSteps (n k : Nat) (t : Shape) : Operand → Operand → Except Err (List (XStmt K (LOp K) G I))
  | .var a, .var b => .ok [libCall (.lib (.reshape [k, 1]) [t]) [b] [[k, 1]], libCall (.solveLinear none none [[k, k], [k, 1]]) [a, n] [[k, 1]], libCall (.lib (.reshape t) [[k, 1]]) [n + 1] [t]]
  | .const _ a, .var b => .ok [libCall (.lib (.reshape [k, 1]) [t]) [b] [[k, 1]], libCall (.solveLinear (some a) none [[k, 1]]) [n] [[k, 1]], libCall (.lib (.reshape t) [[k, 1]]) [n + 1] [t]]
  | .var a, .const _ b => .ok [libCall (.solveLinear none (some b) [[k, k]]) [a] [[k, 1]], libCall (.lib (.reshape t) [[k, 1]]) [n] [t]]
  | .const _ _, .const _ _ => .error .type

/-- the attribute `size` of a variable of the given shape: csdl/lang/variable.py:48; for the object that `create_output` makes (`assembled`) it stays that of the default shape `(1,)`, because csdl/lang/concatenation.py:40-43 sets only
the shape anew (C53) -/
def sizeAttr (shape : Shape) (assembled : Bool) : Nat := if assembled then 1 else shape.size

/-- The operations that a statement creates, as statements with the shapes of their results, if the variables so far have the shapes `ss`; `cs`: which of them are objects made by `create_output`. -/
def LStmt.steps [Field K] (cs : List Bool) (ss : List Shape) : LStmt K G I → Except Err (List (XStmt K (LOp K) G I))
  | .base s => .ok [s.base]
  | .call f args =>
    if args.all (· < ss.length) then
      match f.shapes (args.map (ss.getD · [])) with
      | .error e => .error e
      | .ok outs => .ok [libCall (.lib f (args.map (ss.getD · []))) args outs]
    else .error .scope
  -- csdl/std/reshape.py:42-53: `reshape(var, (var.size,))`
  | .flatten x =>
    if x < ss.length then
      match reshapeShape (ss.getD x []) [sizeAttr (ss.getD x []) (cs.getD x false)] with
      | .error e => .error (ofX e)
      | .ok t => .ok [libCall (.lib (.reshape t) [ss.getD x []]) [x] [t]]
    else .error .scope
  -- csdl/std/arsinh.py etc.: see Verif/Model/Elementwise.lean
  | .inv f x => if x < ss.length then .ok ((f.stmts (ss.getD x []) ss.length x).map fun s => .plain (s.mapFn fun g => .lib (.elem g) [ss.getD x []])) else .error .scope
  -- csdl/std/exp_a.py:17-48: a base of shape (1,) is expanded first
  | .expAVar a x =>
    if a < ss.length ∧ x < ss.length then
      match Elem.expA (.var (ss.getD a []) : Elem.Base K) (some (ss.getD x [])) with
      | .error e => .error (ofE e)
      | .ok s =>
        if ss.getD a [] = [1] then .ok [libCall (.lib (.expand s none) [[1]]) [a] [s], libCall (.expAVar [s, s]) [x, ss.length] [s]]
        else .ok [libCall (.expAVar [s, s]) [x, a] [s]]
    else .error .scope
  -- csdl/std/solve_linear.py:21-70
  | .solve a b =>
    match a.shape ss, b.shape ss with
    | .ok s, .ok t =>
      match StdShapes.solve s t with
      | .error e => .error (ofX e)
      | .ok r => solveSteps ss.length (t.headD 0) r a b
    | _, _ => .error .scope

/-- The statements of a `define` method; `add`: as in Verif/Model/Program.lean. -/
inductive LBody (K G I : Type) where
  | done
  | stmt (s : LStmt K G I) (rest : LBody K G I)
  | add (inline : Bool) (name : Name) (promotes : Option (List Name)) (sub rest : LBody K G I)

/-- statements one after the other -/
def xexecAll [Field K] [DecidableEq K] : XSt K (LOp K) G I → List (XStmt K (LOp K) G I) → Except Err (XSt K (LOp K) G I)
  | xs, [] => .ok xs
  | xs, s :: l =>
    match xexec xs s with
    | .error e => .error e
    | .ok xs => xexecAll xs l

/-- `isinstance(var, Concatenation)` -/
def isAssembled {F : Type} (st : St K F) (o : Nat) : Bool := (st.concat.get? o).isSome

/-- One statement: the functions read the attributes `shape` (and `size`) of the variables. -/
def lexec [Field K] [DecidableEq K] (xs : XSt K (LOp K) G I) (s : LStmt K G I) : Except Err (XSt K (LOp K) G I) :=
  match s.steps (xs.st.env.map (isAssembled xs.st)) (xs.st.env.map (shapeOf xs.st.objs)) with
  | .error e => .error e
  | .ok l => xexecAll xs l

/-- A `define` method: as `xrunOwn` (Verif/Model/ProgramFull.lean) -/
def lrunOwn [Field K] [DecidableEq K] : XSt K (LOp K) G I → LBody K G I → Except Err (XSt K (LOp K) G I × XInl K (LOp K) G I)
  | xs, .done => .ok (xs, .nil)
  | xs, .stmt s rest =>
    match lexec xs s with
    | .error e => .error e
    | .ok xs => lrunOwn xs rest
  | xs, .add false name promotes _ rest =>
    match execAdd xs.st name promotes with
    | .error e => .error e
    | .ok st => lrunOwn { xs with st := st } rest
  | xs, .add true name promotes sub rest =>
    match lrunOwn { st := { objs := xs.st.objs } } sub with
    | .error e => .error e
    | .ok (m, ms) =>
      match execAdd { xs.st with objs := m.st.objs } name promotes with
      | .error e => .error e
      | .ok st =>
        match lrunOwn { xs with st := st } rest with
        | .error e => .error e
        | .ok (xs, r) => .ok (xs, .cons m ms r)

/-- csdl/lang/define_models_recursively.py:22-24: as `xrunSubs` (Verif/Model/ProgramFull.lean) -/
def lrunSubs [Field K] [DecidableEq K] : List (PObj K (Fun (LOp K) G I)) → List (Nat × Name × Option (List Name)) → XInl K (LOp K) G I → LBody K G I → Except Err (List (PObj K (Fun (LOp K) G I)) × OSubs)
  | objs, _, _, .done => .ok (objs, .nil)
  | objs, ids, inl, .stmt _ rest => lrunSubs objs ids inl rest
  | objs, [], _, .add _ _ _ _ _ => .ok (objs, .nil)
  | objs, i :: ids, inl, .add false _ _ sub rest =>
    match lrunOwn { st := { objs := objs } } sub with
    | .error e => .error e
    | .ok (xs, ms) =>
      match lrunSubs xs.st.objs xs.st.subs ms sub with
      | .error e => .error e
      | .ok (objs, ks) =>
        if xs.st.empty || xs.st.undefined then .error .value
        else match lrunSubs objs ids inl rest with
          | .error e => .error e
          | .ok (objs, r) => .ok (objs, .cons i.1 i.2.2 (xs.model ks) r)
  | objs, _ :: _, .nil, .add true _ _ _ _ => .ok (objs, .nil)
  | objs, i :: ids, .cons xs ms inl, .add true _ _ sub rest =>
    match lrunSubs objs xs.st.subs ms sub with
    | .error e => .error e
    | .ok (objs, ks) =>
      if xs.st.empty || xs.st.undefined then .error .value
      else match lrunSubs objs ids inl rest with
        | .error e => .error e
        | .ok (objs, r) => .ok (objs, .cons i.1 i.2.2 (xs.model ks) r)

/-- csdl/lang/define_models_recursively.py:10-52: the whole program; as `xrunFrom` (Verif/Model/ProgramFull.lean) -/
def lrunFrom [Field K] [DecidableEq K] (pre : List (PObj K (Fun (LOp K) G I))) (b : LBody K G I) : Except Err (List (PObj K (Fun (LOp K) G I)) × OModel) :=
  match lrunOwn { st := { objs := pre } } b with
  | .error e => .error e
  | .ok (xs, inl) =>
    match lrunSubs xs.st.objs xs.st.subs inl b with
    | .error e => .error e
    | .ok (objs, ks) => if xs.st.empty || xs.st.undefined then .error .value else .ok (objs, xs.model ks)

end Csdl.Prog
