import Verif.Model.Params
/-
Model of csdl/solvers: the options of each solver class.
-/
namespace Csdl.Solvers
open Csdl Csdl.Params

/-- The Python values a user may pass for an option.  `float` is a finite float (its rational value), `obj` any other object, with its identity; two lists are equal if their elements are.
Simplified: lists have strings as elements; infinite floats are not modelled. -/
inductive Val where
  | none | bool (b : Bool) | int (i : Int) | float (q : Rat) | nan | str (s : Name) | list (l : List Name) | obj (id : Nat)
  deriving DecidableEq

/-- The types named in the declarations of solver options. -/
inductive Ty where
  | int | bool | list
  deriving DecidableEq

/-- the number a value stands for in comparisons (`True == 1`) -/
def Val.num : Val → Option Rat
  | .bool b => some (if b then 1 else 0)
  | .int i => some i
  | .float q => some q
  | _ => Option.none

/-- `isinstance(v, t)` (bool is a subclass of int) -/
def Val.hasType : Val → Ty → Bool
  | .bool _, .bool => true
  | .bool _, .int => true
  | .int _, .int => true
  | .list _, .list => true
  | _, _ => false

/-- `a == b` -/
def Val.pyEq (a b : Val) : Bool :=
  match a.num, b.num with
  | some x, some y => decide (x = y)
  | _, _ => decide (a = b ∧ a ≠ .nan)

/-- `a < b` for numbers; a comparison with nan is false; `none`: TypeError.  (Only numbers are compared: every bound is a float.) -/
def Val.pyLt (a b : Val) : Option Bool :=
  match a, b with
  | .nan, .nan => some false
  | .nan, b => if b.num.isSome then some false else Option.none
  | a, .nan => if a.num.isSome then some false else Option.none
  | a, b =>
    match a.num, b.num with
    | some x, some y => some (decide (x < y))
    | _, _ => Option.none

/-- What `Parameters` uses of Python, for these values. -/
def python : Py Val Ty :=
  { eq := Val.pyEq, isNone := fun a => decide (a = .none), isInst := Val.hasType, gt := fun a b => Val.pyLt b a, lt := Val.pyLt, ofBool := .bool, isBool := fun t => decide (t = .bool) }

/-- The solver classes: csdl/solvers/__init__.py:1-16, and the classes of csdl/solvers/linear/user_defined.py, csdl/solvers/nonlinear/broyden.py and csdl/solvers/nonlinear/nonlinear_runonce.py. -/
inductive Cls where
  | solver | linearSolver | nonlinearSolver | blockLinearSolver
  | directSolver | linearBlockGS | linearBlockJac | linearRunOnce | petscKrylov | scipyKrylov | linearUserDefined
  | newtonSolver | broydenSolver | nonlinearBlockGS | nonlinearBlockJac | nonlinearRunOnce
  | linesearchSolver | boundsEnforceLS | armijoGoldsteinLS
  deriving DecidableEq

abbrev Call := PCall Val Ty

/-- a declaration with a type and a default value -/
def typed (n : String) (t : Ty) (v : Val) : Call := .declare n.toList { default := some v, types := some (.one t) }
/-- a declaration with only a default value -/
def untyped (n : String) (v : Val) : Call := .declare n.toList { default := some v }
/-- a declaration with a default value and a list of values -/
def oneOf (n v : String) (l : List String) : Call := .declare n.toList { default := some (.str v.toList), values := some (l.map fun s => .str s.toList) }

/-- csdl/solvers/solver.py:68-88: the options every solver declares -/
def baseOptions : List Call :=
  [typed "maxiter" .int (.int 10), untyped "atol" (.float (mkRat 1 10000000000)), untyped "rtol" (.float (mkRat 1 10000000000)), typed "iprint" .int (.int 1), typed "err_on_non_converge" .bool (.bool false)]

/-- csdl/solvers/linear_solver.py:30-40 -/
def linearOptions : List Call := [typed "assemble_jac" .bool (.bool false)]

/-- csdl/solvers/nonlinear_solver.py:29-53 -/
def nonlinearOptions : List Call := [typed "debug_print" .bool (.bool false), untyped "stall_limit" (.int 0), untyped "stall_tol" (.float (mkRat 1 1000000000000))]

/-- csdl/solvers/linear/linear_block_gs.py:36-58, csdl/solvers/nonlinear/nonlinear_block_gs.py:43-59 -/
def aitkenOptions : List Call :=
  [typed "use_aitken" .bool (.bool false), untyped "aitken_min_factor" (.float (mkRat 1 10)), untyped "aitken_max_factor" (.float (mkRat 3 2)), untyped "aitken_initial_factor" (.float 1)]

/-- csdl/solvers/linear/petsc_ksp.py:5-12 -/
def kspTypes : List String :=
  ["richardson", "chebyshev", "cg", "groppcg", "pipecg", "pipecgrr", "cgne", "nash", "stcg", "gltr", "fcg", "pipefcg", "gmres", "pipefgmres", "fgmres", "lgmres", "dgmres", "pgmres", "tcqmr", "bcgs", "ibcgs",
   "fbcgs", "fbcgsr", "bcgsl", "cgs", "tfqmr", "cr", "pipecr", "lsqr", "preonly", "qcg", "bicg", "minres", "symmlq", "lcd", "python", "gcr", "pipegcr", "tsirm", "cgls"]

/-- csdl/solvers/linesearch/backtracking.py:41-66 -/
def linesearchOptions : List Call := nonlinearOptions ++ [oneOf "bound_enforcement" "scalar" ["vector", "scalar", "wall"], untyped "print_bound_enforce" (.bool false)]

/-- `_declare_options` of each class, with the calls of `super()._declare_options()` in place (csdl/solvers/…, in the order of `Cls`: solver.py:160-166, linear_solver.py:30-40, nonlinear_solver.py:29-53,
block_linear_solver.py:10-15, linear/direct.py:13-33, linear/linear_block_gs.py:36-58, linear/linear_block_jac.py:5-10, linear/linear_runonce.py:14-28, linear/petsc_ksp.py:33-60,
linear/scipy_iter_solver.py:38-61, linear/user_defined.py:6-35, nonlinear/newton.py:40-73, nonlinear/broyden.py:76-148, nonlinear/nonlinear_block_gs.py:37-80, nonlinear/nonlinear_block_jac.py:5-10,
nonlinear/nonlinear_runonce.py:18-30, linesearch/backtracking.py:41-66, 79-91, 115-150). -/
def declareOptions : Cls → List Call
  | .solver => []
  | .linearSolver => linearOptions
  | .nonlinearSolver => nonlinearOptions
  | .blockLinearSolver => linearOptions
  | .directSolver => linearOptions ++ [typed "err_on_singular" .bool (.bool true), .undeclare "maxiter".toList, .undeclare "err_on_non_converge".toList, .undeclare "atol".toList, .undeclare "rtol".toList,
      .set "assemble_jac".toList (.bool true)]
  | .linearBlockGS => linearOptions ++ aitkenOptions
  | .linearBlockJac => linearOptions
  | .linearRunOnce => linearOptions ++ aitkenOptions ++ [.undeclare "atol".toList, .undeclare "rtol".toList, .undeclare "maxiter".toList, .undeclare "err_on_non_converge".toList]
  | .petscKrylov => linearOptions ++ [oneOf "ksp_type" "fgmres" kspTypes, typed "restart" .int (.int 1000), oneOf "precon_side" "right" ["left", "right"], .set "maxiter".toList (.int 100)]
  | .scipyKrylov => linearOptions ++ [oneOf "solver" "gmres" ["gmres"], typed "restart" .int (.int 20), .set "maxiter".toList (.int 1000), .set "atol".toList (.float (mkRat 1 1000000000000))]
  | .linearUserDefined => linearOptions
  | .newtonSolver => nonlinearOptions ++ [.declare "solve_subsystems".toList { types := some (.one .bool) }, typed "max_sub_solves" .int (.int 10), typed "cs_reconverge" .bool (.bool true),
      typed "reraise_child_analysiserror" .bool (.bool false)]
  | .broydenSolver => nonlinearOptions ++ [untyped "alpha" (.float (mkRat 2 5)), typed "compute_jacobian" .bool (.bool true), untyped "converge_limit" (.float 1), typed "cs_reconverge" .bool (.bool true),
      untyped "diverge_limit" (.float 2), untyped "max_converge_failures" (.int 3), untyped "max_jacobians" (.int 10), untyped "state_vars" (.list []), untyped "update_broyden" (.bool true),
      typed "reraise_child_analysiserror" .bool (.bool false)]
  | .nonlinearBlockGS => nonlinearOptions ++ aitkenOptions ++ [typed "cs_reconverge" .bool (.bool true), typed "use_apply_nonlinear" .bool (.bool false), typed "reraise_child_analysiserror" .bool (.bool false)]
  | .nonlinearBlockJac => nonlinearOptions
  | .nonlinearRunOnce => [.undeclare "atol".toList, .undeclare "rtol".toList, .undeclare "maxiter".toList, .undeclare "err_on_non_converge".toList]
  | .linesearchSolver => linesearchOptions
  | .boundsEnforceLS => linesearchOptions ++ [.undeclare "atol".toList, .undeclare "rtol".toList, .undeclare "maxiter".toList, .undeclare "err_on_non_converge".toList]
  | .armijoGoldsteinLS => linesearchOptions ++ [.set "maxiter".toList (.int 5),
      .declare "c".toList { default := some (.float (mkRat 1 10)), lower := some (.float 0), upper := some (.float 1) },
      .declare "rho".toList { default := some (.float (mkRat 1 2)), lower := some (.float 0), upper := some (.float 1) },
      .declare "alpha".toList { default := some (.float 1), lower := some (.float 0) }, untyped "retry_on_analysis_error" (.bool true), oneOf "method" "Armijo" ["Armijo", "Goldstein"]]

/-- the calls one after the other, up to the first that raises -/
def runAll : Params Val Ty → List Call → Except PErr (Params Val Ty)
  | p, [] => .ok p
  | p, c :: cs =>
    match step python p c with
    | (p, none) => runAll p cs
    | (_, some e) => .error e

/-- csdl/solvers/solver.py:48-144 `Solver.__init__` (which every class's `__init__` calls with its keyword arguments): the `options` of the new solver.
Not modelled: the other attributes, `recording_options` and `supports`. -/
def construct (c : Cls) (kwargs : List (Name × Val)) : Except PErr (Params Val Ty) :=
  match runAll {} (baseOptions ++ declareOptions c) with
  | .error e => .error e
  | .ok p =>
    match update python p kwargs with
    | (p, none) => .ok p
    | (_, some e) => .error e

/-- `solver.options[name] = value`, any number of times, whether they raise or not -/
def assignAll (p : Params Val Ty) (l : List (Name × Val)) : Params Val Ty := l.foldl (fun p e => (setItem python p e.1 e.2).1) p

end Csdl.Solvers
