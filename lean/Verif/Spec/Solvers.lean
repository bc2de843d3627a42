import Verif.Model.Solvers
/-
Specification for C75: the options of each solver class, as a table.
-/
namespace Csdl.Solvers
open Csdl Csdl.Params

/-- What an option accepts. -/
inductive Kind where
  | any | int | bool | oneOf (l : List String) | unit | nonneg
  deriving DecidableEq

/-- The value is acceptable for an option of this kind. -/
def Accepts : Kind → Val → Prop
  | .any, _ => True
  | .int, v => (∃ i, v = .int i) ∨ ∃ b, v = .bool b
  | .bool, v => ∃ q, v.num = some q ∧ (q = 0 ∨ q = 1)
  | .oneOf l, v => ∃ s ∈ l, v = .str s.toList
  | .unit, v => v = .nan ∨ ∃ q, v.num = some q ∧ 0 ≤ q ∧ q ≤ 1
  | .nonneg, v => v = .nan ∨ ∃ q, v.num = some q ∧ 0 ≤ q

/-- A line of the table: name, what it accepts, default value (if any). -/
abbrev Row := String × Kind × Option Val

/-- iteration control, with the default number of iterations and absolute tolerance -/
def iteration (maxiter : Int) (atol : Rat) : List Row :=
  [("maxiter", .int, some (.int maxiter)), ("atol", .any, some (.float atol)), ("rtol", .any, some (.float (mkRat 1 10000000000))), ("iprint", .int, some (.int 1)), ("err_on_non_converge", .bool, some (.bool false))]
def tol : Rat := mkRat 1 10000000000
def once : List Row := [("iprint", .int, some (.int 1))]
def stall : List Row := [("debug_print", .bool, some (.bool false)), ("stall_limit", .any, some (.int 0)), ("stall_tol", .any, some (.float (mkRat 1 1000000000000)))]
def jac (b : Bool) : List Row := [("assemble_jac", .bool, some (.bool b))]
def aitken : List Row :=
  [("use_aitken", .bool, some (.bool false)), ("aitken_min_factor", .any, some (.float (mkRat 1 10))), ("aitken_max_factor", .any, some (.float (mkRat 3 2))), ("aitken_initial_factor", .any, some (.float 1))]
def bounds : List Row := [("bound_enforcement", .oneOf ["vector", "scalar", "wall"], some (.str "scalar".toList)), ("print_bound_enforce", .any, some (.bool false))]
def ksp : List String :=
  ["richardson", "chebyshev", "cg", "groppcg", "pipecg", "pipecgrr", "cgne", "nash", "stcg", "gltr", "fcg", "pipefcg", "gmres", "pipefgmres", "fgmres", "lgmres", "dgmres", "pgmres", "tcqmr", "bcgs", "ibcgs",
   "fbcgs", "fbcgsr", "bcgsl", "cgs", "tfqmr", "cr", "pipecr", "lsqr", "preonly", "qcg", "bicg", "minres", "symmlq", "lcd", "python", "gcr", "pipegcr", "tsirm", "cgls"]

/-- The options of each class. -/
def table : Cls → List Row
  | .solver => iteration 10 tol
  | .linearSolver => iteration 10 tol ++ jac false
  | .nonlinearSolver => iteration 10 tol ++ stall
  | .blockLinearSolver => iteration 10 tol ++ jac false
  | .directSolver => once ++ jac true ++ [("err_on_singular", .bool, some (.bool true))]
  | .linearBlockGS => iteration 10 tol ++ jac false ++ aitken
  | .linearBlockJac => iteration 10 tol ++ jac false
  | .linearRunOnce => once ++ jac false ++ aitken
  | .petscKrylov => iteration 100 tol ++ jac false ++ [("ksp_type", .oneOf ksp, some (.str "fgmres".toList)), ("restart", .int, some (.int 1000)), ("precon_side", .oneOf ["left", "right"], some (.str "right".toList))]
  | .scipyKrylov => iteration 1000 (mkRat 1 1000000000000) ++ jac false ++ [("solver", .oneOf ["gmres"], some (.str "gmres".toList)), ("restart", .int, some (.int 20))]
  | .linearUserDefined => iteration 10 tol ++ jac false
  | .newtonSolver => iteration 10 tol ++ stall ++
      [("solve_subsystems", .bool, none), ("max_sub_solves", .int, some (.int 10)), ("cs_reconverge", .bool, some (.bool true)), ("reraise_child_analysiserror", .bool, some (.bool false))]
  | .broydenSolver => iteration 10 tol ++ stall ++
      [("alpha", .any, some (.float (mkRat 2 5))), ("compute_jacobian", .bool, some (.bool true)), ("converge_limit", .any, some (.float 1)), ("cs_reconverge", .bool, some (.bool true)),
       ("diverge_limit", .any, some (.float 2)), ("max_converge_failures", .any, some (.int 3)), ("max_jacobians", .any, some (.int 10)), ("state_vars", .any, some (.list [])),
       ("update_broyden", .any, some (.bool true)), ("reraise_child_analysiserror", .bool, some (.bool false))]
  | .nonlinearBlockGS => iteration 10 tol ++ stall ++ aitken ++
      [("cs_reconverge", .bool, some (.bool true)), ("use_apply_nonlinear", .bool, some (.bool false)), ("reraise_child_analysiserror", .bool, some (.bool false))]
  | .nonlinearBlockJac => iteration 10 tol ++ stall
  | .nonlinearRunOnce => once
  | .linesearchSolver => iteration 10 tol ++ stall ++ bounds
  | .boundsEnforceLS => once ++ stall ++ bounds
  | .armijoGoldsteinLS => iteration 5 tol ++ stall ++ bounds ++
      [("c", .unit, some (.float (mkRat 1 10))), ("rho", .unit, some (.float (mkRat 1 2))), ("alpha", .nonneg, some (.float 1)), ("retry_on_analysis_error", .any, some (.bool true)),
       ("method", .oneOf ["Armijo", "Goldstein"], some (.str "Armijo".toList))]

/-- The class has this option. -/
def HasOption (c : Cls) (n : Name) (k : Kind) (d : Option Val) : Prop := ∃ s, s.toList = n ∧ (s, k, d) ∈ table c

/-- The value of option `n` (of kind `k`, with default `d`) after these assignments: the last acceptable one, else the default. -/
def IsLast (k : Kind) (d : Option Val) (n : Name) (l : List (Name × Val)) (r : Option Val) : Prop :=
  (∃ l1 v l2, l = l1 ++ (n, v) :: l2 ∧ Accepts k v ∧ (∀ w, (n, w) ∈ l2 → ¬ Accepts k w) ∧ r = some v) ∨ ((∀ w, (n, w) ∈ l → ¬ Accepts k w) ∧ r = d)

end Csdl.Solvers
