import Verif.Props.Library
import Verif.Props.LibShapes
import Verif.Props.OneModel
/-
C83: `csdl.solve` with a constant matrix or a constant right-hand side.
-/
namespace Csdl.Prog
open Csdl Csdl.Arith
variable {K G I : Type} [Field K] [DecidableEq K]

theorem solve_shapes {a c t : Shape} (hs : StdShapes.solve a c = .ok t) : ∃ n, a = [n, n] ∧ (c = [n] ∨ c = [n, 1]) ∧ t = c := by
  unfold StdShapes.solve at hs
  split at hs
  · rename_i n k
    split_ifs at hs with hnk
    cases c with
    | nil => cases hs
    | cons n' q =>
      simp only at hs
      split_ifs at hs with hn'
      have e1 : n = k := by omega
      have e2 : n' = n := by omega
      subst e1 e2
      rcases q with _ | ⟨m, _ | ⟨m', q⟩⟩
      · cases hs; exact ⟨n', rfl, Or.inl rfl, rfl⟩
      · simp only at hs
        split_ifs at hs with hm
        cases hs
        have e3 : m = 1 := by omega
        subst e3
        exact ⟨n', rfl, Or.inr rfl, rfl⟩
      · cases hs
  · cases hs

/-- **C83.** `csdl.solve(A, b)` for a constant matrix with the elements `M` and a variable `b`: the result has the shape of `b` and, if `reshape` keeps the elements in row-major order and the operation with this constant solves systems with this matrix, `M x = b` in every solution of the program. -/
theorem C83_solve_constant_matrix (pre : List (PObj K (Fun (LOp K) G I))) (b : LBody K G I) (r : List (PObj K (Fun (LOp K) G I)) × OModel) (hr : lrunFrom pre b = .ok r) (path : List Name) (b1 : LBody K G I) (hb : LAt b path b1)
    (ss : List Shape) (sa : Shape) (a y : Nat) (h : (ss, .solve (.const sa a) (.var y)) ∈ b1.stmts []) :
    ∃ b' b1' n, b.typed [] = .ok b' ∧ b1.typed [] = .ok b1' ∧ XAt b' path b1' ∧ y < ss.length ∧ sa = [n, n] ∧ (ss.getD y [] = [n] ∨ ss.getD y [] = [n, 1]) ∧
      ss ++ [[n, 1], [n, 1], ss.getD y []] <+: (b1'.low 0).shapes ∧
      ∀ (P : Power K) (den : Fun (LOp K) G I → List (Val K) → Nat → Val K) (ρ : List Name → Nat → Val K) (M : Nat → Nat → K), Prog.Solution P den (b'.low 0) ρ → (b1'.low 0).Live (ss.length + 2) →
        (∀ s t v i, ValidIdx t i → den (.std (.lib (.reshape t) [s])) [v] 0 i = v (unravel s (ravel t i))) →
        (∀ v, ∀ i < n, ∑ j ∈ Finset.range n, M i j * den (.std (.solveLinear (some a) none [[n, 1]])) [v] 0 [j, 0] = v [i, 0]) →
        ∀ i < n, ∑ j ∈ Finset.range n, M i j * ρ path (ss.length + 2) (unravel (ss.getD y []) j) = ρ path y (unravel (ss.getD y []) i) := by
  obtain ⟨b', b1', cs, l, hb', hb1, hx, h1, h2, h3⟩ := library_steps hr hb h
  simp only [LStmt.steps, Operand.shape] at h1
  split_ifs at h1 with hy
  simp only at h1
  cases hs : StdShapes.solve sa (ss.getD y []) with
  | error e => rw [hs] at h1; cases h1
  | ok t =>
    rw [hs] at h1
    simp only at h1
    obtain ⟨n, rfl, hy', rfl⟩ := solve_shapes hs
    have hk : (ss.getD y []).headD 0 = n := by rcases hy' with e | e <;> rw [e] <;> rfl
    rw [hk] at h1
    simp only [solveSteps, Except.ok.injEq] at h1
    subst h1
    refine ⟨b', b1', n, hb', hb1, hx, hy, rfl, hy', ?_, fun P den ρ M hρ hl hre hso i hi => ?_⟩
    · simpa [shapesAfter, libCall, XStmt.low, stepShapes, Stmt.lift] using h3
    · have m0 : (ss.length, .plain (.call (.lib (.reshape [n, 1]) [ss.getD y []]) [y] [[n, 1]])) ∈ b1'.stmts 0 := h2 _ (by simp [numberX, libCall])
      have m1 : (ss.length + 1, .plain (.call (.solveLinear (some a) none [[n, 1]]) [ss.length] [[n, 1]])) ∈ b1'.stmts 0 := h2 _ (by simp [numberX, libCall, XStmt.count, Stmt.count])
      have m2 : (ss.length + 2, .plain (.call (.lib (.reshape (ss.getD y [])) [[n, 1]]) [ss.length + 1] [ss.getD y []])) ∈ b1'.stmts 0 := h2 _ (by simp [numberX, libCall, XStmt.count, Stmt.count])
      have l1 : (b1'.low 0).Live (ss.length + 1) := .operand hl (has_low m2 (x := (ss.length + 2, _)) (List.mem_singleton.2 rfl)) (Nat.le_refl _) (Nat.lt_succ_self _) (by simp [Stmt.lift, Stmt.operands])
      have l0 : (b1'.low 0).Live ss.length := .operand l1 (has_low m1 (x := (ss.length + 1, _)) (List.mem_singleton.2 rfl)) (Nat.le_refl _) (Nat.lt_succ_self _) (by simp [Stmt.lift, Stmt.operands])
      have e0 := (C80_other_statements b' path b1' hx P den ρ hρ _).2.1 _ _ _ m0 0 (by simp) l0
      have e1 := (C80_other_statements b' path b1' hx P den ρ hρ _).2.1 _ _ _ m1 0 (by simp) l1
      have e2 := (C80_other_statements b' path b1' hx P den ρ hρ _).2.1 _ _ _ m2 0 (by simp) hl
      simp only [Nat.add_zero, List.map_cons, List.map_nil] at e0 e1 e2
      have u1 : ∀ j, unravel [n, 1] j = [j, 0] := fun j => by simp [unravel, Shape.size, Nat.mod_one]
      have hval : ∀ j < n, ValidIdx (ss.getD y []) (unravel (ss.getD y []) j) ∧ ravel (ss.getD y []) (unravel (ss.getD y []) j) = j := by
        intro j hj
        rcases hy' with e | e <;> rw [e] <;> simp [unravel, ravel, Shape.size, ValidIdx, Nat.mod_one, hj]
      have hx' : ∀ j < n, ρ path (ss.length + 2) (unravel (ss.getD y []) j) = ρ path (ss.length + 1) [j, 0] := by
        intro j hj
        rw [e2, hre _ _ _ _ (hval j hj).1, (hval j hj).2, u1]
      have hy0 : ∀ j < n, ρ path ss.length [j, 0] = ρ path y (unravel (ss.getD y []) j) := by
        intro j hj
        rw [e0, hre _ _ _ _ (by simp [ValidIdx, hj])]
        simp [ravel, Shape.size]
      rw [Finset.sum_congr rfl fun j hj => by rw [hx' j (Finset.mem_range.1 hj), e1], hso _ i hi, hy0 i hi]

/-- **C83.** `csdl.solve(A, b)` for a variable `A` and a constant `b` with the elements `B`: the result has the shape of the constant and, if `reshape` keeps the elements in row-major order and the operation with this constant solves the systems with this right-hand side,
`A x = B` in every solution of the program. -/
theorem C83_solve_constant_side (pre : List (PObj K (Fun (LOp K) G I))) (b : LBody K G I) (r : List (PObj K (Fun (LOp K) G I)) × OModel) (hr : lrunFrom pre b = .ok r) (path : List Name) (b1 : LBody K G I) (hb : LAt b path b1)
    (ss : List Shape) (A : Nat) (sc : Shape) (c : Nat) (h : (ss, .solve (.var A) (.const sc c)) ∈ b1.stmts []) :
    ∃ b' b1' n, b.typed [] = .ok b' ∧ b1.typed [] = .ok b1' ∧ XAt b' path b1' ∧ A < ss.length ∧ ss.getD A [] = [n, n] ∧ (sc = [n] ∨ sc = [n, 1]) ∧
      ss ++ [[n, 1], sc] <+: (b1'.low 0).shapes ∧
      ∀ (P : Power K) (den : Fun (LOp K) G I → List (Val K) → Nat → Val K) (ρ : List Name → Nat → Val K) (B : Nat → K), Prog.Solution P den (b'.low 0) ρ → (b1'.low 0).Live (ss.length + 1) →
        (∀ s t v i, ValidIdx t i → den (.std (.lib (.reshape t) [s])) [v] 0 i = v (unravel s (ravel t i))) →
        (∀ i < n, ∑ j ∈ Finset.range n, ρ path A [i, j] * den (.std (.solveLinear none (some c) [[n, n]])) [ρ path A] 0 [j, 0] = B i) →
        ∀ i < n, ∑ j ∈ Finset.range n, ρ path A [i, j] * ρ path (ss.length + 1) (unravel sc j) = B i := by
  obtain ⟨b', b1', cs, l, hb', hb1, hx, h1, h2, h3⟩ := library_steps hr hb h
  simp only [LStmt.steps, Operand.shape] at h1
  split_ifs at h1 with hA
  simp only at h1
  cases hs : StdShapes.solve (ss.getD A []) sc with
  | error e => rw [hs] at h1; cases h1
  | ok t =>
    rw [hs] at h1
    simp only at h1
    obtain ⟨n, hA', hy', rfl⟩ := solve_shapes hs
    have hk : t.headD 0 = n := by rcases hy' with e | e <;> rw [e] <;> rfl
    rw [hk] at h1
    simp only [solveSteps, Except.ok.injEq] at h1
    subst h1
    refine ⟨b', b1', n, hb', hb1, hx, hA, hA', hy', ?_, fun P den ρ B hρ hl hre hso i hi => ?_⟩
    · simpa [shapesAfter, libCall, XStmt.low, stepShapes, Stmt.lift] using h3
    · have m1 : (ss.length, .plain (.call (.solveLinear none (some c) [[n, n]]) [A] [[n, 1]])) ∈ b1'.stmts 0 := h2 _ (by simp [numberX, libCall])
      have m2 : (ss.length + 1, .plain (.call (.lib (.reshape t) [[n, 1]]) [ss.length] [t])) ∈ b1'.stmts 0 := h2 _ (by simp [numberX, libCall, XStmt.count, Stmt.count])
      have l1 : (b1'.low 0).Live ss.length := .operand hl (has_low m2 (x := (ss.length + 1, _)) (List.mem_singleton.2 rfl)) (Nat.le_refl _) (Nat.lt_succ_self _) (by simp [Stmt.lift, Stmt.operands])
      have e1 := (C80_other_statements b' path b1' hx P den ρ hρ _).2.1 _ _ _ m1 0 (by simp) l1
      have e2 := (C80_other_statements b' path b1' hx P den ρ hρ _).2.1 _ _ _ m2 0 (by simp) hl
      simp only [Nat.add_zero, List.map_cons, List.map_nil] at e1 e2
      have u1 : ∀ j, unravel [n, 1] j = [j, 0] := fun j => by simp [unravel, Shape.size, Nat.mod_one]
      have hval : ∀ j < n, ValidIdx t (unravel t j) ∧ ravel t (unravel t j) = j := by
        intro j hj
        rcases hy' with e | e <;> rw [e] <;> simp [unravel, ravel, Shape.size, ValidIdx, Nat.mod_one, hj]
      have hx' : ∀ j < n, ρ path (ss.length + 1) (unravel t j) = ρ path ss.length [j, 0] := by
        intro j hj
        rw [e2, hre _ _ _ _ (hval j hj).1, (hval j hj).2, u1]
      rw [Finset.sum_congr rfl fun j hj => by rw [hx' j (Finset.mem_range.1 hj), e1], hso i hi]

/-- `y = create_input('y', shape=(2,)); x = csdl.solve(M, y); register_output('x', x)` with a constant matrix of shape `(2, 2)` -/
def exSolveMatrix : LBody ℚ Unit Unit := .stmt (.base (.plain (.input "y".toList [2] fun _ => 1))) (.stmt (.solve (.const [2, 2] 5) (.var 0)) (.stmt (.base (.plain (.register "x".toList 3))) .done))

/-- `A = create_input('A', shape=(2, 2)); x = csdl.solve(A, b); register_output('x', x)` with a constant right-hand side of shape `(2,)` -/
def exSolveSide : LBody ℚ Unit Unit := .stmt (.base (.plain (.input "A".toList [2, 2] fun _ => 1))) (.stmt (.solve (.var 0) (.const [2] 5)) (.stmt (.base (.plain (.register "x".toList 2))) .done))

/-- the hypotheses of the theorems above are met -/
example : (∃ r, lrunFrom [] exSolveMatrix = .ok r) ∧ ([[2]], .solve (.const [2, 2] 5) (.var 0)) ∈ exSolveMatrix.stmts [] ∧ (∃ r, lrunFrom [] exSolveSide = .ok r) ∧ ([[2, 2]], .solve (.var 0) (.const [2] 5)) ∈ exSolveSide.stmts [] := by
  refine ⟨?_, ?_, ?_, ?_⟩
  · obtain ⟨r, h, _⟩ := ok_of_check (x := lrunFrom [] exSolveMatrix) (P := fun _ => true) (by decide +kernel)
    exact ⟨r, h⟩
  · exact List.mem_cons_of_mem _ (List.mem_cons_self ..)
  · obtain ⟨r, h, _⟩ := ok_of_check (x := lrunFrom [] exSolveSide) (P := fun _ => true) (by decide +kernel)
    exact ⟨r, h⟩
  · exact List.mem_cons_of_mem _ (List.mem_cons_self ..)

end Csdl.Prog
