import Verif.Proofs.Library2
import Verif.Props.ProgramFull
import Verif.Props.Elementwise
import Verif.Props.ProgramParts
import Mathlib.Algebra.BigOperators.Group.Finset.Basic
/-
C83: programs that call the functions of the standard library.
-/
namespace Csdl.Prog
open Csdl Csdl.Arith
variable {K G I : Type} [Field K] [DecidableEq K]

/-- **C83.** A program that calls functions of the standard library runs without error exactly if every call accepts the shapes that its arguments have according to the text of the program, and the program written
with plain operations, whose results have the shapes according to the text, runs; both create the same objects and models. -/
theorem C83_library_programs (pre : List (PObj K (Fun (LOp K) G I))) (b : LBody K G I) (r : List (PObj K (Fun (LOp K) G I)) × OModel) :
    lrunFrom pre b = .ok r ↔ ∃ b', b.typed [] = .ok b' ∧ xrunFrom pre b' = .ok r := by
  constructor
  · intro h
    obtain ⟨b', hb⟩ := lrunFrom_isTyped h
    exact ⟨b', hb, by rw [← lrunFrom_typed pre b b' hb]; exact h⟩
  · rintro ⟨b', hb, h⟩
    rw [lrunFrom_typed pre b b' hb]; exact h

/-- **C83.** With names that are not automatic ones: the program runs exactly if every call accepts the shapes of its arguments and every method of the program written with plain operations is fine (C82). -/
theorem C83_library_programs_run_iff (pre : List (PObj K (Fun (LOp K) G I))) (b : LBody K G I) (hp : ∀ b', b.typed [] = .ok b' → XPlainAfter pre.length b') :
    (∃ objs root, lrunFrom pre b = .ok (objs, root)) ↔ ∃ b', b.typed [] = .ok b' ∧ ∀ path b1, XAt b' path b1 → XMethodOk b1 := by
  constructor
  · rintro ⟨objs, root, h⟩
    obtain ⟨b', hb, h'⟩ := (C83_library_programs pre b _).1 h
    exact ⟨b', hb, (C82_programs_run_iff pre b' (hp b' hb)).1 ⟨objs, root, h'⟩⟩
  · rintro ⟨b', hb, h⟩
    obtain ⟨objs, root, h'⟩ := (C82_programs_run_iff pre b' (hp b' hb)).2 h
    exact ⟨objs, root, (C83_library_programs pre b _).2 ⟨b', hb, h'⟩⟩

/-- **C83.** In a program that runs, every call of a function of the library is of existing variables, whose shapes (`ss`: those of the variables before the call) the function accepts; its results have the shapes the function computes from
them; in every solution they are the values of the function at the values of the arguments. -/
theorem C83_calls_accept_shapes (pre : List (PObj K (Fun (LOp K) G I))) (b : LBody K G I) (r : List (PObj K (Fun (LOp K) G I)) × OModel) (hr : lrunFrom pre b = .ok r) (path : List Name) (b1 : LBody K G I) (hb : LAt b path b1)
    (ss : List Shape) (f : Lib K) (args : List Nat) (h : (ss, .call f args) ∈ b1.stmts []) :
    ∃ b' b1' outs, b.typed [] = .ok b' ∧ b1.typed [] = .ok b1' ∧ XAt b' path b1' ∧ (∀ a ∈ args, a < ss.length) ∧ f.shapes (args.map (ss.getD · [])) = .ok outs ∧ ss ++ outs <+: (b1'.low 0).shapes ∧
      ∀ (P : Power K) (den : Fun (LOp K) G I → List (Val K) → Nat → Val K) (ρ : List Name → Nat → Val K), Prog.Solution P den (b'.low 0) ρ → ∀ j < outs.length, (b1'.low 0).Live (ss.length + j) →
        ρ path (ss.length + j) = den (.std (.lib f (args.map (ss.getD · [])))) (args.map (ρ path)) j := by
  obtain ⟨b', hb', _⟩ := (C83_library_programs pre b r).1 hr
  obtain ⟨b1', hb1, hx⟩ := typed_at hb hb'
  obtain ⟨cs, l, h1, h2, h3⟩ := typed_stmts b1 b1' [] hb1 _ ss h
  simp only [LStmt.steps] at h1
  split_ifs at h1 with ha
  cases hs : f.shapes (args.map (ss.getD · [])) with
  | error e => rw [hs] at h1; cases h1
  | ok outs =>
    rw [hs] at h1
    cases h1
    refine ⟨b', b1', outs, hb', hb1, hx, fun a h => by simpa using List.all_eq_true.1 ha a h, rfl, ?_, fun P den ρ hρ j hj hl => ?_⟩
    · rw [Body.shapes, low_stmts, shapesOf_snd]
      exact h3
    · exact (C80_other_statements b' path b1' hx P den ρ hρ ss.length).2.1 _ args outs (h2 _ (by simp [numberX, libCall])) j hj hl

/-- **C83.** The names and shapes of all inputs, outputs and declared variables, of all models of a program that runs, are those according to its text. -/
theorem C83_shapes_are_inferred (pre : List (PObj K (Fun (LOp K) G I))) (b : LBody K G I) (done : List (PObj K (Fun (LOp K) G I))) (root : OModel) (hr : lrunFrom pre b = .ok (done, root))
    (objs : List (PObj K (Fun (LOp K) G I))) (hpre : done <+: objs) : ∃ b', b.typed [] = .ok b' ∧ root.toModel (objects objs) = b'.toModel := by
  obtain ⟨b', hb', h⟩ := (C83_library_programs pre b _).1 hr
  exact ⟨b', hb', xrunFrom_names h hpre⟩

/-- **C83.** A program whose calls accept their arguments and which, written with plain operations, is valid (C80) runs, its representation is built (if there are no more objects than short automatic names), and executing it computes the only
solution with the given values of the variables that must be given. -/
theorem C83_valid_programs_compute (b : LBody K G I) (b' : XBody K (LOp K) G I) (hb : b.typed [] = .ok b') (hv : XValid b') (pre : List (PObj K (Fun (LOp K) G I))) (hp : XPlainAfter pre.length b') :
    ∃ done root, lrunFrom pre b = .ok (done, root) ∧ ∀ objs, done <+: objs → Closed objs → (objs.length ≤ 63 ^ 4 →
    ∀ order : List Nat → List Nat, (∀ l x, x ∈ order l ↔ x ∈ l) → ∀ fuel, (∀ path c, XAt b' path c → (c.locals.outputs ++ c.locals.declared).length + objs.length ≤ fuel) →
      ∃ rep, compile (xobjects objs) fuel order root = .ok rep ∧ ∃ (f : Nat → Nat) (node : List Name → Nat → Nat), ∀ (P : Power K) (den : Fun (LOp K) G I → List (Val K) → Nat → Val K) (σ0 : Env (Val K)),
        let value := fun path x => execAll rep.graph ⟨fun i => decide ((xobjects objs i).kind = .op), fun i => (xobjects objs i).deps.map f, opMeaning P den objs⟩ σ0 rep.sorted (node path x)
        Prog.Solution P den (b'.low 0) value ∧ (∀ path x, GivenVar (b'.low 0) path x → value path x = σ0 (node path x)) ∧
        ∀ ρ, Prog.Solution P den (b'.low 0) ρ → (∀ path x, GivenVar (b'.low 0) path x → ρ path x = σ0 (node path x)) → ∀ path c, XAt b' path c → ∀ x, (c.low 0).Live x → ρ path x = value path x) := by
  obtain ⟨done, root, h1, h2⟩ := C82_valid_programs_compute b' hv pre hp
  exact ⟨done, root, (C83_library_programs pre b _).2 ⟨b', hb, h1⟩, h2⟩


/-- what a statement of a program that runs stands for -/
theorem library_steps {pre : List (PObj K (Fun (LOp K) G I))} {b : LBody K G I} {r : List (PObj K (Fun (LOp K) G I)) × OModel} (hr : lrunFrom pre b = .ok r) {path : List Name} {b1 : LBody K G I} (hb : LAt b path b1)
    {ss : List Shape} {s : LStmt K G I} (h : (ss, s) ∈ b1.stmts []) : ∃ b' b1' cs l, b.typed [] = .ok b' ∧ b1.typed [] = .ok b1' ∧ XAt b' path b1' ∧ s.steps cs ss = .ok l ∧
      (∀ y ∈ numberX ss.length l, y ∈ b1'.stmts 0) ∧ shapesAfter ss l <+: (b1'.low 0).shapes := by
  obtain ⟨b', hb', _⟩ := (C83_library_programs pre b r).1 hr
  obtain ⟨b1', hb1, hx⟩ := typed_at hb hb'
  obtain ⟨cs, l, h1, h2, h3⟩ := typed_stmts b1 b1' [] hb1 _ ss h
  refine ⟨b', b1', cs, l, hb', hb1, hx, h1, h2, ?_⟩
  rw [Body.shapes, low_stmts, shapesOf_snd]
  exact h3

/-- **C83.** `csdl.solve(A, b)` for variables: the shapes are `(n, n)` and `(n,)` or `(n, 1)`.  If `reshape` keeps the elements in row-major order and the operation solves systems with this matrix, then the result `x` has the shape of `b` and, in every solution of the program, `A x = b`. -/
theorem C83_solve (pre : List (PObj K (Fun (LOp K) G I))) (b : LBody K G I) (r : List (PObj K (Fun (LOp K) G I)) × OModel) (hr : lrunFrom pre b = .ok r) (path : List Name) (b1 : LBody K G I) (hb : LAt b path b1)
    (ss : List Shape) (A y : Nat) (h : (ss, .solve (.var A) (.var y)) ∈ b1.stmts []) :
    ∃ b' b1' n, b.typed [] = .ok b' ∧ b1.typed [] = .ok b1' ∧ XAt b' path b1' ∧ A < ss.length ∧ y < ss.length ∧ ss.getD A [] = [n, n] ∧ (ss.getD y [] = [n] ∨ ss.getD y [] = [n, 1]) ∧
      ss ++ [[n, 1], [n, 1], ss.getD y []] <+: (b1'.low 0).shapes ∧
      ∀ (P : Power K) (den : Fun (LOp K) G I → List (Val K) → Nat → Val K) (ρ : List Name → Nat → Val K), Prog.Solution P den (b'.low 0) ρ → (b1'.low 0).Live (ss.length + 2) →
        (∀ s t v i, ValidIdx t i → den (.std (.lib (.reshape t) [s])) [v] 0 i = v (unravel s (ravel t i))) →
        (∀ v, ∀ i < n, ∑ j ∈ Finset.range n, ρ path A [i, j] * den (.std (.solveLinear none none [[n, n], [n, 1]])) [ρ path A, v] 0 [j, 0] = v [i, 0]) →
        ∀ i < n, ∑ j ∈ Finset.range n, ρ path A [i, j] * ρ path (ss.length + 2) (unravel (ss.getD y []) j) = ρ path y (unravel (ss.getD y []) i) := by
  obtain ⟨b', b1', cs, l, hb', hb1, hx, h1, h2, h3⟩ := library_steps hr hb h
  simp only [LStmt.steps, Operand.shape] at h1
  split_ifs at h1 with hA hy
  simp only at h1
  cases hs : StdShapes.solve (ss.getD A []) (ss.getD y []) with
  | error e => rw [hs] at h1; cases h1
  | ok t =>
    rw [hs] at h1
    simp only at h1
    obtain ⟨n, hA', hy', ht⟩ : ∃ n, ss.getD A [] = [n, n] ∧ (ss.getD y [] = [n] ∨ ss.getD y [] = [n, 1]) ∧ t = ss.getD y [] := by
      generalize ss.getD A [] = a at hs
      generalize ss.getD y [] = c at hs
      unfold StdShapes.solve at hs
      split at hs
      · rename_i n k
        split_ifs at hs with hnk
        cases c with
        | nil => cases hs
        | cons n' q =>
          simp only at hs
          split_ifs at hs with hn'
          have e1 : n = k := by omega
          have e2 : n' = n := by omega
          subst e1 e2
          rcases q with _ | ⟨m, _ | ⟨m', q⟩⟩
          · cases hs; exact ⟨n', rfl, Or.inl rfl, rfl⟩
          · simp only at hs
            split_ifs at hs with hm
            cases hs
            have e3 : m = 1 := by omega
            subst e3
            exact ⟨n', rfl, Or.inr rfl, rfl⟩
          · cases hs
      · cases hs
    subst ht
    have hk : (ss.getD y []).headD 0 = n := by rcases hy' with e | e <;> rw [e] <;> rfl
    rw [hk] at h1
    simp only [solveSteps, Except.ok.injEq] at h1
    subst h1
    refine ⟨b', b1', n, hb', hb1, hx, hA, hy, hA', hy', ?_, fun P den ρ hρ hl hre hso i hi => ?_⟩
    · simpa [shapesAfter, libCall, XStmt.low, stepShapes, Stmt.lift] using h3
    · have m0 : (ss.length, .plain (.call (.lib (.reshape [n, 1]) [ss.getD y []]) [y] [[n, 1]])) ∈ b1'.stmts 0 := h2 _ (by simp [numberX, libCall])
      have m1 : (ss.length + 1, .plain (.call (.solveLinear none none [[n, n], [n, 1]]) [A, ss.length] [[n, 1]])) ∈ b1'.stmts 0 := h2 _ (by simp [numberX, libCall, XStmt.count, Stmt.count])
      have m2 : (ss.length + 2, .plain (.call (.lib (.reshape (ss.getD y [])) [[n, 1]]) [ss.length + 1] [ss.getD y []])) ∈ b1'.stmts 0 := h2 _ (by simp [numberX, libCall, XStmt.count, Stmt.count])
      have l1 : (b1'.low 0).Live (ss.length + 1) := .operand hl (has_low m2 (x := (ss.length + 2, _)) (List.mem_singleton.2 rfl)) (Nat.le_refl _) (Nat.lt_succ_self _) (by simp [Stmt.lift, Stmt.operands])
      have l0 : (b1'.low 0).Live ss.length := .operand l1 (has_low m1 (x := (ss.length + 1, _)) (List.mem_singleton.2 rfl)) (Nat.le_refl _) (Nat.lt_succ_self _) (by simp [Stmt.lift, Stmt.operands])
      have e0 := (C80_other_statements b' path b1' hx P den ρ hρ _).2.1 _ _ _ m0 0 (by simp) l0
      have e1 := (C80_other_statements b' path b1' hx P den ρ hρ _).2.1 _ _ _ m1 0 (by simp) l1
      have e2 := (C80_other_statements b' path b1' hx P den ρ hρ _).2.1 _ _ _ m2 0 (by simp) hl
      simp only [Nat.add_zero, List.map_cons, List.map_nil] at e0 e1 e2
      have u1 : ∀ j, unravel [n, 1] j = [j, 0] := fun j => by simp [unravel, Shape.size, Nat.mod_one]
      have hval : ∀ j < n, ValidIdx (ss.getD y []) (unravel (ss.getD y []) j) ∧ ravel (ss.getD y []) (unravel (ss.getD y []) j) = j := by
        intro j hj
        rcases hy' with e | e <;> rw [e] <;> simp [unravel, ravel, Shape.size, ValidIdx, Nat.mod_one, hj]
      have hx' : ∀ j < n, ρ path (ss.length + 2) (unravel (ss.getD y []) j) = ρ path (ss.length + 1) [j, 0] := by
        intro j hj
        rw [e2, hre _ _ _ _ (hval j hj).1, (hval j hj).2, u1]
      have hy0 : ∀ j < n, ρ path ss.length [j, 0] = ρ path y (unravel (ss.getD y []) j) := by
        intro j hj
        rw [e0, hre _ _ _ _ (by simp [ValidIdx, hj])]
        simp [ravel, Shape.size]
      rw [Finset.sum_congr rfl fun j hj => by rw [hx' j (Finset.mem_range.1 hj), e1], hso _ i hi, hy0 i hi]

/-- **C83.** `csdl.flatten(x)`: the result is a vector with as many elements as `x`.  If `reshape` keeps the elements in row-major order, then in every solution its elements are those of `x` in row-major order. -/
theorem C83_flatten (pre : List (PObj K (Fun (LOp K) G I))) (b : LBody K G I) (r : List (PObj K (Fun (LOp K) G I)) × OModel) (hr : lrunFrom pre b = .ok r) (path : List Name) (b1 : LBody K G I) (hb : LAt b path b1)
    (ss : List Shape) (x : Nat) (h : (ss, .flatten x) ∈ b1.stmts []) :
    ∃ b' b1', b.typed [] = .ok b' ∧ b1.typed [] = .ok b1' ∧ XAt b' path b1' ∧ x < ss.length ∧ (b1'.low 0).shapes[ss.length]? = some [(ss.getD x []).size] ∧
      ∀ (P : Power K) (den : Fun (LOp K) G I → List (Val K) → Nat → Val K) (ρ : List Name → Nat → Val K), Prog.Solution P den (b'.low 0) ρ → (b1'.low 0).Live ss.length →
        (∀ s t v i, ValidIdx t i → den (.std (.lib (.reshape t) [s])) [v] 0 i = v (unravel s (ravel t i))) →
        ∀ k < (ss.getD x []).size, ρ path ss.length [k] = ρ path x (unravel (ss.getD x []) k) := by
  obtain ⟨b', b1', cs, l, hb', hb1, hx, h1, h2, h3⟩ := library_steps hr hb h
  simp only [LStmt.steps] at h1
  split_ifs at h1 with hlt
  simp only [reshapeShape] at h1
  by_cases hs : (ss.getD x []).size = Shape.size [sizeAttr (ss.getD x []) (cs.getD x false)]
  swap
  · rw [if_pos hs] at h1; cases h1
  rw [if_neg (not_not.2 hs)] at h1
  simp only [Except.ok.injEq] at h1
  have hs' : sizeAttr (ss.getD x []) (cs.getD x false) = (ss.getD x []).size := by simpa [Shape.size] using hs.symm
  rw [hs'] at h1
  subst h1
  refine ⟨b', b1', hb', hb1, hx, hlt, ?_, fun P den ρ hρ hl hre k hk => ?_⟩
  · obtain ⟨q, hq⟩ : ss ++ [[(ss.getD x []).size]] <+: (b1'.low 0).shapes := by simpa [shapesAfter, libCall, XStmt.low, stepShapes, Stmt.lift] using h3
    rw [← hq, List.append_assoc, List.getElem?_append_right (by omega)]
    simp
  · have m0 : (ss.length, .plain (.call (.lib (.reshape [(ss.getD x []).size]) [ss.getD x []]) [x] [[(ss.getD x []).size]])) ∈ b1'.stmts 0 := h2 _ (by simp [numberX, libCall])
    have e0 := (C80_other_statements b' path b1' hx P den ρ hρ _).2.1 _ _ _ m0 0 (by simp) hl
    simp only [Nat.add_zero, List.map_cons, List.map_nil] at e0
    rw [e0, hre _ _ _ _ (.cons hk .nil)]
    simp [ravel, Shape.size]

/-- **C83.** `csdl.flatten` does not accept every variable: in a program that runs, a variable of shape `s` made by `create_output` (in the same method) is an argument of `flatten` only if it has exactly one element. -/
theorem C83_flatten_created_output (pre : List (PObj K (Fun (LOp K) G I))) (b : LBody K G I) (r : List (PObj K (Fun (LOp K) G I)) × OModel) (hr : lrunFrom pre b = .ok r) (path : List Name) (b1 : LBody K G I) (hb : LAt b path b1)
    (ss0 ss : List Shape) (name : Name) (s : Shape) (v : Val K) (h0 : (ss0, .base (.plain (.output name s v))) ∈ b1.stmts []) (h : (ss, .flatten ss0.length) ∈ b1.stmts []) : s.size = 1 := by
  obtain ⟨b', hb', _⟩ := (C83_library_programs pre b r).1 hr
  obtain ⟨b1', hb1, _⟩ := typed_at hb hb'
  exact flatten_created b1 b1' [] ss0 ss hb1 h0 h

/-- A method that flattens an input runs; one that flattens a variable of two elements made by `create_output` (here in a submodel) is rejected. -/
example : (∃ r, lrunFrom [] (.stmt (.base (.plain (.input "x".toList [2, 3] (fun _ => 1)))) (.stmt (.flatten 0) (.stmt (.base (.plain (.register "y".toList 1))) .done)) : LBody ℚ Unit Unit) = .ok r) ∧
    lrunFrom [] (.add false "s".toList none (.stmt (.base (.plain (.input "x".toList [2] (fun _ => 1)))) (.stmt (.base (.plain (.output "y".toList [2] (fun _ => 1)))) (.stmt (.base (.plain (.assign 1 (.slice none none none) 0))) (.stmt (.flatten 1)
      (.stmt (.base (.plain (.register "z".toList 2))) .done))))) .done : LBody ℚ Unit Unit) = .error .value :=
  ⟨⟨_, rfl⟩, rfl⟩

/-- Without the call of `flatten` the second method above runs. -/
example : ∃ r, lrunFrom [] (.add false "s".toList none (.stmt (.base (.plain (.input "x".toList [2] (fun _ => 1)))) (.stmt (.base (.plain (.output "y".toList [2] (fun _ => 1)))) (.stmt (.base (.plain (.assign 1 (.slice none none none) 0)))
      .done))) .done : LBody ℚ Unit Unit) = .ok r :=
  ⟨_, rfl⟩

/-- **C83.** `csdl.exp_a(a, x)` for a variable `a`: it has the shape of `x`, or `(1,)`.  If `expand` copies the one element and the operation computes powers element by element, then the result (the last variable created) has the shape
of `x` and, in every solution, its elements are the powers of the elements of `a` (of its one element) to the elements of `x`. -/
theorem C83_exp_a (pre : List (PObj K (Fun (LOp K) G I))) (b : LBody K G I) (r : List (PObj K (Fun (LOp K) G I)) × OModel) (hr : lrunFrom pre b = .ok r) (path : List Name) (b1 : LBody K G I) (hb : LAt b path b1)
    (ss : List Shape) (a x : Nat) (h : (ss, .expAVar a x) ∈ b1.stmts []) :
    ∃ b' b1' z, b.typed [] = .ok b' ∧ b1.typed [] = .ok b1' ∧ XAt b' path b1' ∧ a < ss.length ∧ x < ss.length ∧ (ss.getD a [] = [1] ∨ ss.getD a [] = ss.getD x []) ∧
      z = (if ss.getD a [] = [1] then ss.length + 1 else ss.length) ∧ (b1'.low 0).shapes[z]? = some (ss.getD x []) ∧
      ∀ (P : Power K) (den : Fun (LOp K) G I → List (Val K) → Nat → Val K) (ρ : List Name → Nat → Val K), Prog.Solution P den (b'.low 0) ρ → (b1'.low 0).Live z →
        (∀ s v i, den (.std (.lib (.expand s none) [[1]])) [v] 0 i = v [0]) → (∀ s u v i, den (.std (.expAVar [s, s])) [u, v] 0 i = P.pow (v i) (u i)) →
        ∀ i, ρ path z i = P.pow (ρ path a (if ss.getD a [] = [1] then [0] else i)) (ρ path x i) := by
  obtain ⟨b', b1', cs, l, hb', hb1, hx, h1, h2, h3⟩ := library_steps hr hb h
  simp only [LStmt.steps] at h1
  by_cases hax : a < ss.length ∧ x < ss.length
  swap
  · rw [if_neg hax] at h1; cases h1
  rw [if_pos hax] at h1
  cases hs : Elem.expA (.var (ss.getD a []) : Elem.Base K) (some (ss.getD x [])) with
  | error e => rw [hs] at h1; cases h1
  | ok s =>
    rw [hs] at h1
    simp only at h1
    obtain ⟨e1, e2⟩ := (Elem.C78_exp_a_accepted_iff _ _ _).1 hs
    have e1 : ss.getD x [] = s := by simpa using e1
    have e2 : ss.getD a [] = [1] ∨ ss.getD a [] = s := by
      rcases e2 with ⟨c, hc⟩ | ⟨t, ht, hts⟩
      · cases hc
      · rcases ht with ht | ht <;> cases ht
        exact hts
    subst e1
    split_ifs at h1 with h11
    · cases h1
      refine ⟨b', b1', ss.length + 1, hb', hb1, hx, hax.1, hax.2, e2, by rw [if_pos h11], ?_, fun P den ρ hρ hl he hp i => ?_⟩
      · obtain ⟨q, hq⟩ : ss ++ [ss.getD x [], ss.getD x []] <+: (b1'.low 0).shapes := by simpa [shapesAfter, libCall, XStmt.low, stepShapes, Stmt.lift] using h3
        rw [← hq, List.append_assoc, List.getElem?_append_right (by omega)]
        simp
      · have m0 : (ss.length, .plain (.call (.lib (.expand (ss.getD x []) none) [[1]]) [a] [ss.getD x []])) ∈ b1'.stmts 0 := h2 _ (by simp [numberX, libCall])
        have m1 : (ss.length + 1, .plain (.call (.expAVar [ss.getD x [], ss.getD x []]) [x, ss.length] [ss.getD x []])) ∈ b1'.stmts 0 := h2 _ (by simp [numberX, libCall, XStmt.count, Stmt.count])
        have l0 : (b1'.low 0).Live ss.length := .operand hl (has_low m1 (x := (ss.length + 1, _)) (List.mem_singleton.2 rfl)) (Nat.le_refl _) (Nat.lt_succ_self _) (by simp [Stmt.lift, Stmt.operands])
        have e0 := (C80_other_statements b' path b1' hx P den ρ hρ _).2.1 _ _ _ m0 0 (by simp) l0
        have e1 := (C80_other_statements b' path b1' hx P den ρ hρ _).2.1 _ _ _ m1 0 (by simp) hl
        simp only [Nat.add_zero, List.map_cons, List.map_nil] at e0 e1
        rw [e1, hp, e0, he, if_pos h11]
    · cases h1
      refine ⟨b', b1', ss.length, hb', hb1, hx, hax.1, hax.2, e2, by rw [if_neg h11], ?_, fun P den ρ hρ hl he hp i => ?_⟩
      · obtain ⟨q, hq⟩ : ss ++ [ss.getD x []] <+: (b1'.low 0).shapes := by simpa [shapesAfter, libCall, XStmt.low, stepShapes, Stmt.lift] using h3
        rw [← hq, List.append_assoc, List.getElem?_append_right (by omega)]
        simp
      · have m0 : (ss.length, .plain (.call (.expAVar [ss.getD x [], ss.getD x []]) [x, a] [ss.getD x []])) ∈ b1'.stmts 0 := h2 _ (by simp [numberX, libCall])
        have e0 := (C80_other_statements b' path b1' hx P den ρ hρ _).2.1 _ _ _ m0 0 (by simp) hl
        simp only [Nat.add_zero, List.map_cons, List.map_nil] at e0
        rw [e0, hp, if_neg h11]

/-! ### the inverse hyperbolic functions -/

omit [DecidableEq K] in
theorem shapesAfter_plain {F : Type} (g : F → LOp K) : ∀ (l : List (Stmt K F)) (ss : List Shape), shapesAfter ss (l.map fun s => (.plain (s.mapFn g) : XStmt K (LOp K) G I)) = l.foldl stepShapes ss
  | [], _ => rfl
  | s :: l, ss => by
    rw [List.map_cons, shapesAfter, shapesAfter_plain g l]
    cases s <;> rfl

omit [DecidableEq K] in
theorem numberX_one {F : Type} : ∀ (l : List (XStmt K F G I)) (n : Nat), (∀ s ∈ l, s.count = 1) → ∀ (j : Nat) (s : XStmt K F G I), l[j]? = some s → (n + j, s) ∈ numberX n l
  | [], _, _, _, _, h => by simp at h
  | t :: l, n, hc, 0, s, h => by
    simp only [List.getElem?_cons_zero, Option.some.injEq] at h
    subst h
    exact List.mem_cons_self ..
  | t :: l, n, hc, j + 1, s, h => by
    have := numberX_one l (n + 1) (fun s hs => hc s (List.mem_cons_of_mem _ hs)) j s (by simpa using h)
    rw [numberX, hc t (List.mem_cons_self ..), Nat.add_comm j 1, ← Nat.add_assoc]
    exact List.mem_cons_of_mem _ this

/-- **C83.** `csdl.arsinh(x)` etc. in a program that runs, where the elementwise operations have their meaning: the result has the shape of `x` and, in every solution and for every element (where defined), its hyperbolic sine, cosine, tangent, cotangent
is the element of `x`.  (For `arsech` and `arcsch` see C76.) -/
theorem C83_inverse_functions {G I : Type} (pre : List (PObj ℝ (Fun (LOp ℝ) G I))) (b : LBody ℝ G I) (r : List (PObj ℝ (Fun (LOp ℝ) G I)) × OModel) (hr : lrunFrom pre b = .ok r) (path : List Name) (b1 : LBody ℝ G I) (hb : LAt b path b1)
    (ss : List Shape) (f : Elem.Inv) (x z : Nat) (h : (ss, .inv f x) ∈ b1.stmts []) (hz : f.result ss.length = some z) :
    ∃ b' b1', b.typed [] = .ok b' ∧ b1.typed [] = .ok b1' ∧ XAt b' path b1' ∧ x < ss.length ∧ (b1'.low 0).shapes[z]? = some (ss.getD x []) ∧
      ∀ (den : Fun (LOp ℝ) G I → List (Val ℝ) → Nat → Val ℝ) (ρ : List Name → Nat → Val ℝ), Prog.Solution Elem.realPower den (b'.low 0) ρ → (b1'.low 0).Live z →
        (∀ g args, den (.std (.lib (.elem g) [ss.getD x []])) args 0 = Elem.meaning g args 0) → ∀ k,
        (f = .arsinh → Real.sinh (ρ path z k) = ρ path x k) ∧ (f = .arcosh → 1 ≤ ρ path x k → Real.cosh (ρ path z k) = ρ path x k ∧ 0 ≤ ρ path z k) ∧
        (f = .artanh → -1 < ρ path x k ∧ ρ path x k < 1 → Real.tanh (ρ path z k) = ρ path x k) ∧
        (f = .arcoth → 1 < ρ path x k ∨ ρ path x k < -1 → Real.cosh (ρ path z k) / Real.sinh (ρ path z k) = ρ path x k) := by
  obtain ⟨b', b1', cs, l, hb', hb1, hx, h1, h2, h3⟩ := library_steps hr hb h
  simp only [LStmt.steps] at h1
  split_ifs at h1 with hxs
  cases h1
  refine ⟨b', b1', hb', hb1, hx, hxs, ?_, fun den ρ hρ hl hm k => ?_⟩
  · rw [shapesAfter_plain, Elem.C76_shapes_partial f ss _ x hxs rfl] at h3
    obtain ⟨q, hq⟩ := h3
    have hz1 : ∃ j, z = ss.length + j ∧ j < (f.stmts (K := ℝ) (ss.getD x []) ss.length x).length := by
      cases f <;> simp only [Elem.Inv.result, Option.some.injEq, reduceCtorEq] at hz <;> exact ⟨_, hz.symm, by simp [Elem.Inv.stmts]⟩
    obtain ⟨j, rfl, hj⟩ := hz1
    rw [← hq, List.append_assoc, List.getElem?_append_right (by omega), Nat.add_sub_cancel_left, List.getElem?_append_left (by simpa using hj), List.getElem?_replicate, if_pos hj]
  · have hc : Elem.Contains (fun g => (.std (.lib (.elem g) [ss.getD x []]) : Fun (LOp ℝ) G I)) (b1'.low 0) ss.length (f.stmts (ss.getD x []) ss.length x) := by
      intro j s hj
      have hone : ∀ s ∈ (f.stmts (K := ℝ) (ss.getD x []) ss.length x).map fun s => (.plain (s.mapFn fun g => .lib (.elem g) [ss.getD x []]) : XStmt ℝ (LOp ℝ) G I), s.count = 1 := by
        intro s hs
        obtain ⟨t, ht, rfl⟩ := List.mem_map.1 hs
        cases f <;> simp [Elem.Inv.stmts, Elem.apply] at ht <;> rcases ht with rfl | rfl | rfl | rfl | rfl | rfl | rfl <;> rfl
      have hmem := h2 _ (numberX_one _ ss.length hone j _ (by rw [List.getElem?_map, hj]; rfl))
      have := has_low hmem (x := (ss.length + j, _)) (List.mem_singleton.2 rfl)
      cases s <;> exact this
    refine ⟨?_, ?_, ?_, ?_⟩
    · rintro rfl; exact Elem.C76_arsinh_partial (fun g args => hm g args) hρ (xat_low hx) hxs hc hz hl k
    · rintro rfl hk; exact Elem.C76_arcosh_partial (fun g args => hm g args) hρ (xat_low hx) hxs hc hz hl k hk
    · rintro rfl hk; exact Elem.C76_artanh_partial (fun g args => hm g args) hρ (xat_low hx) hxs hc hz hl k hk
    · rintro rfl hk; exact Elem.C76_arcoth_partial (fun g args => hm g args) hρ (xat_low hx) hxs hc hz hl k hk

end Csdl.Prog
