import Verif.Proofs.Smooth
import Verif.Props.ValidProgram
import Verif.Props.OneModel
import Verif.Props.Given
import Verif.Props.Embed
import Verif.Props.EmbedComplex
import Mathlib.Analysis.SpecialFunctions.Pow.Deriv
import Mathlib.Analysis.SpecialFunctions.Pow.Continuity
/-
C118: the values of a program are differentiable functions of the given values where its operators and functions are.
-/
namespace Csdl.Prog
open Csdl Csdl.Arith
variable {F : Type}

/-- the operands, looked up -/
theorem getD_range {K : Type} [Field K] (g : Nat → Val K) {x n : Nat} (h : x < n) : ((List.range n).map g).getD x (fun _ => 0) = g x := by
  simp only [List.getD_eq_getElem?_getD, List.getElem?_map, List.getElem?_range h, Option.map_some, Option.getD_some]

/-- **C118, equations.** Let values of a valid program depend on a parameter `t` (e.g. the design variables), and let them solve the program for every `t`.  If, at `t0`, the given values are differentiable in `t`, no operator divides by zero or raises zero to a power below 1 there,
and all functions that are called are differentiable at their arguments, then all values of all variables that matter are differentiable in `t` at `t0`. -/
theorem C118_solutions_differentiable {E : Type} [NormedAddCommGroup E] [NormedSpace ℝ E] {b : Body ℝ F} (hv : ValidProgram b) {objs : List (PObj ℝ F)} {root : OModel} (hr : runProgram b = .ok (objs, root)) (hn : objs.length ≤ 63 ^ 4)
    {den : F → List (Val ℝ) → Nat → Val ℝ} {ρ : E → List Name → Nat → Val ℝ} (h : ∀ t, Solution realPower den b (ρ t)) (t0 : E)
    (hg : ∀ path y, GivenVar b path y → ∀ i, DifferentiableAt ℝ (fun t => ρ t path y i) t0)
    (hs : ∀ path c, BAt b path c → ∀ n i, c.Has n (.expr i) → c.Live n → SmoothAt (ρ t0 path) i)
    (hd : ∀ path c, BAt b path c → ∀ n f args outs, c.Has n (.call f args outs) → ∀ j < outs.length, c.Live (n + j) → (∀ x ∈ args, ∀ k, DifferentiableAt ℝ (fun t => ρ t path x k) t0) → ∀ k, DifferentiableAt ℝ (fun t => den f (args.map (ρ t path)) j k) t0)
    (path : List Name) (c : Body ℝ F) (hc : BAt b path c) (x : Nat) (hx : c.Live x) (i : List Nat) : DifferentiableAt ℝ (fun t => ρ t path x i) t0 := by
  refine Solution.family hv hr hn h (fun f => DifferentiableAt ℝ f t0) hg ?_ hd (fun _ _ _ _ _ _ _ _ _ _ => differentiableAt_const _) (path, x) ⟨c, hc, hx⟩ i
  intro path c hc n i hi hl ho hlt k
  have hsm := hs path c hc n i hi hl
  cases i <;> simp only [Instr.first, Instr.others, List.mem_cons, List.not_mem_nil, or_false, forall_eq_or_imp, forall_eq] at ho hlt <;> simp only [Instr.meaning]
  case pos x => simp only [getD_range _ hlt]; exact ho k
  case neg x => simp only [getD_range _ hlt]; exact (ho k).fun_neg
  case add x y => simp only [getD_range _ hlt.1, getD_range _ hlt.2]; exact (ho.1 k).fun_add (ho.2 k)
  case addc x c => simp only [getD_range _ hlt]; exact (ho k).fun_add (differentiableAt_const _)
  case sub x y => simp only [getD_range _ hlt.1, getD_range _ hlt.2]; exact (ho.1 k).fun_sub (ho.2 k)
  case subc x c => simp only [getD_range _ hlt]; exact (ho k).fun_sub (differentiableAt_const _)
  case rsubc c x => simp only [getD_range _ hlt]; exact (differentiableAt_const _).fun_sub (ho k)
  case mul x y => simp only [getD_range _ hlt.1, getD_range _ hlt.2]; exact (ho.1 k).fun_mul (ho.2 k)
  case mulc x c => simp only [getD_range _ hlt]; exact (ho k).fun_mul (differentiableAt_const _)
  case div x y => simp only [getD_range _ hlt.1, getD_range _ hlt.2, div_eq_mul_inv]; exact (ho.1 k).fun_mul ((ho.2 k).inv (show ρ t0 path y k ≠ 0 from hsm k))
  case divc x c => simp only [getD_range _ hlt, div_eq_mul_inv]; exact (ho k).fun_mul (differentiableAt_const _)
  case rdivc c x => simp only [getD_range _ hlt, div_eq_mul_inv]; exact (differentiableAt_const _).fun_mul ((ho k).inv (show ρ t0 path x k ≠ 0 from hsm k))
  case powc x c => simp only [getD_range _ hlt]; exact (ho k).rpow_const (hsm k)

/-- **C118, continuity.** The same for continuity: no operator divides by zero or raises zero to a negative power, and all functions that are called are continuous at their arguments. -/
theorem C118_solutions_continuous {E : Type} [TopologicalSpace E] {b : Body ℝ F} (hv : ValidProgram b) {objs : List (PObj ℝ F)} {root : OModel} (hr : runProgram b = .ok (objs, root)) (hn : objs.length ≤ 63 ^ 4)
    {den : F → List (Val ℝ) → Nat → Val ℝ} {ρ : E → List Name → Nat → Val ℝ} (h : ∀ t, Solution realPower den b (ρ t)) (t0 : E)
    (hg : ∀ path y, GivenVar b path y → ∀ i, ContinuousAt (fun t => ρ t path y i) t0)
    (hs : ∀ path c, BAt b path c → ∀ n i, c.Has n (.expr i) → c.Live n → ContinuousThere (ρ t0 path) i)
    (hd : ∀ path c, BAt b path c → ∀ n f args outs, c.Has n (.call f args outs) → ∀ j < outs.length, c.Live (n + j) → (∀ x ∈ args, ∀ k, ContinuousAt (fun t => ρ t path x k) t0) → ∀ k, ContinuousAt (fun t => den f (args.map (ρ t path)) j k) t0)
    (path : List Name) (c : Body ℝ F) (hc : BAt b path c) (x : Nat) (hx : c.Live x) (i : List Nat) : ContinuousAt (fun t => ρ t path x i) t0 := by
  refine Solution.family hv hr hn h (fun f => ContinuousAt f t0) hg ?_ hd (fun _ _ _ _ _ _ _ _ _ _ => continuousAt_const) (path, x) ⟨c, hc, hx⟩ i
  intro path c hc n i hi hl ho hlt k
  have hsm := hs path c hc n i hi hl
  cases i <;> simp only [Instr.first, Instr.others, List.mem_cons, List.not_mem_nil, or_false, forall_eq_or_imp, forall_eq] at ho hlt <;> simp only [Instr.meaning]
  case pos x => simp only [getD_range _ hlt]; exact ho k
  case neg x => simp only [getD_range _ hlt]; exact (ho k).fun_neg
  case add x y => simp only [getD_range _ hlt.1, getD_range _ hlt.2]; exact (ho.1 k).fun_add (ho.2 k)
  case addc x c => simp only [getD_range _ hlt]; exact (ho k).fun_add continuousAt_const
  case sub x y => simp only [getD_range _ hlt.1, getD_range _ hlt.2]; exact (ho.1 k).fun_sub (ho.2 k)
  case subc x c => simp only [getD_range _ hlt]; exact (ho k).fun_sub continuousAt_const
  case rsubc c x => simp only [getD_range _ hlt]; exact continuousAt_const.fun_sub (ho k)
  case mul x y => simp only [getD_range _ hlt.1, getD_range _ hlt.2]; exact (ho.1 k).fun_mul (ho.2 k)
  case mulc x c => simp only [getD_range _ hlt]; exact (ho k).fun_mul continuousAt_const
  case div x y => simp only [getD_range _ hlt.1, getD_range _ hlt.2]; exact ContinuousAt.div (ho.1 k) (ho.2 k) (show ρ t0 path y k ≠ 0 from hsm k)
  case divc x c => simp only [getD_range _ hlt, div_eq_mul_inv]; exact (ho k).fun_mul continuousAt_const
  case rdivc c x => simp only [getD_range _ hlt]; exact ContinuousAt.div continuousAt_const (ho k) (show ρ t0 path x k ≠ 0 from hsm k)
  case powc x c => simp only [getD_range _ hlt]; exact (ho k).rpow_const (hsm k)

/-- **C118.** Compile a valid program and let the values that must be given depend on a parameter `t` of a normed space.  For every `t`, executing the representation computes a solution of the program for the values given; and wherever the given values are
differentiable, no operator divides by zero or raises zero to a power below 1, and all functions called are differentiable, the computed values of all variables that matter, of all models, are differentiable functions of `t`. -/
theorem C118_values (b : Body ℝ F) (hv : ValidProgram b) (hs : b.Assigns → b.maxObjects ≤ 63 ^ 4) : ∃ objs root, runProgram b = .ok (objs, root) ∧ (objs.length ≤ 63 ^ 4 →
    ∀ order : List Nat → List Nat, (∀ l x, x ∈ order l ↔ x ∈ l) → ∀ fuel, (∀ path b', BAt b path b' → (b'.locals.outputs ++ b'.locals.declared).length + objs.length ≤ fuel) →
      ∃ rep, compile (objects objs) fuel order root = .ok rep ∧ ∃ (f : Nat → Nat) (node : List Name → Nat → Nat), ∀ (den : F → List (Val ℝ) → Nat → Val ℝ) (E : Type) [NormedAddCommGroup E] [NormedSpace ℝ E] (σ : E → Env (Val ℝ)),
        let value := fun t path x => execAll rep.graph ⟨fun i => decide ((objects objs i).kind = .op), fun i => (objects objs i).deps.map f, opMeaning realPower den objs⟩ (σ t) rep.sorted (node path x)
        (∀ t, Solution realPower den b (value t)) ∧ (∀ t path x, GivenVar b path x → value t path x = σ t (node path x)) ∧
        ∀ t0, (∀ path x, GivenVar b path x → ∀ i, DifferentiableAt ℝ (fun t => σ t (node path x) i) t0) →
          (∀ path c, BAt b path c → ∀ n i, c.Has n (.expr i) → c.Live n → SmoothAt (value t0 path) i) →
          (∀ path c, BAt b path c → ∀ n g args outs, c.Has n (.call g args outs) → ∀ j < outs.length, c.Live (n + j) → (∀ x ∈ args, ∀ k, DifferentiableAt ℝ (fun t => value t path x k) t0) → ∀ k, DifferentiableAt ℝ (fun t => den g (args.map (value t path)) j k) t0) →
          ∀ path c, BAt b path c → ∀ x, c.Live x → ∀ i, DifferentiableAt ℝ (fun t => value t path x i) t0) := by
  obtain ⟨objs, root, hr, h⟩ := C74_valid_programs_compute b hv hs
  refine ⟨objs, root, hr, fun hn order ho fuel hf => ?_⟩
  obtain ⟨rep, hc, f, node, h3⟩ := h hn order ho fuel hf
  refine ⟨rep, hc, f, node, fun den E _ _ σ => ?_⟩
  have hsol := fun t => (h3 realPower den (σ t)).1
  have hgiv := fun t => (h3 realPower den (σ t)).2.1
  refine ⟨hsol, hgiv, fun t0 hg hsm hd path c hc x hx i => ?_⟩
  refine C118_solutions_differentiable hv hr hn hsol t0 (fun path y hy i => ?_) hsm hd path c hc x hx i
  have e : ∀ t, _ = _ := fun t => hgiv t path y hy
  simp only [e]
  exact hg path y hy i

/-! ### Example: a real program that divides -/

/-- `x = create_input('x', val=3); y = 1 / x; register_output('y', y)` -/
noncomputable def exInverse : Body ℝ Empty :=
  .stmt (.input "x".toList [1] fun _ => 3) (.stmt (.expr (.rdivc (.num 1) 0)) (.stmt (.register "y".toList 1) .done))

/-- the same program with rational numbers -/
def exInverseQ : Body ℚ Empty :=
  .stmt (.input "x".toList [1] fun _ => 3) (.stmt (.expr (.rdivc (.num 1) 0)) (.stmt (.register "y".toList 1) .done))

theorem exInverse_along : along (Rat.castHom ℝ) exInverseQ = exInverse := by
  simp [along, exInverseQ, exInverse, alongStmt, alongInstr, alongConst]
  funext i
  simp [alongVal]

theorem exInverse_plain : ¬ exInverse.Assigns := by
  rintro ⟨path, b', n, z, key, x, hb, h⟩
  obtain ⟨_, rfl⟩ := oneModel_at rfl hb
  simp [Body.Has, exInverse, Body.stmts, Stmt.count] at h

theorem exInverse_valid : ValidProgram exInverse := by
  have hg : GoodNames exInverse := by
    constructor
    all_goals
      intro path b' h
      obtain ⟨_, rfl⟩ := oneModel_at rfl h
      decide
  obtain ⟨⟨objs, root⟩, h1, _⟩ := ok_of_check (x := runProgram exInverseQ) (P := fun _ => true) (by decide +kernel)
  obtain ⟨objs', h2, _⟩ := (C117_larger_field (Rat.castHom ℝ) exInverseQ).2 objs root h1
  rw [exInverse_along] at h2
  refine C84_one_model_valid _ ⟨rfl, rfl, fun i j n m s z v a key _ _ h2 => ?_⟩ ((C74_programs_run_iff exInverse fun h => absurd h exInverse_plain).1 ⟨objs', root, h2⟩ [] _ (.here _)) hg
  have := List.mem_of_getElem? h2
  simp [exInverse, Body.stmts, Stmt.count] at this

/-- the hypotheses of C118 are met: run and compiled, `exInverse` computes, for `x = t`, a value of `y` that is a differentiable function of `t` where `t` is not zero -/
example : ∃ objs root, runProgram exInverse = .ok (objs, root) ∧ (objs.length ≤ 63 ^ 4 → ∀ fuel, (∀ path b', BAt exInverse path b' → (b'.locals.outputs ++ b'.locals.declared).length + objs.length ≤ fuel) →
    ∃ rep, compile (objects objs) fuel id root = .ok rep ∧ ∃ value : ℝ → List Name → Nat → Val ℝ, (∀ t, Solution realPower (fun f => f.elim) exInverse (value t)) ∧ (∀ t i, value t [] 0 i = t) ∧
      ∀ t0, t0 ≠ 0 → ∀ i, DifferentiableAt ℝ (fun t => value t [] 1 i) t0) := by
  obtain ⟨objs, root, hr, h⟩ := C118_values exInverse exInverse_valid fun h => absurd h exInverse_plain
  refine ⟨objs, root, hr, fun hn fuel hf => ?_⟩
  obtain ⟨rep, hc, f, node, h⟩ := h hn id (fun _ _ => Iff.rfl) fuel hf
  obtain ⟨h1, h2, h3⟩ := h (fun f => f.elim) ℝ fun t _ _ => t
  have hl1 : exInverse.Live 1 := .output (name := "y".toList) (by decide)
  have hg : GivenVar exInverse [] 0 := (C109_given_iff exInverse exInverse_valid (by decide) [] exInverse (.here _) 0 (.input (name := "x".toList) (s := [1]) (by decide))).2
    (Or.inl ⟨[], 0, .refl _, exInverse, "x".toList, [1], fun _ => 3, .here _, by simp [Body.Has, exInverse, Body.stmts], fun p _ => ?_⟩)
  · refine ⟨rep, hc, _, h1, fun t i => congrFun (h2 t [] 0 hg) i, fun t0 ht i => ?_⟩
    refine h3 t0 (fun path x _ i => differentiableAt_id) (fun path c hc n i hi hl => ?_) (fun path c hc n g args outs _ _ _ _ _ => g.elim) [] exInverse (.here _) 1 hl1 i
    obtain ⟨rfl, rfl⟩ := oneModel_at rfl hc
    simp [Body.Has, exInverse, Body.stmts, Stmt.count] at hi
    obtain ⟨rfl, rfl⟩ := hi
    intro k
    rw [show _ = t0 from congrFun (h2 t0 [] 0 hg) k]
    exact ht
  · rintro ⟨path, l, subs, a, c, h1, h2, _⟩
    obtain ⟨d, hd, e⟩ := BAt.locals h1
    rw [Body.toModel] at e
    cases e
    obtain ⟨rfl, rfl⟩ := oneModel_at rfl hd
    simp [Body.locals, exInverse, Body.stmts, Stmt.count, stepConnections] at h2

end Csdl.Prog
