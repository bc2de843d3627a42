import Verif.Spec.Positive
import Verif.Props.Tangent
import Mathlib.Analysis.SpecialFunctions.Pow.Real
/-
C121: programs whose operators keep numbers positive compute positive values, divide by no zero, and are differentiable.
-/
namespace Csdl.Prog
open Csdl Csdl.Arith
variable {F : Type}

/-- **C121, equations.** In every solution of a valid positive program whose given values are positive, the values of all variables that matter are positive. -/
theorem C121_solutions_positive {b : Body ℝ F} (hv : ValidProgram b) {objs : List (PObj ℝ F)} {root : OModel} (hr : runProgram b = .ok (objs, root)) (hn : objs.length ≤ 63 ^ 4)
    {den : F → List (Val ℝ) → Nat → Val ℝ} (hp : PositiveProgram den b) {ρ : List Name → Nat → Val ℝ} (h : Solution realPower den b ρ) (hg : ∀ path y, GivenVar b path y → Positive (ρ path y))
    (path : List Name) (c : Body ℝ F) (hc : BAt b path c) (x : Nat) (hx : c.Live x) : Positive (ρ path x) := by
  intro i
  refine Solution.family (T := Unit) (ρ := fun _ => ρ) hv hr hn (fun _ => h) (fun f => 0 < f ()) (fun path y hy i => hg path y hy i) ?_ ?_ (fun path c hc y name shape val hs i hi => hp.outputs path c hc y name shape val hs i hi) (path, x) ⟨c, hc, hx⟩ i
  · intro path c hc n i hi hl ho hlt k
    have hsm := hp.operators path c hc n i hi hl
    cases i <;> simp only [PositiveOperator] at hsm <;> simp only [Instr.first, Instr.others, List.mem_cons, List.not_mem_nil, or_false, forall_eq_or_imp, forall_eq] at ho hlt <;> simp only [Instr.meaning]
    case pos x => simp only [getD_range _ hlt]; exact ho k
    case add x y => simp only [getD_range _ hlt.1, getD_range _ hlt.2]; exact add_pos (ho.1 k) (ho.2 k)
    case addc x c => simp only [getD_range _ hlt]; exact add_pos (ho k) (hsm k)
    case mul x y => simp only [getD_range _ hlt.1, getD_range _ hlt.2]; exact mul_pos (ho.1 k) (ho.2 k)
    case mulc x c => simp only [getD_range _ hlt]; exact mul_pos (ho k) (hsm k)
    case div x y => simp only [getD_range _ hlt.1, getD_range _ hlt.2]; exact div_pos (ho.1 k) (ho.2 k)
    case divc x c => simp only [getD_range _ hlt]; exact div_pos (ho k) (hsm k)
    case rdivc c x => simp only [getD_range _ hlt]; exact div_pos (hsm k) (ho k)
    case powc x c => simp only [getD_range _ hlt]; exact Real.rpow_pos_of_pos (ho k) _
  · intro path c hc n f args outs hs j _ _ ho k
    refine hp.functions path c hc n f args outs hs _ (fun v hv => ?_) j k
    obtain ⟨x, hx, rfl⟩ := List.mem_map.1 hv
    exact fun i => ho x hx i

/-- **C121, no division by zero.** There no operator divides by zero or raises zero to a power. -/
theorem C121_smooth {b : Body ℝ F} (hv : ValidProgram b) {objs : List (PObj ℝ F)} {root : OModel} (hr : runProgram b = .ok (objs, root)) (hn : objs.length ≤ 63 ^ 4)
    {den : F → List (Val ℝ) → Nat → Val ℝ} (hp : PositiveProgram den b) {ρ : List Name → Nat → Val ℝ} (h : Solution realPower den b ρ) (hg : ∀ path y, GivenVar b path y → Positive (ρ path y))
    (path : List Name) (c : Body ℝ F) (hc : BAt b path c) (n : Nat) (i : Instr ℝ) (hi : c.Has n (.expr i)) (hl : c.Live n) : SmoothAt (ρ path) i := by
  have ho : ∀ x ∈ i.first :: i.others, ∀ k, ρ path x k ≠ 0 := fun x hx k =>
    (C121_solutions_positive hv hr hn hp h hg path c hc x (.operand hl hi (le_refl _) (by simp [Stmt.count]) (by simpa [Stmt.operands] using hx)) k).ne'
  cases i <;> simp only [Instr.first, Instr.others, List.mem_cons, List.not_mem_nil, or_false, forall_eq_or_imp, forall_eq] at ho <;> simp only [SmoothAt]
  case div x y => exact ho.2
  case rdivc c x => exact ho
  case powc x c => exact fun i => Or.inl (ho i)

/-- **C121.** Compile a valid positive program.  For all positive given values, executing the representation computes positive values of all variables that matter, of all models, so no operator divides by zero or raises zero to a power; and if positive given values depend differentiably on a parameter, the
values of all variables that matter are differentiable functions of it, if the functions are. -/
theorem C121_values (b : Body ℝ F) (hv : ValidProgram b) (hs : b.Assigns → b.maxObjects ≤ 63 ^ 4) : ∃ objs root, runProgram b = .ok (objs, root) ∧ (objs.length ≤ 63 ^ 4 →
    ∀ order : List Nat → List Nat, (∀ l x, x ∈ order l ↔ x ∈ l) → ∀ fuel, (∀ path b', BAt b path b' → (b'.locals.outputs ++ b'.locals.declared).length + objs.length ≤ fuel) →
      ∃ rep, compile (objects objs) fuel order root = .ok rep ∧ ∃ (f : Nat → Nat) (node : List Name → Nat → Nat), ∀ (den : F → List (Val ℝ) → Nat → Val ℝ), PositiveProgram den b →
        let value := fun σ path x => execAll rep.graph ⟨fun i => decide ((objects objs i).kind = .op), fun i => (objects objs i).deps.map f, opMeaning realPower den objs⟩ σ rep.sorted (node path x)
        (∀ σ, Solution realPower den b (value σ) ∧ (∀ path x, GivenVar b path x → value σ path x = σ (node path x))) ∧
        (∀ σ, (∀ path x, GivenVar b path x → Positive (σ (node path x))) → (∀ path c, BAt b path c → ∀ x, c.Live x → Positive (value σ path x)) ∧ ∀ path c, BAt b path c → ∀ n i, c.Has n (.expr i) → c.Live n → SmoothAt (value σ path) i) ∧
        ∀ (E : Type) [NormedAddCommGroup E] [NormedSpace ℝ E] (σ : E → Env (Val ℝ)) (t0 : E), (∀ path x, GivenVar b path x → Positive (σ t0 (node path x)) ∧ ∀ i, DifferentiableAt ℝ (fun t => σ t (node path x) i) t0) →
          (∀ path c, BAt b path c → ∀ n g args outs, c.Has n (.call g args outs) → ∀ j < outs.length, c.Live (n + j) → (∀ x ∈ args, ∀ k, DifferentiableAt ℝ (fun t => value (σ t) path x k) t0) → ∀ k, DifferentiableAt ℝ (fun t => den g (args.map (value (σ t) path)) j k) t0) →
          ∀ path c, BAt b path c → ∀ x, c.Live x → ∀ i, DifferentiableAt ℝ (fun t => value (σ t) path x i) t0) := by
  obtain ⟨objs, root, hr, h⟩ := C74_valid_programs_compute b hv hs
  refine ⟨objs, root, hr, fun hn order ho fuel hf => ?_⟩
  obtain ⟨rep, hc, f, node, h3⟩ := h hn order ho fuel hf
  refine ⟨rep, hc, f, node, fun den hp => ?_⟩
  have hsol := fun σ => (h3 realPower den σ).1
  have hgiv := fun σ => (h3 realPower den σ).2.1
  have hpos : ∀ σ : Env (Val ℝ), (∀ path x, GivenVar b path x → Positive (σ (node path x))) → ∀ path y, GivenVar b path y →
      Positive (execAll rep.graph ⟨fun i => decide ((objects objs i).kind = .op), fun i => (objects objs i).deps.map f, opMeaning realPower den objs⟩ σ rep.sorted (node path y)) := by
    intro σ hσ path y hy
    rw [show execAll _ _ _ _ _ = _ from hgiv σ path y hy]
    exact hσ path y hy
  refine ⟨fun σ => ⟨hsol σ, hgiv σ⟩, fun σ hσ => ⟨fun path c hc x hx => C121_solutions_positive hv hr hn hp (hsol σ) (hpos σ hσ) path c hc x hx, fun path c hc n i hi hl => C121_smooth hv hr hn hp (hsol σ) (hpos σ hσ) path c hc n i hi hl⟩, ?_⟩
  intro E _ _ σ t0 hσ hd path c hc x hx i
  refine C118_solutions_differentiable hv hr hn (fun t => hsol (σ t)) t0 ?_ (fun path c hc n i hi hl => C121_smooth hv hr hn hp (hsol (σ t0)) (hpos (σ t0) fun path x hx => (hσ path x hx).1) path c hc n i hi hl) hd path c hc x hx i
  intro path y hy i
  have e : ∀ t, _ = _ := fun t => hgiv (σ t) path y hy
  simp only [e]
  exact (hσ path y hy).2 i

/-! ### Example: `y = 1 / x` is a positive program, so its value is positive for all positive `x`, in particular there is no division by zero -/

theorem exInverse_positive : PositiveProgram (fun f => f.elim) exInverse := by
  refine ⟨fun path c hc n i hi hl => ?_, fun path c hc n f => f.elim, fun path c hc y name shape val hs => ?_⟩
  · obtain ⟨rfl, rfl⟩ := oneModel_at rfl hc
    simp [Body.Has, exInverse, Body.stmts, Stmt.count] at hi
    obtain ⟨rfl, rfl⟩ := hi
    simp [PositiveOperator, Const.val]
  · obtain ⟨rfl, rfl⟩ := oneModel_at rfl hc
    simp [Body.Has, exInverse, Body.stmts, Stmt.count] at hs

example : ∃ objs root, runProgram exInverse = .ok (objs, root) ∧ (objs.length ≤ 63 ^ 4 → ∀ fuel, (∀ path b', BAt exInverse path b' → (b'.locals.outputs ++ b'.locals.declared).length + objs.length ≤ fuel) →
    ∃ rep, compile (objects objs) fuel id root = .ok rep ∧ ∃ (node : List Name → Nat → Nat) (value : Env (Val ℝ) → List Name → Nat → Val ℝ), (∀ σ, Solution realPower (fun f => f.elim) exInverse (value σ)) ∧
      ∀ σ, (∀ path x, GivenVar exInverse path x → Positive (σ (node path x))) → Positive (value σ [] 1)) := by
  obtain ⟨objs, root, hr, h⟩ := C121_values exInverse exInverse_valid fun h => absurd h exInverse_plain
  refine ⟨objs, root, hr, fun hn fuel hf => ?_⟩
  obtain ⟨rep, hc, f, node, h⟩ := h hn id (fun _ _ => Iff.rfl) fuel hf
  obtain ⟨h1, h2, _⟩ := h (fun f => f.elim) exInverse_positive
  exact ⟨rep, hc, node, _, fun σ => (h1 σ).1, fun σ hσ => (h2 σ hσ).1 [] exInverse (.here _) 1 (.output (name := "y".toList) (by decide))⟩

end Csdl.Prog
