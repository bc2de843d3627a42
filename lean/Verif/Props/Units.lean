import Verif.Spec.Units
import Verif.Proofs.Families
import Verif.Props.Smooth
/-
C122: results do not depend on the choice of units.
-/
namespace Csdl.Prog
open Csdl Csdl.Arith
variable {F : Type}

/-- powers of a product with a positive factor -/
theorem mul_rpow_of_pos {a : ℝ} (ha : 0 < a) (x p : ℝ) : (a * x) ^ p = a ^ p * x ^ p := by
  rcases le_or_gt 0 x with hx | hx
  · exact Real.mul_rpow ha.le hx
  · rw [Real.rpow_def_of_neg (mul_neg_of_pos_of_neg ha hx), Real.rpow_def_of_neg hx, Real.rpow_def_of_pos ha, Real.log_mul ha.ne' hx.ne, add_mul, Real.exp_add]
    ring

/-- **C122, equations.** If in two solutions of a valid program with consistent units the given values differ by the conversion factors of their units, so do the values of all variables that matter. -/
theorem C122_solutions_units {b : Body ℝ F} (hv : ValidProgram b) {objs : List (PObj ℝ F)} {root : OModel} (hr : runProgram b = .ok (objs, root)) (hn : objs.length ≤ 63 ^ 4)
    {den : F → List (Val ℝ) → Nat → Val ℝ} {s : List Name → Nat → ℝ} (hu : ConsistentUnits den b s) {ρ ρ' : List Name → Nat → Val ℝ} (h : Solution realPower den b ρ) (h' : Solution realPower den b ρ')
    (hg : ∀ path y, GivenVar b path y → ∀ i, ρ' path y i = s path y * ρ path y i) (path : List Name) (c : Body ℝ F) (hc : BAt b path c) (x : Nat) (hx : c.Live x) (i : List Nat) : ρ' path x i = s path x * ρ path x i := by
  have hsame : ∀ q r, Relation.EqvGen (Same b) q r → s q.1 q.2 = s r.1 r.2 := by
    intro q r he
    induction he with
    | rel q r h => exact hu.same _ _ _ _ h
    | refl => rfl
    | symm _ _ _ ih => exact ih.symm
    | trans _ _ _ _ _ ih1 ih2 => exact ih1.trans ih2
  refine Solution.families (T := Bool) (ρ := fun t => if t then ρ' else ρ) hv hr hn (fun t => by cases t <;> simpa) (fun z f => f true = s z.1 z.2 * f false) (fun q r he => by simp only [hsame q r he])
    (fun path y hy i => by simpa using hg path y hy i) ?_ ?_ ?_ (fun path c hc n x key hi hl => by simp only [hu.parts path c hc n x key hi hl]) (fun path c hc y key x ha => by simp only [hu.assigned path c hc y key x ha]) (path, x) ⟨c, hc, hx⟩ i
  · intro path c hc n i hi hl ho hlt k
    have hsm := hu.operators path c hc n i hi hl
    simp only [if_true, Bool.false_eq_true, if_false] at ho ⊢
    cases i <;> simp only [UnitsOk] at hsm <;> simp only [Instr.first, Instr.others, List.mem_cons, List.not_mem_nil, or_false, forall_eq_or_imp, forall_eq] at ho hlt <;> simp only [Instr.meaning]
    case pos x => simp only [getD_range _ hlt]; rw [ho k, hsm]
    case neg x => simp only [getD_range _ hlt]; rw [ho k, hsm]; ring
    case add x y => simp only [getD_range _ hlt.1, getD_range _ hlt.2]; rw [ho.1 k, ho.2 k, ← hsm.1, ← hsm.2]; ring
    case sub x y => simp only [getD_range _ hlt.1, getD_range _ hlt.2]; rw [ho.1 k, ho.2 k, ← hsm.1, ← hsm.2]; ring
    case addc x c => simp only [getD_range _ hlt]; rw [ho k, hsm.1, hsm.2]; ring
    case subc x c => simp only [getD_range _ hlt]; rw [ho k, hsm.1, hsm.2]; ring
    case rsubc c x => simp only [getD_range _ hlt]; rw [ho k, hsm.1, hsm.2]; ring
    case mul x y => simp only [getD_range _ hlt.1, getD_range _ hlt.2]; rw [ho.1 k, ho.2 k, hsm]; ring
    case mulc x c => simp only [getD_range _ hlt]; rw [ho k, hsm]; ring
    case divc x c => simp only [getD_range _ hlt]; rw [ho k, hsm]; ring
    case div x y => simp only [getD_range _ hlt.1, getD_range _ hlt.2]; rw [ho.1 k, ho.2 k, hsm, mul_div_mul_comm]
    case rdivc c x => simp only [getD_range _ hlt]; rw [ho k, hsm, div_mul_eq_div_div_swap, div_eq_mul_inv _ (s path x), mul_comm]
    case powc x c =>
      simp only [getD_range _ hlt]
      rw [ho k, hsm k]
      exact mul_rpow_of_pos (hu.positive path x) _ _
  · intro path c hc n f args outs hs j hj _ ho k
    simp only [if_true, Bool.false_eq_true, if_false] at ho ⊢
    have e : args.map (ρ' path) = List.zipWith (fun x v i => s path x * v i) args (args.map (ρ path)) := by
      rw [List.zipWith_map_right, List.zipWith_self]
      exact List.map_congr_left fun x hx => funext fun i => ho x hx i
    rw [e, hu.functions path c hc n f args outs hs _ (by simp) j hj]
  · intro path c hc y name shape val hs i hi
    rcases hu.outputs path c hc y name shape val hs i hi with h | h <;> simp [h]

/-- **C122.** Compile a valid program and let `s` be conversion factors of the units of its variables that are consistent with the program.  If the given values are converted, the values computed by executing the representation are the converted values, for all variables that matter, of all models. -/
theorem C122_values (b : Body ℝ F) (hv : ValidProgram b) (hs : b.Assigns → b.maxObjects ≤ 63 ^ 4) : ∃ objs root, runProgram b = .ok (objs, root) ∧ (objs.length ≤ 63 ^ 4 →
    ∀ order : List Nat → List Nat, (∀ l x, x ∈ order l ↔ x ∈ l) → ∀ fuel, (∀ path b', BAt b path b' → (b'.locals.outputs ++ b'.locals.declared).length + objs.length ≤ fuel) →
      ∃ rep, compile (objects objs) fuel order root = .ok rep ∧ ∃ (f : Nat → Nat) (node : List Name → Nat → Nat), ∀ (den : F → List (Val ℝ) → Nat → Val ℝ),
        let value := fun σ path x => execAll rep.graph ⟨fun i => decide ((objects objs i).kind = .op), fun i => (objects objs i).deps.map f, opMeaning realPower den objs⟩ σ rep.sorted (node path x)
        (∀ σ, Solution realPower den b (value σ) ∧ (∀ path x, GivenVar b path x → value σ path x = σ (node path x))) ∧
        ∀ s, ConsistentUnits den b s → ∀ σ σ' : Env (Val ℝ), (∀ path x, GivenVar b path x → ∀ i, σ' (node path x) i = s path x * σ (node path x) i) →
          ∀ path c, BAt b path c → ∀ x, c.Live x → ∀ i, value σ' path x i = s path x * value σ path x i) := by
  obtain ⟨objs, root, hr, h⟩ := C74_valid_programs_compute b hv hs
  refine ⟨objs, root, hr, fun hn order ho fuel hf => ?_⟩
  obtain ⟨rep, hc, f, node, h3⟩ := h hn order ho fuel hf
  refine ⟨rep, hc, f, node, fun den => ?_⟩
  have hsol := fun σ => (h3 realPower den σ).1
  have hgiv := fun σ => (h3 realPower den σ).2.1
  refine ⟨fun σ => ⟨hsol σ, hgiv σ⟩, fun s hu σ σ' hσ path c hc x hx i => ?_⟩
  refine C122_solutions_units hv hr hn hu (hsol σ) (hsol σ') (fun path y hy i => ?_) path c hc x hx i
  rw [show execAll _ _ σ' _ _ = _ from hgiv σ' path y hy, show execAll _ _ σ _ _ = _ from hgiv σ path y hy]
  exact hσ path y hy i

/-! ### Example: in `y = 1 / x`, if `x` is a time in milliseconds instead of seconds, `y` is a frequency in kilohertz instead of hertz -/

theorem exInverse_units : ConsistentUnits (fun f => f.elim) exInverse (fun _ x => if x = 0 then 1000 else 1 / 1000) := by
  refine ⟨fun path x => by split <;> norm_num, ?_, fun path c hc n i hi hl => ?_, fun path c hc n f => f.elim, fun path c hc n x key hi => ?_, fun path c hc y key x ha => ?_, fun path c hc y name shape val hs => ?_⟩
  · rintro path x path' x' he
    suffices x = x' by rw [this]
    cases he with
    | name p h1 h2 =>
      have own : ∀ {k w} {p : Name}, PromotedAs exInverse.toModel [] k w p → p = w.name := fun h => by cases h; rfl
      have key : ∀ z nm, exInverse.Named z nm → (z = 0 ∧ nm = "x".toList) ∨ (z = 1 ∧ nm = "y".toList) := by
        intro z nm h
        rcases h with ⟨s, h | h⟩ | h
        · simp [exInverse, Body.stmts, Stmt.count, inputOf] at h
          exact Or.inl ⟨h.1, h.2.1⟩
        · simp [exInverse, Body.stmts, Stmt.count, declaredOf] at h
        · simp [exInverse, Body.stmts, Stmt.count, outputOf] at h
          exact Or.inr ⟨h.1.symm, h.2.symm⟩
      obtain ⟨d, nm, k, w, g1, _, g3, g4, g5⟩ := h1
      obtain ⟨d', nm', k', w', g1', _, g3', g4', g5'⟩ := h2
      obtain ⟨rfl, rfl⟩ := oneModel_at rfl g1
      obtain ⟨rfl, rfl⟩ := oneModel_at rfl g1'
      have e : nm = nm' := by rw [← g5, ← g5', ← own g4, ← own g4']
      subst e
      rcases key _ _ g3 with ⟨h1, h2⟩ | ⟨h1, h2⟩ <;> rcases key _ _ g3' with ⟨h3, h4⟩ | ⟨h3, h4⟩ <;> first | exact h1.trans h3.symm | exact absurd (h2.symm.trans h4) (by decide)
    | connection path b' s t p q h1 h2 => 
      obtain ⟨rfl, rfl⟩ := oneModel_at rfl h1
      simp [Body.locals, exInverse, Body.stmts, Stmt.count, stepConnections] at h2
    | «alias» b' h1 h2 h3 h4 =>
      obtain ⟨rfl, rfl⟩ := oneModel_at rfl h1
      clear h2 h3
      induction h4 with
      | refl => rfl
      | symm _ ih => exact ih.symm
      | trans _ _ ih1 ih2 => exact ih1.trans ih2
      | plus h => simp [exInverse, Body.stmts, Stmt.count] at h
      | part h => simp [exInverse, Body.stmts, Stmt.count] at h
  all_goals obtain ⟨rfl, rfl⟩ := oneModel_at rfl hc
  · simp [Body.Has, exInverse, Body.stmts, Stmt.count] at hi
    obtain ⟨rfl, rfl⟩ := hi
    simp [UnitsOk]
  · simp [Body.Has, exInverse, Body.stmts, Stmt.count] at hi
  · obtain ⟨n, w, h, _⟩ := ha
    simp [Body.Has, exInverse, Body.stmts, Stmt.count] at h
  · simp [Body.Has, exInverse, Body.stmts, Stmt.count] at hs

end Csdl.Prog
