import Verif.Spec.Convex
import Verif.Proofs.Families
import Verif.Props.Units
import Mathlib.Analysis.Convex.Extrema
/-
C123: programs built by the rules of convex programming compute convex functions of the design variables.
-/
namespace Csdl.Prog
open Csdl Csdl.Arith
variable {F T : Type} [AddCommGroup T] [Module ℝ T]

theorem HasCurvature.neg {S : Set T} {f : T → ℝ} {κ : Curvature} (h : HasCurvature S f κ) : HasCurvature S (fun t => -f t) κ.neg := by
  cases κ
  · exact ⟨h.2.neg, h.1.neg⟩
  · exact ConvexOn.neg h
  · exact ConcaveOn.neg h

theorem HasCurvature.fits {S : Set T} {f : T → ℝ} {κ r : Curvature} (h : HasCurvature S f κ) (hf : κ.Fits r) : HasCurvature S f r := by
  rcases hf with rfl | rfl
  · cases r
    · exact h
    · exact h.1
    · exact h.2
  · exact h

theorem HasCurvature.add {S : Set T} {f g : T → ℝ} {κ : Curvature} (h : HasCurvature S f κ) (h' : HasCurvature S g κ) : HasCurvature S (fun t => f t + g t) κ := by
  cases κ
  · exact ⟨h.1.add h'.1, h.2.add h'.2⟩
  · exact ConvexOn.add h h'
  · exact ConcaveOn.add h h'

theorem HasCurvature.const {S : Set T} (hS : Convex ℝ S) (a : ℝ) (κ : Curvature) : HasCurvature S (fun _ => a) κ := by
  cases κ
  · exact ⟨convexOn_const a hS, concaveOn_const a hS⟩
  · exact convexOn_const a hS
  · exact concaveOn_const a hS

theorem HasCurvature.scale {S : Set T} {f : T → ℝ} {κ : Curvature} (h : HasCurvature S f κ) {a : ℝ} (ha : 0 ≤ a) : HasCurvature S (fun t => f t * a) κ := by
  have e : (fun t => f t * a) = fun t => a • f t := funext fun t => by simp [mul_comm]
  rw [e]
  cases κ
  · exact ⟨h.1.smul ha, h.2.smul ha⟩
  · exact ConvexOn.smul ha h
  · exact ConcaveOn.smul ha h

theorem HasCurvature.times {S : Set T} {f : T → ℝ} {κ r : Curvature} (h : HasCurvature S f κ) {a : ℝ} (ha : 0 ≤ a ∧ r = κ ∨ a ≤ 0 ∧ r = κ.neg ∨ κ = .affine ∧ r = .affine) : HasCurvature S (fun t => f t * a) r := by
  have hn : a ≤ 0 → HasCurvature S (fun t => f t * a) κ.neg := fun ha => by
    have := (h.scale (neg_nonneg.2 ha)).neg
    simpa using this
  rcases ha with ⟨h1, rfl⟩ | ⟨h1, rfl⟩ | ⟨rfl, rfl⟩
  · exact h.scale h1
  · exact hn h1
  · rcases le_total 0 a with h1 | h1
    · exact h.scale h1
    · exact hn h1

theorem HasCurvature.square {S : Set T} {f : T → ℝ} (h : HasCurvature S f .affine) : HasCurvature S (fun t => f t ^ (2 : ℝ)) .convex := by
  refine ⟨h.1.1, fun x hx y hy a c ha hc hac => ?_⟩
  have h1 := h.1.2 hx hy ha hc hac
  have h2 := h.2.2 hx hy ha hc hac
  have e := le_antisymm h1 h2
  simp only [smul_eq_mul] at e ⊢
  simp only [Real.rpow_two, e]
  obtain rfl : c = 1 - a := by linarith
  nlinarith [mul_nonneg (mul_nonneg ha hc) (sq_nonneg (f x - f y))]

/-- **C123, equations.** Let values of a valid program depend on a parameter in a convex set `S` and solve the program.  If the program follows the rules of convex programming with curvatures `κ`, and the given values have these curvatures, so do the values of all variables that matter. -/
theorem C123_solutions_curvature {S : Set T} (hS : Convex ℝ S) {b : Body ℝ F} (hv : ValidProgram b) {objs : List (PObj ℝ F)} {root : OModel} (hr : runProgram b = .ok (objs, root)) (hn : objs.length ≤ 63 ^ 4)
    {den : F → List (Val ℝ) → Nat → Val ℝ} {κ : List Name → Nat → Curvature} (hp : ConvexProgram S den b κ) {ρ : T → List Name → Nat → Val ℝ} (h : ∀ t, Solution realPower den b (ρ t))
    (hg : ∀ path y, GivenVar b path y → ∀ i, HasCurvature S (fun t => ρ t path y i) (κ path y)) (path : List Name) (c : Body ℝ F) (hc : BAt b path c) (x : Nat) (hx : c.Live x) (i : List Nat) : HasCurvature S (fun t => ρ t path x i) (κ path x) := by
  have hsame : ∀ q r, Relation.EqvGen (Same b) q r → κ q.1 q.2 = κ r.1 r.2 := by
    intro q r he
    induction he with
    | rel q r h => exact hp.same _ _ _ _ h
    | refl => rfl
    | symm _ _ _ ih => exact ih.symm
    | trans _ _ _ _ _ ih1 ih2 => exact ih1.trans ih2
  refine Solution.families hv hr hn h (fun z f => HasCurvature S f (κ z.1 z.2)) (fun q r he => by simp only [hsame q r he]) hg ?_
    (fun path c hc n f args outs hs j hj _ ho k => hp.functions path c hc n f args outs hs j hj (fun t => ρ t path) ho k) (fun path c hc y name shape val hs i hi => .const hS _ _)
    (fun path c hc n x key hi hl => by simp only [hp.parts path c hc n x key hi hl]) (fun path c hc y key x ha => by simp only [hp.assigned path c hc y key x ha]) (path, x) ⟨c, hc, hx⟩ i
  intro path c hc n i hi hl ho hlt k
  have hsm := hp.operators path c hc n i hi hl
  simp only at ho ⊢
  cases i <;> simp only [CurvatureOk] at hsm <;> simp only [Instr.first, Instr.others, List.mem_cons, List.not_mem_nil, or_false, forall_eq_or_imp, forall_eq] at ho hlt <;> simp only [Instr.meaning]
  case pos x => simp only [getD_range _ hlt]; rw [hsm]; exact ho k
  case neg x => simp only [getD_range _ hlt]; rw [hsm]; exact (ho k).neg
  case add x y => simp only [getD_range _ hlt.1, getD_range _ hlt.2]; exact ((ho.1 k).fits hsm.1).add ((ho.2 k).fits hsm.2)
  case addc x c => simp only [getD_range _ hlt]; rw [hsm]; exact (ho k).add (.const hS _ _)
  case sub x y => simp only [getD_range _ hlt.1, getD_range _ hlt.2, sub_eq_add_neg]; exact ((ho.1 k).fits hsm.1).add ((ho.2 k).neg.fits hsm.2)
  case subc x c => simp only [getD_range _ hlt, sub_eq_add_neg]; rw [hsm]; exact (ho k).add (.const hS _ _)
  case rsubc c x => simp only [getD_range _ hlt, sub_eq_add_neg]; rw [hsm]; exact (HasCurvature.const hS _ _).add (ho k).neg
  case mulc x c =>
    simp only [getD_range _ hlt]
    exact (ho k).times (hsm.imp (fun h => ⟨h.1 k, h.2⟩) (Or.imp_left fun h => ⟨h.1 k, h.2⟩))
  case divc x c =>
    simp only [getD_range _ hlt, div_eq_mul_inv]
    exact (ho k).times (hsm.imp (fun h => ⟨inv_nonneg.2 (h.1 k), h.2⟩) (Or.imp_left fun h => ⟨inv_nonpos.2 (h.1 k), h.2⟩))
  case powc x c =>
    simp only [getD_range _ hlt]
    rw [hsm.2.1, hsm.2.2 k]
    have := ho k
    rw [hsm.1] at this
    exact this.square

/-- **C123.** Compile a valid program and let the values that must be given depend on a parameter `t` in a convex set `S`.  If the program follows the rules of convex programming with curvatures `κ` and the given values have these curvatures (e.g. are the design variables, which are affine), the values computed by
executing the representation have the curvatures `κ`, for all variables that matter, of all models; so if an objective is convex, its local minima in `S` are global. -/
theorem C123_values (b : Body ℝ F) (hv : ValidProgram b) (hs : b.Assigns → b.maxObjects ≤ 63 ^ 4) : ∃ objs root, runProgram b = .ok (objs, root) ∧ (objs.length ≤ 63 ^ 4 →
    ∀ order : List Nat → List Nat, (∀ l x, x ∈ order l ↔ x ∈ l) → ∀ fuel, (∀ path b', BAt b path b' → (b'.locals.outputs ++ b'.locals.declared).length + objs.length ≤ fuel) →
      ∃ rep, compile (objects objs) fuel order root = .ok rep ∧ ∃ (f : Nat → Nat) (node : List Name → Nat → Nat), ∀ (den : F → List (Val ℝ) → Nat → Val ℝ) (E : Type) [NormedAddCommGroup E] [NormedSpace ℝ E] (σ : E → Env (Val ℝ)),
        let value := fun t path x => execAll rep.graph ⟨fun i => decide ((objects objs i).kind = .op), fun i => (objects objs i).deps.map f, opMeaning realPower den objs⟩ (σ t) rep.sorted (node path x)
        (∀ t, Solution realPower den b (value t)) ∧ (∀ t path x, GivenVar b path x → value t path x = σ t (node path x)) ∧
        ∀ (S : Set E) (κ : List Name → Nat → Curvature), Convex ℝ S → ConvexProgram S den b κ → (∀ path x, GivenVar b path x → ∀ i, HasCurvature S (fun t => σ t (node path x) i) (κ path x)) →
          ∀ path c, BAt b path c → ∀ x, c.Live x → (∀ i, HasCurvature S (fun t => value t path x i) (κ path x)) ∧
            (κ path x ≠ .concave → ∀ i, ∀ t0 ∈ S, IsLocalMinOn (fun t => value t path x i) S t0 → ∀ t ∈ S, value t0 path x i ≤ value t path x i)) := by
  obtain ⟨objs, root, hr, h⟩ := C74_valid_programs_compute b hv hs
  refine ⟨objs, root, hr, fun hn order ho fuel hf => ?_⟩
  obtain ⟨rep, hc, f, node, h3⟩ := h hn order ho fuel hf
  refine ⟨rep, hc, f, node, fun den E _ _ σ => ?_⟩
  have hsol := fun t => (h3 realPower den (σ t)).1
  have hgiv := fun t => (h3 realPower den (σ t)).2.1
  refine ⟨hsol, hgiv, fun S κ hS hp hg path c hc x hx => ?_⟩
  have key := C123_solutions_curvature hS hv hr hn hp hsol (fun path y hy i => by
    have e : ∀ t, _ = _ := fun t => hgiv t path y hy
    simp only [e]
    exact hg path y hy i) path c hc x hx
  refine ⟨key, fun hκ i t0 ht0 hmin t ht => ?_⟩
  have hconv : ConvexOn ℝ S (fun t => execAll rep.graph ⟨fun i => decide ((objects objs i).kind = .op), fun i => (objects objs i).deps.map f, opMeaning realPower den objs⟩ (σ t) rep.sorted (node path x) i) := by
    have := key i
    cases hk : κ path x <;> rw [hk] at this hκ
    · exact this.1
    · exact this
    · exact absurd rfl hκ
  exact IsMinOn.of_isLocalMinOn_of_convexOn ht0 hmin hconv ht

/-! ### Example: `x = create_input('x', val=3); y = (x - 1) ** 2; register_output('y', y)` -/

noncomputable def exBowl : Body ℝ Empty :=
  .stmt (.input "x".toList [1] fun _ => 3) (.stmt (.expr (.subc 0 (.num 1))) (.stmt (.expr (.powc 1 (.num 2))) (.stmt (.register "y".toList 2) .done)))

/-- the same program with rational numbers -/
def exBowlQ : Body ℚ Empty :=
  .stmt (.input "x".toList [1] fun _ => 3) (.stmt (.expr (.subc 0 (.num 1))) (.stmt (.expr (.powc 1 (.num 2))) (.stmt (.register "y".toList 2) .done)))

theorem exBowl_along : along (Rat.castHom ℝ) exBowlQ = exBowl := by
  simp [along, exBowlQ, exBowl, alongStmt, alongInstr, alongConst]
  funext i
  simp [alongVal]

theorem exBowl_plain : ¬ exBowl.Assigns := by
  rintro ⟨path, b', n, z, key, x, hb, h⟩
  obtain ⟨_, rfl⟩ := oneModel_at rfl hb
  simp [Body.Has, exBowl, Body.stmts, Stmt.count] at h

theorem exBowl_valid : ValidProgram exBowl := by
  have hg : GoodNames exBowl := by
    constructor
    all_goals
      intro path b' h
      obtain ⟨_, rfl⟩ := oneModel_at rfl h
      decide
  obtain ⟨⟨objs, root⟩, h1, _⟩ := ok_of_check (x := runProgram exBowlQ) (P := fun _ => true) (by decide +kernel)
  obtain ⟨objs', h2, _⟩ := (C117_larger_field (Rat.castHom ℝ) exBowlQ).2 objs root h1
  rw [exBowl_along] at h2
  refine C84_one_model_valid _ ⟨rfl, rfl, fun i j n m s z v a key _ _ h2 => ?_⟩ ((C74_programs_run_iff exBowl fun h => absurd h exBowl_plain).1 ⟨objs', root, h2⟩ [] _ (.here _)) hg
  have := List.mem_of_getElem? h2
  simp [exBowl, Body.stmts, Stmt.count] at this

/-- variables that are the same in `exBowl` are equal -/
theorem exBowl_same {path path' : List Name} {x x' : Nat} (he : Same exBowl (path, x) (path', x')) : x = x' := by
  cases he with
  | name p h1 h2 =>
    have own : ∀ {k w} {p : Name}, PromotedAs exBowl.toModel [] k w p → p = w.name := fun h => by cases h; rfl
    have key : ∀ z nm, exBowl.Named z nm → (z = 0 ∧ nm = "x".toList) ∨ (z = 2 ∧ nm = "y".toList) := by
      intro z nm h
      rcases h with ⟨s, h | h⟩ | h
      · simp [exBowl, Body.stmts, Stmt.count, inputOf] at h
        exact Or.inl ⟨h.1, h.2.1⟩
      · simp [exBowl, Body.stmts, Stmt.count, declaredOf] at h
      · simp [exBowl, Body.stmts, Stmt.count, outputOf] at h
        exact Or.inr ⟨h.1.symm, h.2.symm⟩
    obtain ⟨d, nm, k, w, g1, _, g3, g4, g5⟩ := h1
    obtain ⟨d', nm', k', w', g1', _, g3', g4', g5'⟩ := h2
    obtain ⟨rfl, rfl⟩ := oneModel_at rfl g1
    obtain ⟨rfl, rfl⟩ := oneModel_at rfl g1'
    have e : nm = nm' := by rw [← g5, ← g5', ← own g4, ← own g4']
    subst e
    rcases key _ _ g3 with ⟨h1, h2⟩ | ⟨h1, h2⟩ <;> rcases key _ _ g3' with ⟨h3, h4⟩ | ⟨h3, h4⟩ <;> first | exact h1.trans h3.symm | exact absurd (h2.symm.trans h4) (by decide)
  | connection path b' s t p q h1 h2 =>
    obtain ⟨rfl, rfl⟩ := oneModel_at rfl h1
    simp [Body.locals, exBowl, Body.stmts, Stmt.count, stepConnections] at h2
  | «alias» b' h1 h2 h3 h4 =>
    obtain ⟨rfl, rfl⟩ := oneModel_at rfl h1
    clear h2 h3
    induction h4 with
    | refl => rfl
    | symm _ ih => exact ih.symm
    | trans _ _ ih1 ih2 => exact ih1.trans ih2
    | plus h => simp [exBowl, Body.stmts, Stmt.count] at h
    | part h => simp [exBowl, Body.stmts, Stmt.count] at h

/-- `x` and `x - 1` are affine, `y` is convex -/
theorem exBowl_convex (S : Set ℝ) : ConvexProgram S (fun f => f.elim) exBowl (fun _ x => if x = 2 then .convex else .affine) := by
  refine ⟨fun path x path' x' he => by rw [exBowl_same he], fun path c hc n i hi hl => ?_, fun path c hc n f => f.elim, fun path c hc n x key hi => ?_, fun path c hc y key x ha => ?_⟩
  all_goals obtain ⟨rfl, rfl⟩ := oneModel_at rfl hc
  · simp [Body.Has, exBowl, Body.stmts, Stmt.count] at hi
    rcases hi with ⟨rfl, rfl⟩ | ⟨rfl, rfl⟩ <;> simp [CurvatureOk, Const.val]
  · simp [Body.Has, exBowl, Body.stmts, Stmt.count] at hi
  · obtain ⟨n, w, h, _⟩ := ha
    simp [Body.Has, exBowl, Body.stmts, Stmt.count] at h

/-- the variable that must be given is `x` -/
theorem exBowl_given {path : List Name} {y : Nat} (h : GivenVar exBowl path y) : y ≠ 2 := by
  rintro rfl
  obtain ⟨⟨c, hc, hl⟩, h⟩ := h
  obtain ⟨rfl, rfl⟩ := oneModel_at rfl hc
  exact h [] exBowl 2 (.expr (.powc 1 (.num 2))) 2 (.here _) (by simp [Body.Has, exBowl, Body.stmts, Stmt.count]) trivial (le_refl _) (by simp [Stmt.count]) hl (.refl _)

/-- the hypotheses of C123 are met: run and compiled, with `x = t`, `exBowl` computes a convex function of `t`, whose local minima are global -/
example : ∃ objs root, runProgram exBowl = .ok (objs, root) ∧ (objs.length ≤ 63 ^ 4 → ∀ fuel, (∀ path b', BAt exBowl path b' → (b'.locals.outputs ++ b'.locals.declared).length + objs.length ≤ fuel) →
    ∃ rep, compile (objects objs) fuel id root = .ok rep ∧ ∃ value : ℝ → List Name → Nat → Val ℝ, (∀ t, Solution realPower (fun f => f.elim) exBowl (value t)) ∧ (∀ path x, GivenVar exBowl path x → ∀ t i, value t path x i = t) ∧
      ∀ i, ConvexOn ℝ Set.univ (fun t => value t [] 2 i) ∧ ∀ t0, IsLocalMinOn (fun t => value t [] 2 i) Set.univ t0 → ∀ t, value t0 [] 2 i ≤ value t [] 2 i) := by
  obtain ⟨objs, root, hr, h⟩ := C123_values exBowl exBowl_valid fun h => absurd h exBowl_plain
  refine ⟨objs, root, hr, fun hn fuel hf => ?_⟩
  obtain ⟨rep, hc, f, node, h⟩ := h hn id (fun _ _ => Iff.rfl) fuel hf
  obtain ⟨h1, h2, h3⟩ := h (fun f => f.elim) ℝ fun t _ _ => t
  refine ⟨rep, hc, _, h1, fun path x hx t i => congrFun (h2 t path x hx) i, fun i => ?_⟩
  obtain ⟨k1, k2⟩ := h3 Set.univ _ convex_univ (exBowl_convex _) (fun path x hx i => by
    rw [if_neg (exBowl_given hx)]
    exact ⟨convexOn_id convex_univ, concaveOn_id convex_univ⟩) [] exBowl (.here _) 2 (.output (name := "y".toList) (by decide))
  exact ⟨k1 i, fun t0 ht t => k2 (by decide) i t0 (Set.mem_univ _) ht t (Set.mem_univ _)⟩

end Csdl.Prog
