import Verif.Spec.Tangent
import Verif.Props.Smooth
import Mathlib.Analysis.Calculus.Deriv.Inv
/-
C120: the derivatives of the values of a program are what the rules of calculus, applied statement by statement, determine.
-/
namespace Csdl.Prog
open Csdl Csdl.Arith
variable {F : Type}

/-- **C120, derivatives.** Let values of a valid program depend on a real parameter `t`, and let them solve the program for every `t`.  If at `t0` the given values are differentiable, no operator divides by zero or raises zero to a power below 1, and the functions
called have the derivatives `dd`, then all values of all variables that matter are differentiable, and their derivatives satisfy the rules of calculus, statement by statement. -/
theorem C120_solutions_tangents {b : Body ℝ F} (hv : ValidProgram b) {objs : List (PObj ℝ F)} {root : OModel} (hr : runProgram b = .ok (objs, root)) (hn : objs.length ≤ 63 ^ 4)
    {den : F → List (Val ℝ) → Nat → Val ℝ} {dd : F → List (Val ℝ) → List (Val ℝ) → Nat → Val ℝ} {ρ : ℝ → List Name → Nat → Val ℝ} (h : ∀ t, Solution realPower den b (ρ t)) (t0 : ℝ)
    (hg : ∀ path y, GivenVar b path y → ∀ i, DifferentiableAt ℝ (fun t => ρ t path y i) t0)
    (hs : ∀ path c, BAt b path c → ∀ n i, c.Has n (.expr i) → c.Live n → SmoothAt (ρ t0 path) i)
    (hd : ∀ path c, BAt b path c → ∀ n f args outs, c.Has n (.call f args outs) → TangentAt (den f) (dd f) (args.map (ρ t0 path))) :
    (∀ path c, BAt b path c → ∀ x, c.Live x → ∀ i, DifferentiableAt ℝ (fun t => ρ t path x i) t0) ∧ Tangents dd b (ρ t0) fun path x i => deriv (fun t => ρ t path x i) t0 := by
  obtain ⟨Ls, hh, _⟩ := runFrom_hier hr (all := objs) List.prefix_rfl
  have u : Setup objs b root Ls := ⟨hh, hv.names, runFrom_closed (by simp [Closed]) hr, hn⟩
  have curve : ∀ path (args : List Nat), (∀ x ∈ args, ∀ k, DifferentiableAt ℝ (fun t => ρ t path x k) t0) → ∀ m k,
      HasDerivAt (fun t => (args.map (ρ t path)).getD m (fun _ => 0) k) ((args.map fun x i => deriv (fun t => ρ t path x i) t0).getD m (fun _ => 0) k) t0 := by
    intro path args ha m k
    simp only [List.getD_eq_getElem?_getD, List.getElem?_map]
    cases hm : args[m]? with
    | none => exact hasDerivAt_const _ _
    | some x => exact (ha x (List.mem_of_getElem? hm) k).hasDerivAt
  have diff : ∀ path c, BAt b path c → ∀ x, c.Live x → ∀ i, DifferentiableAt ℝ (fun t => ρ t path x i) t0 := by
    intro path c hc x hx i
    refine C118_solutions_differentiable hv hr hn h t0 hg hs (fun path c hc n f args outs hcall j _ _ ha k => ?_) path c hc x hx i
    exact (hd path c hc n f args outs hcall _ t0 (args.map fun x i => deriv (fun t => ρ t path x i) t0) rfl (by simp) (by simp) (curve path args ha) j k).differentiableAt
  refine ⟨diff, ⟨?_, ?_, ?_, ?_, ?_⟩⟩
  · intro path c hc n i hi hl
    have ho : ∀ x ∈ i.first :: i.others, ∀ k, HasDerivAt (fun t => ρ t path x k) (deriv (fun t => ρ t path x k) t0) t0 := fun x hx k =>
      (diff path c hc x (.operand hl hi (le_refl _) (by simp [Stmt.count]) (by simpa [Stmt.operands] using hx)) k).hasDerivAt
    have hlt : ∀ x ∈ i.first :: i.others, x < n := fun x hx => operands_before (hv.methods _ _ hc) hi (x := x) (by simpa [Stmt.operands] using hx)
    have hsm := hs path c hc n i hi hl
    funext k
    have e : ∀ t, ρ t path n = i.meaning realPower ((List.range n).map (ρ t path)) := fun t => (h t).expr path c hc n i hi hl
    simp only [e]
    apply HasDerivAt.deriv
    cases i <;> simp only [Instr.first, Instr.others, List.mem_cons, List.not_mem_nil, or_false, forall_eq_or_imp, forall_eq] at ho hlt <;> simp only [Instr.meaning, tangent]
    case pos x => simp only [getD_range _ hlt]; exact ho k
    case neg x => simp only [getD_range _ hlt]; exact (ho k).fun_neg
    case add x y => simp only [getD_range _ hlt.1, getD_range _ hlt.2]; exact (ho.1 k).fun_add (ho.2 k)
    case addc x c => simp only [getD_range _ hlt]; exact (ho k).add_const _
    case sub x y => simp only [getD_range _ hlt.1, getD_range _ hlt.2]; exact (ho.1 k).fun_sub (ho.2 k)
    case subc x c => simp only [getD_range _ hlt]; exact (ho k).sub_const _
    case rsubc c x => simp only [getD_range _ hlt]; exact (ho k).const_sub _
    case mul x y => simp only [getD_range _ hlt.1, getD_range _ hlt.2]; exact (ho.1 k).fun_mul (ho.2 k)
    case mulc x c => simp only [getD_range _ hlt]; exact (ho k).mul_const _
    case div x y => simp only [getD_range _ hlt.1, getD_range _ hlt.2]; exact (ho.1 k).fun_div (ho.2 k) (hsm k)
    case divc x c => simp only [getD_range _ hlt]; exact (ho k).div_const _
    case rdivc c x =>
      simp only [getD_range _ hlt]
      have := (hasDerivAt_const t0 (c.val k)).fun_div (ho k) (hsm k)
      simpa using this
    case powc x c => simp only [getD_range _ hlt]; exact (ho k).rpow_const (hsm k)
  · intro path c hc n f args outs hcall j hj hl
    funext k
    have e : ∀ t, ρ t path (n + j) = den f (args.map (ρ t path)) j := fun t => (h t).call path c hc n f args outs hcall j hj hl
    simp only [e]
    apply HasDerivAt.deriv
    refine hd path c hc n f args outs hcall _ t0 _ rfl (by simp) (by simp) (curve path args fun x hx => ?_) j k
    exact diff path c hc x (.operand hl hcall (by omega) (by simpa [Stmt.count] using hj) (by simpa [Stmt.operands] using hx))
  · intro path c hc n x key hi hl
    funext k
    have e : ∀ t, ρ t path n = part (c.shapes.getD x []) key (ρ t path x) := fun t => (h t).index path c hc n x key hi hl
    simp only [e]
    cases hk : keyPart (c.shapes.getD x []) key with
    | error q => simp only [part, hk]
    | ok q => simp only [part, hk, gather]
  · intro path c hc y name shape val ho hl
    refine ⟨fun key x idx shp h1 h2 i j hj => ?_, fun i hi => ?_⟩
    · have e : ∀ t, ρ t path y i = ρ t path x (unravel shp j) := fun t => ((h t).output path c hc y name shape val ho).1 key x idx shp h1 h2 i j hj
      simp only [e]
    · have e : ∀ t, ρ t path y i = val i := fun t => ((h t).output path c hc y name shape val ho).2 i hi
      simp only [e, deriv_const]
  · intro path c x path' c' x' _ _ _ _ he
    have e : ∀ t, ρ t path x = ρ t path' x' := fun t => (h t).same u he
    simp only [e]

/-- **C120, uniqueness.** The rules of calculus, applied statement by statement, determine all derivatives from those of the given values. -/
theorem C120_tangents_unique {b : Body ℝ F} (hv : ValidProgram b) {objs : List (PObj ℝ F)} {root : OModel} (hr : runProgram b = .ok (objs, root)) {dd : F → List (Val ℝ) → List (Val ℝ) → Nat → Val ℝ} {v d d' : List Name → Nat → Val ℝ}
    (h : Tangents dd b v d) (h' : Tangents dd b v d') (hg : ∀ path y, GivenVar b path y → d path y = d' path y) (path : List Name) (c : Body ℝ F) (hc : BAt b path c) (x : Nat) (hx : c.Live x) : d path x = d' path x := by
  refine depends_induction hv hr (p := fun z => d z.1 z.2 = d' z.1 z.2) ?_ (path, x) ⟨c, hc, hx⟩
  rintro ⟨path, x⟩ ⟨c, hc, hl⟩ ih
  by_cases hgiv : GivenVar b path x
  · exact hg path x hgiv
  have : ∃ path' b' n s y, BAt b path' b' ∧ b'.Has n s ∧ s.Computes ∧ n ≤ y ∧ y < n + s.count ∧ b'.Live y ∧ Relation.EqvGen (Same b) (path, x) (path', y) := by
    by_contra hcon
    exact hgiv ⟨⟨c, hc, hl⟩, fun path' b' n s y h1 h2 h3 h4 h5 h6 h7 => hcon ⟨path', b', n, s, y, h1, h2, h3, h4, h5, h6, h7⟩⟩
  obtain ⟨path', e, n, s, y, hb, hs, hcomp, h1, h2, hl', he⟩ := this
  show d path x = d' path x
  rw [h.same path c x path' e y hc hl hb hl' he, h'.same path c x path' e y hc hl hb hl' he]
  have hop : ∀ a, Feeds b (path', a) (path', y) → e.Live a → d path' a = d' path' a := fun a hf hla => ih (path', a) ⟨e, hb, hla⟩ ⟨_, hf, he.symm⟩
  have hope : ∀ a ∈ s.operands, d path' a = d' path' a := fun a ha => hop a (Or.inl ⟨e, n, s, rfl, hb, hs, hcomp, h1, h2, hl', ha⟩) (.operand hl' hs h1 h2 ha)
  cases s with
  | expr i =>
    obtain rfl : y = n := by simp [Stmt.count] at h2; omega
    rw [h.expr path' e hb y i hs hl', h'.expr path' e hb y i hs hl']
    cases i <;> simp only [Stmt.operands, Instr.first, Instr.others, List.mem_cons, List.not_mem_nil, or_false, forall_eq_or_imp, forall_eq] at hope <;> simp only [tangent, hope]
  | call f args outs =>
    obtain ⟨j, rfl⟩ := Nat.exists_eq_add_of_le h1
    have hj : j < outs.length := by simpa [Stmt.count] using h2
    rw [h.call path' e hb n f args outs hs j hj hl', h'.call path' e hb n f args outs hs j hj hl', List.map_congr_left (fun a ha => hope a (by simpa [Stmt.operands] using ha))]
  | index w key =>
    obtain rfl : y = n := by simp [Stmt.count] at h2; omega
    rw [h.index path' e hb y w key hs hl', h'.index path' e hb y w key hs hl', hope w (by simp [Stmt.operands])]
  | output name shape val =>
    obtain rfl : y = n := by simp [Stmt.count] at h2; omega
    funext i
    by_cases hi : ∀ key x idx shp, e.Assigned y key x → tgtIndices shape key = .ok (idx, shp) → (ravel shape i : Int) ∉ idx
    · rw [(h.output path' e hb y name shape val hs hl').2 i hi, (h'.output path' e hb y name shape val hs hl').2 i hi]
    · push_neg at hi
      obtain ⟨key, a, idx, shp, g1, g2, g3⟩ := hi
      obtain ⟨j, hj⟩ := List.mem_iff_getElem?.1 g3
      rw [(h.output path' e hb y name shape val hs hl').1 key a idx shp g1 g2 i j hj, (h'.output path' e hb y name shape val hs hl').1 key a idx shp g1 g2 i j hj]
      rw [hop a (Or.inr ⟨e, name, shape, val, key, rfl, hb, hs, g1⟩) (by obtain ⟨m, w, g, _⟩ := g1; exact .assigned g)]
  | _ => exact hcomp.elim

/-- **C120.** Compile a valid program and let the values that must be given depend on a real parameter `t`.  Wherever they are differentiable, no operator divides by zero or raises zero to a power below 1, and the functions called have the derivatives `dd`, the values computed by executing the representation are differentiable,
their derivatives satisfy the rules of calculus, statement by statement, and everything that satisfies them and agrees with the derivatives of the given values agrees with the derivatives of all variables that matter. -/
theorem C120_values (b : Body ℝ F) (hv : ValidProgram b) (hs : b.Assigns → b.maxObjects ≤ 63 ^ 4) : ∃ objs root, runProgram b = .ok (objs, root) ∧ (objs.length ≤ 63 ^ 4 →
    ∀ order : List Nat → List Nat, (∀ l x, x ∈ order l ↔ x ∈ l) → ∀ fuel, (∀ path b', BAt b path b' → (b'.locals.outputs ++ b'.locals.declared).length + objs.length ≤ fuel) →
      ∃ rep, compile (objects objs) fuel order root = .ok rep ∧ ∃ (f : Nat → Nat) (node : List Name → Nat → Nat), ∀ (den : F → List (Val ℝ) → Nat → Val ℝ) (dd : F → List (Val ℝ) → List (Val ℝ) → Nat → Val ℝ) (σ : ℝ → Env (Val ℝ)),
        let value := fun t path x => execAll rep.graph ⟨fun i => decide ((objects objs i).kind = .op), fun i => (objects objs i).deps.map f, opMeaning realPower den objs⟩ (σ t) rep.sorted (node path x)
        (∀ t, Solution realPower den b (value t)) ∧ (∀ t path x, GivenVar b path x → value t path x = σ t (node path x)) ∧
        ∀ t0, (∀ path x, GivenVar b path x → ∀ i, DifferentiableAt ℝ (fun t => σ t (node path x) i) t0) →
          (∀ path c, BAt b path c → ∀ n i, c.Has n (.expr i) → c.Live n → SmoothAt (value t0 path) i) →
          (∀ path c, BAt b path c → ∀ n g args outs, c.Has n (.call g args outs) → TangentAt (den g) (dd g) (args.map (value t0 path))) →
          (∀ path c, BAt b path c → ∀ x, c.Live x → ∀ i, DifferentiableAt ℝ (fun t => value t path x i) t0) ∧ Tangents dd b (value t0) (fun path x i => deriv (fun t => value t path x i) t0) ∧
          ∀ d, Tangents dd b (value t0) d → (∀ path x, GivenVar b path x → ∀ i, d path x i = deriv (fun t => σ t (node path x) i) t0) → ∀ path c, BAt b path c → ∀ x, c.Live x → ∀ i, HasDerivAt (fun t => value t path x i) (d path x i) t0) := by
  obtain ⟨objs, root, hr, h⟩ := C74_valid_programs_compute b hv hs
  refine ⟨objs, root, hr, fun hn order ho fuel hf => ?_⟩
  obtain ⟨rep, hc, f, node, h3⟩ := h hn order ho fuel hf
  refine ⟨rep, hc, f, node, fun den dd σ => ?_⟩
  have hsol := fun t => (h3 realPower den (σ t)).1
  have hgiv := fun t => (h3 realPower den (σ t)).2.1
  refine ⟨hsol, hgiv, fun t0 hg hsm hd => ?_⟩
  have hg' : ∀ path y, GivenVar b path y → ∀ i, DifferentiableAt ℝ (fun t => execAll rep.graph ⟨fun i => decide ((objects objs i).kind = .op), fun i => (objects objs i).deps.map f, opMeaning realPower den objs⟩ (σ t) rep.sorted (node path y) i) t0 := by
    intro path y hy i
    have e : ∀ t, _ = _ := fun t => hgiv t path y hy
    simp only [e]
    exact hg path y hy i
  obtain ⟨k1, k2⟩ := C120_solutions_tangents hv hr hn hsol t0 hg' hsm hd
  refine ⟨k1, k2, fun d hd' hgd path c hc x hx i => ?_⟩
  have hgd' : ∀ path y, GivenVar b path y → d path y = fun i => deriv (fun t => execAll rep.graph ⟨fun i => decide ((objects objs i).kind = .op), fun i => (objects objs i).deps.map f, opMeaning realPower den objs⟩ (σ t) rep.sorted (node path y) i) t0 := by
    intro path y hy
    funext i
    have e : ∀ t, _ = _ := fun t => hgiv t path y hy
    simp only [e]
    exact hgd path y hy i
  rw [C120_tangents_unique hv hr hd' k2 hgd' path c hc x hx]
  exact (k1 path c hc x hx i).hasDerivAt

/-! ### Example: the derivative of `y = 1 / x` -/

theorem exInverse_given : GivenVar exInverse [] 0 :=
  (C109_given_iff exInverse exInverse_valid (by decide) [] exInverse (.here _) 0 (.input (name := "x".toList) (s := [1]) (by decide))).2
    (Or.inl ⟨[], 0, .refl _, exInverse, "x".toList, [1], fun _ => 3, .here _, by simp [Body.Has, exInverse, Body.stmts], by
      rintro p _ ⟨path, l, subs, a, c, h1, h2, _⟩
      obtain ⟨d, hd, e⟩ := BAt.locals h1
      rw [Body.toModel] at e
      cases e
      obtain ⟨rfl, rfl⟩ := oneModel_at rfl hd
      simp [Body.locals, exInverse, Body.stmts, Stmt.count, stepConnections] at h2⟩)

/-- the hypotheses of C120 are met: run and compiled, `exInverse` computes, for `x = t`, a value of `y` whose derivative is `-1 / t²` where `t` is not zero -/
example : ∃ objs root, runProgram exInverse = .ok (objs, root) ∧ (objs.length ≤ 63 ^ 4 → ∀ fuel, (∀ path b', BAt exInverse path b' → (b'.locals.outputs ++ b'.locals.declared).length + objs.length ≤ fuel) →
    ∃ rep, compile (objects objs) fuel id root = .ok rep ∧ ∃ value : ℝ → List Name → Nat → Val ℝ, (∀ t, Solution realPower (fun f => f.elim) exInverse (value t)) ∧ (∀ t i, value t [] 0 i = t) ∧
      ∀ t0, t0 ≠ 0 → ∀ i, HasDerivAt (fun t => value t [] 1 i) (-1 / t0 ^ 2) t0) := by
  obtain ⟨objs, root, hr, h⟩ := C120_values exInverse exInverse_valid fun h => absurd h exInverse_plain
  refine ⟨objs, root, hr, fun hn fuel hf => ?_⟩
  obtain ⟨rep, hc, f, node, h⟩ := h hn id (fun _ _ => Iff.rfl) fuel hf
  obtain ⟨h1, h2, h3⟩ := h (fun f => f.elim) (fun f => f.elim) fun t _ _ => t
  have hl1 : exInverse.Live 1 := .output (name := "y".toList) (by decide)
  have hl0 : exInverse.Live 0 := .input (name := "x".toList) (s := [1]) (by decide)
  refine ⟨rep, hc, _, h1, fun t i => congrFun (h2 t [] 0 exInverse_given) i, fun t0 ht i => ?_⟩
  obtain ⟨k1, k2, _⟩ := h3 t0 (fun path x _ i => differentiableAt_id) (fun path c hc n i hi hl => by
      obtain ⟨rfl, rfl⟩ := oneModel_at rfl hc
      simp [Body.Has, exInverse, Body.stmts, Stmt.count] at hi
      obtain ⟨rfl, rfl⟩ := hi
      intro k
      rw [show _ = t0 from congrFun (h2 t0 [] 0 exInverse_given) k]
      exact ht) (fun path c hc n g args outs _ => g.elim)
  have key := congrFun (k2.expr [] exInverse (.here _) 1 (.rdivc (.num 1) 0) (by simp [Body.Has, exInverse, Body.stmts, Stmt.count]) hl1) i
  have := (k1 [] exInverse (.here _) 1 hl1 i).hasDerivAt
  rw [show deriv _ t0 = _ from key] at this
  have e : ∀ t, _ = _ := fun t => congrFun (h2 t [] 0 exInverse_given) i
  simp only [tangent, Const.val, e, deriv_id'', one_mul] at this
  exact this

end Csdl.Prog
