import Verif.Proofs.Smooth
import Verif.Props.ValidProgram
import Verif.Props.OneModel
import Verif.Props.MergedSizes
/-
C119: the values of a linear (affine) program are linear (affine) functions of the given values.
-/
namespace Csdl.Prog
open Csdl Csdl.Arith
variable {K F T : Type} [Field K] [DecidableEq K] [AddCommGroup T] [Module K T]

omit [DecidableEq K] in
theorem getD_at (g : Nat → Val K) {x n : Nat} (h : x < n) : ((List.range n).map g).getD x (fun _ => 0) = g x := by
  simp only [List.getD_eq_getElem?_getD, List.getElem?_map, List.getElem?_range h, Option.map_some, Option.getD_some]

/-- **C119, equations, linear.** Let values of a valid linear program depend on a parameter `t` (e.g. the vector of all given values), and let them solve the program for every `t`.  If the given values are linear functions of `t`, all values of all variables that matter are linear functions of `t`. -/
theorem C119_solutions_linear {b : Body K F} (hv : ValidProgram b) {objs : List (PObj K F)} {root : OModel} (hr : runProgram b = .ok (objs, root)) (hn : objs.length ≤ 63 ^ 4) {P : Power K}
    {den : F → List (Val K) → Nat → Val K} (hlin : LinearProgram den b) {ρ : T → List Name → Nat → Val K} (h : ∀ t, Solution P den b (ρ t))
    (hg : ∀ path y, GivenVar b path y → ∀ i, IsLinearMap K (fun t => ρ t path y i))
    (path : List Name) (c : Body K F) (hc : BAt b path c) (x : Nat) (hx : c.Live x) (i : List Nat) : IsLinearMap K (fun t => ρ t path x i) := by
  refine Solution.family hv hr hn h (fun f => IsLinearMap K f) hg ?_ ?_ ?_ (path, x) ⟨c, hc, hx⟩ i
  · intro path c hc n i hi hl ho hlt k
    have hsm := hlin.operators path c hc n i hi hl
    cases i <;> simp only [LinearOperator] at hsm <;> simp only [Instr.first, Instr.others, List.mem_cons, List.not_mem_nil, or_false, forall_eq_or_imp, forall_eq] at ho hlt <;> simp only [Instr.meaning]
    case pos x => simp only [getD_at _ hlt]; exact ho k
    case neg x =>
      simp only [getD_at _ hlt]
      exact ⟨fun t t' => by rw [(ho k).map_add]; ring, fun a t => by rw [(ho k).map_smul]; simp⟩
    case add x y =>
      simp only [getD_at _ hlt.1, getD_at _ hlt.2]
      exact ⟨fun t t' => by rw [(ho.1 k).map_add, (ho.2 k).map_add]; ring, fun a t => by rw [(ho.1 k).map_smul, (ho.2 k).map_smul]; simp only [smul_eq_mul]; ring⟩
    case sub x y =>
      simp only [getD_at _ hlt.1, getD_at _ hlt.2]
      exact ⟨fun t t' => by rw [(ho.1 k).map_add, (ho.2 k).map_add]; ring, fun a t => by rw [(ho.1 k).map_smul, (ho.2 k).map_smul]; simp only [smul_eq_mul]; ring⟩
    case mulc x c =>
      simp only [getD_at _ hlt]
      exact ⟨fun t t' => by rw [(ho k).map_add]; ring, fun a t => by rw [(ho k).map_smul]; simp only [smul_eq_mul]; ring⟩
    case divc x c =>
      simp only [getD_at _ hlt, div_eq_mul_inv]
      exact ⟨fun t t' => by rw [(ho k).map_add]; ring, fun a t => by rw [(ho k).map_smul]; simp only [smul_eq_mul]; ring⟩
  · intro path c hc n f args outs hs j _ _ ho k
    obtain ⟨h1, h2⟩ := hlin.functions path c hc n f args outs hs j
    refine ⟨fun t t' => ?_, fun a t => ?_⟩
    · have e : args.map (ρ (t + t') path) = List.zipWith (fun v w i => v i + w i) (args.map (ρ t path)) (args.map (ρ t' path)) := by
        rw [List.zipWith_map, List.zipWith_self]
        exact List.map_congr_left fun x hx => funext fun i => (ho x hx i).map_add t t'
      show den f (args.map (ρ (t + t') path)) j k = _
      rw [e, h1 _ _ (by simp)]
    · have e : args.map (ρ (a • t) path) = (args.map (ρ t path)).map fun v i => a * v i := by
        rw [List.map_map]
        exact List.map_congr_left fun x hx => funext fun i => (ho x hx i).map_smul a t
      show den f (args.map (ρ (a • t) path)) j k = _
      rw [e, h2]
      rfl
  · intro path c hc y name shape val hs i hi
    rw [hlin.outputs path c hc y name shape val hs i hi]
    exact ⟨fun _ _ => by simp, fun _ _ => by simp⟩

/-- **C119, equations, affine.** The same for affine programs: sums with constants are allowed, and outputs may have any values where nothing is assigned. -/
theorem C119_solutions_affine {b : Body K F} (hv : ValidProgram b) {objs : List (PObj K F)} {root : OModel} (hr : runProgram b = .ok (objs, root)) (hn : objs.length ≤ 63 ^ 4) {P : Power K}
    {den : F → List (Val K) → Nat → Val K} (hlin : AffineProgram den b) {ρ : T → List Name → Nat → Val K} (h : ∀ t, Solution P den b (ρ t))
    (hg : ∀ path y, GivenVar b path y → ∀ i, IsAffine (fun t => ρ t path y i))
    (path : List Name) (c : Body K F) (hc : BAt b path c) (x : Nat) (hx : c.Live x) (i : List Nat) : IsAffine (fun t => ρ t path x i) := by
  refine Solution.family hv hr hn h (fun f => IsAffine f) hg ?_ ?_ (fun _ _ _ _ _ _ _ _ _ _ a t t' => by ring) (path, x) ⟨c, hc, hx⟩ i
  · intro path c hc n i hi hl ho hlt k
    have hsm := hlin.operators path c hc n i hi hl
    cases i <;> simp only [AffineOperator, LinearOperator] at hsm <;> simp only [Instr.first, Instr.others, List.mem_cons, List.not_mem_nil, or_false, forall_eq_or_imp, forall_eq] at ho hlt <;> simp only [Instr.meaning]
    case pos x => simp only [getD_at _ hlt]; exact ho k
    case add x y => simp only [getD_at _ hlt.1, getD_at _ hlt.2]; intro a t t'; have := ho.1 k a t t'; have := ho.2 k a t t'; linear_combination ho.1 k a t t' + ho.2 k a t t'
    case sub x y => simp only [getD_at _ hlt.1, getD_at _ hlt.2]; intro a t t'; linear_combination ho.1 k a t t' - ho.2 k a t t'
    case neg x => simp only [getD_at _ hlt]; intro a t t'; linear_combination - ho k a t t'
    case addc x c => simp only [getD_at _ hlt]; intro a t t'; linear_combination ho k a t t'
    case subc x c => simp only [getD_at _ hlt]; intro a t t'; linear_combination ho k a t t'
    case rsubc c x => simp only [getD_at _ hlt]; intro a t t'; linear_combination - ho k a t t'
    case mulc x c => simp only [getD_at _ hlt]; intro a t t'; linear_combination (c.val k) * ho k a t t'
    case divc x c => simp only [getD_at _ hlt, div_eq_mul_inv]; intro a t t'; linear_combination (c.val k)⁻¹ * ho k a t t'
  · intro path c hc n f args outs hs j _ _ ho k a t t'
    have h1 := hlin.functions path c hc n f args outs hs j a (args.map (ρ t path)) (args.map (ρ t' path)) (by simp)
    have e : args.map (ρ (a • t + (1 - a) • t') path) = List.zipWith (fun v w i => a * v i + (1 - a) * w i) (args.map (ρ t path)) (args.map (ρ t' path)) := by
      rw [List.zipWith_map, List.zipWith_self]
      exact List.map_congr_left fun x hx => funext fun i => ho x hx i a t t'
    show den f (args.map (ρ (a • t + (1 - a) • t') path)) j k = _
    rw [e, h1]

/-- **C119.** Compile a valid linear (affine) program and let the values that must be given depend on a parameter `t` of a vector space.  For every `t`, executing the representation computes a solution of the program for the values given; and if the given values are linear (affine) functions of `t`, the
computed values of all variables that matter, of all models, are linear (affine) functions of `t`. -/
theorem C119_values (b : Body K F) (hv : ValidProgram b) (hs : b.Assigns → b.maxObjects ≤ 63 ^ 4) : ∃ objs root, runProgram b = .ok (objs, root) ∧ (objs.length ≤ 63 ^ 4 →
    ∀ order : List Nat → List Nat, (∀ l x, x ∈ order l ↔ x ∈ l) → ∀ fuel, (∀ path b', BAt b path b' → (b'.locals.outputs ++ b'.locals.declared).length + objs.length ≤ fuel) →
      ∃ rep, compile (objects objs) fuel order root = .ok rep ∧ ∃ (f : Nat → Nat) (node : List Name → Nat → Nat), ∀ (P : Power K) (den : F → List (Val K) → Nat → Val K) (T : Type) [AddCommGroup T] [Module K T] (σ : T → Env (Val K)),
        let value := fun t path x => execAll rep.graph ⟨fun i => decide ((objects objs i).kind = .op), fun i => (objects objs i).deps.map f, opMeaning P den objs⟩ (σ t) rep.sorted (node path x)
        (∀ t, Solution P den b (value t)) ∧ (∀ t path x, GivenVar b path x → value t path x = σ t (node path x)) ∧
        (LinearProgram den b → (∀ path x, GivenVar b path x → ∀ i, IsLinearMap K (fun t => σ t (node path x) i)) → ∀ path c, BAt b path c → ∀ x, c.Live x → ∀ i, IsLinearMap K (fun t => value t path x i)) ∧
        (AffineProgram den b → (∀ path x, GivenVar b path x → ∀ i, IsAffine (fun t => σ t (node path x) i)) → ∀ path c, BAt b path c → ∀ x, c.Live x → ∀ i, IsAffine (fun t => value t path x i))) := by
  obtain ⟨objs, root, hr, h⟩ := C74_valid_programs_compute b hv hs
  refine ⟨objs, root, hr, fun hn order ho fuel hf => ?_⟩
  obtain ⟨rep, hc, f, node, h3⟩ := h hn order ho fuel hf
  refine ⟨rep, hc, f, node, fun P den T _ _ σ => ?_⟩
  have hsol := fun t => (h3 P den (σ t)).1
  have hgiv := fun t => (h3 P den (σ t)).2.1
  refine ⟨hsol, hgiv, fun hl hg path c hc x hx i => ?_, fun hl hg path c hc x hx i => ?_⟩
  · refine C119_solutions_linear hv hr hn hl hsol (fun path y hy i => ?_) path c hc x hx i
    have e : ∀ t, _ = _ := fun t => hgiv t path y hy
    simp only [e]
    exact hg path y hy i
  · refine C119_solutions_affine hv hr hn hl hsol (fun path y hy i => ?_) path c hc x hx i
    have e : ∀ t, _ = _ := fun t => hgiv t path y hy
    simp only [e]
    exact hg path y hy i

/-! ### Example: a linear and an affine program -/

/-- `exFlat`, a main model with an input and a submodel that multiplies it by 3, is linear -/
example (den : Unit → List (Val ℚ) → Nat → Val ℚ) : ValidProgram exFlat ∧ LinearProgram den exFlat := by
  refine ⟨exFlat_valid, fun path c hc n i hi hl => ?_, fun path c hc n f args outs hs => ?_, fun path c hc y name shape val hs => ?_⟩ <;>
    rcases exFlat_at hc with ⟨_, rfl⟩ | ⟨_, rfl⟩ <;> simp [Body.Has, exFlat, exFlatSub, Body.stmts, Stmt.count] at *
  rw [hi.2]
  trivial

/-- and affine -/
example (den : Unit → List (Val ℚ) → Nat → Val ℚ) : AffineProgram den exFlat := by
  refine ⟨fun path c hc n i hi hl => ?_, fun path c hc n f args outs hs => ?_⟩ <;>
    rcases exFlat_at hc with ⟨_, rfl⟩ | ⟨_, rfl⟩ <;> simp [Body.Has, exFlat, exFlatSub, Body.stmts, Stmt.count] at *
  rw [hi.2]
  trivial

end Csdl.Prog
