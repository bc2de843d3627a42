import Verif.Props.ProgramParts
import Verif.Props.Concat
/-
C73: outputs assembled from parts are what NumPy says.
-/
namespace Csdl.Prog
open Csdl Csdl.Arith
variable {K F : Type} [Field K] [DecidableEq K]

omit [Field K] [DecidableEq K] in
/-- an assignment that was accepted, on its own -/
theorem assigned_alone {shape shp : Shape} {key : Key} {idx : List Int} (h : tgtIndices shape key = .ok (idx, shp)) (hlt : ∀ i ∈ idx, i < (shape.size : Int)) :
    (setItem (Concat.fresh shape) key ⟨0, [], shp⟩).2 = none := by
  unfold setItem Concat.fresh
  simp only [h, ne_eq, not_true_eq_false, if_false]
  rw [if_neg, if_neg]
  · simp
  · simp [Dict.has, Dict.get?]
  · rw [List.any_eq_true]
    rintro ⟨i, hi, h⟩
    have := hlt i hi
    have := of_decide_eq_true h
    omega

/-- **C73.** What `y[key] = x` means in a program that runs: if `y` is an output to be assembled, and the key has one element per axis of `y` and is not a negative int, then with `sel` the positions NumPy basic
indexing selects on each axis, `x` has the shape of the NumPy slice, and in every solution the element of `y` at the positions selected by `j` is the element `j` of `x`. -/
theorem C73_assignment_is_numpy (b : Body K F) (objs : List (PObj K F)) (root : OModel) (hr : runProgram b = .ok (objs, root)) (path : List Name) (b' : Body K F)
    (hb : BAt b path b') (y : Nat) (name : Name) (shape : Shape) (val : Val K) (hy : b'.Has y (.output name shape val)) (key : Key) (x : Nat) (ha : b'.Assigned y key x)
    (hrank : key.elems.length = shape.length) (hneg : key.negInt = false) :
    ∃ sel, KeySelects shape key sel ∧ b'.shapes.getD x [] = sel.map List.length ∧ ∀ j, ValidIdx (b'.shapes.getD x []) j → ValidIdx shape (Csdl.pick sel j) ∧
      ∀ (P : Power K) (den : F → List (Val K) → Nat → Val K) (ρ : List Name → Nat → Val K), Solution P den b ρ → ρ path y (Csdl.pick sel j) = ρ path x j := by
  obtain ⟨Ls, hh, _⟩ := runFrom_hier hr List.prefix_rfl
  obtain ⟨s, hs, rfl⟩ := hh.ofBody path b' hb
  obtain ⟨m, hm, c⟩ := hh.model hs
  obtain ⟨i, v, es, g⟩ := c.asm_of_output hy
  obtain ⟨⟨shp, idx⟩, _, h1, h2, h3⟩ := forall₂_mem_left g.entries ((g.assigned c).2 ha)
  have hx : s.body.shapes.getD x [] = shp := (c.inv.shapeAt (c.assigned_lt ha)).trans h1.symm
  simp only at h2 h3
  obtain ⟨sel, s1, s2, _, s4⟩ := C22_writes_like_numpy (Concat.fresh shape) key ⟨0, [], shp⟩ hrank hneg (assigned_alone h2 h3)
  rw [hx]
  refine ⟨sel, s1, s2, fun j hj => ?_⟩
  obtain ⟨g1, g2⟩ := s4 j hj
  refine ⟨g1, fun P den ρ hρ => ?_⟩
  have hw : wanted shape key = idx := by rw [wanted, h2]
  have g2 : (wanted shape key)[ravel shp j]? = some ((ravel shape (Csdl.pick sel j) : Nat) : Int) := g2
  rw [hw] at g2
  rw [(hρ.output path s.body hb y name shape val hy).1 key x idx shp ha h2 _ _ g2, unravel_ravel _ _ hj]

/-- **C73.** Elements of an output that no assignment selects have the value given to `create_output`: if all keys assigned have one element per axis and are not negative ints. -/
theorem C73_unassigned_elements (b : Body K F) (objs : List (PObj K F)) (root : OModel) (hr : runProgram b = .ok (objs, root)) (path : List Name) (b' : Body K F)
    (hb : BAt b path b') (y : Nat) (name : Name) (shape : Shape) (val : Val K) (hy : b'.Has y (.output name shape val))
    (hk : ∀ key x, b'.Assigned y key x → key.elems.length = shape.length ∧ key.negInt = false) (i : List Nat) (hi : ValidIdx shape i)
    (hno : ∀ key x sel, b'.Assigned y key x → KeySelects shape key sel → ∀ j, ValidIdx (b'.shapes.getD x []) j → Csdl.pick sel j ≠ i)
    (P : Power K) (den : F → List (Val K) → Nat → Val K) (ρ : List Name → Nat → Val K) (hρ : Solution P den b ρ) : ρ path y i = val i := by
  refine (hρ.output path b' hb y name shape val hy).2 i fun key x idx shp ha ht hmem => ?_
  obtain ⟨Ls, hh, _⟩ := runFrom_hier hr List.prefix_rfl
  obtain ⟨s, hs, rfl⟩ := hh.ofBody path b' hb
  obtain ⟨m, hm, c⟩ := hh.model hs
  obtain ⟨o, v, es, g⟩ := c.asm_of_output hy
  obtain ⟨⟨shp', idx'⟩, _, h1, h2, h3⟩ := forall₂_mem_left g.entries ((g.assigned c).2 ha)
  simp only at h1 h2 h3
  rw [ht] at h2
  cases h2
  have hx : s.body.shapes.getD x [] = shp := (c.inv.shapeAt (c.assigned_lt ha)).trans h1.symm
  obtain ⟨hrank, hneg⟩ := hk key x ha
  obtain ⟨sel, s1, s2, s3, s4⟩ := C22_writes_like_numpy (Concat.fresh shape) key ⟨0, [], shp⟩ hrank hneg (assigned_alone ht h3)
  have hw : wanted shape key = idx := by rw [wanted, ht]
  obtain ⟨k, hk1⟩ := List.mem_iff_getElem?.1 hmem
  have s3 : (wanted shape key).length = shp.size := s3
  rw [hw] at s3
  obtain ⟨j, hj, rfl⟩ := C21_ravel_surjective shp k (by rw [← s3]; exact (List.getElem?_eq_some_iff.1 hk1).1)
  obtain ⟨g1, g2⟩ := s4 j hj
  have g2 : (wanted shape key)[ravel shp j]? = some ((ravel shape (Csdl.pick sel j) : Nat) : Int) := g2
  rw [hw, hk1] at g2
  refine hno key x sel ha s1 j (by rw [hx]; exact hj) ?_
  have e : ravel shape i = ravel shape (Csdl.pick sel j) := by exact_mod_cast Option.some.inj g2
  rw [← unravel_ravel shape i hi, e]
  exact (unravel_ravel _ _ g1).symm

/-! ### Example: an output assembled from two variables -/

/-- `def define(self): x = create_input('x', shape=(2,)); w = create_input('w'); y = create_output('y', shape=(4,), val=7); y[0:2] = x; y[2] = w; z = y * y; register_output('z', z)` -/
def exCat : Body ℚ Unit :=
  .stmt (.input "x".toList [2] (fun _ => 1)) (.stmt (.input "w".toList [1] (fun _ => 1)) (.stmt (.output "y".toList [4] fun _ => 7) (.stmt (.assign 2 (.slice (some 0) (some 2) none) 0) (.stmt (.assign 2 (.int 2) 1)
    (.stmt (.expr (.mul 2 2)) (.stmt (.register "z".toList 3) .done))))))

theorem exCat_at {path : List Name} {b' : Body ℚ Unit} (h : BAt exCat path b') : path = [] ∧ b' = exCat := by
  cases h with
  | here => exact ⟨rfl, rfl⟩
  | down h1 h2 => simp [exCat, Body.subs] at h1

theorem exCat_good : GoodNames exCat := by
  constructor <;> intro path b' h <;> obtain ⟨_, rfl⟩ := exCat_at h <;> decide

theorem exCat_noChain : NoChain exCat.toModel := by
  have hiss : issuedPost Local.connections exCat.toModel = [] := by decide
  constructor
  · intro i hi
    rw [hiss] at hi
    cases hi
  · rw [hiss]; exact .nil

theorem exCat_run : ∃ objs root rep, runProgram exCat = .ok (objs, root) ∧ objs.length = 8 ∧ compile (objects objs) 20 id root = .ok rep := by
  obtain ⟨⟨objs, root⟩, h1, h⟩ := ok_of_check (x := runProgram exCat) (P := fun q => decide (q.1.length = 8) && okCheck (compile (objects q.1) 20 id q.2) fun _ => true)
    (by decide +kernel)
  rw [Bool.and_eq_true] at h
  obtain ⟨rep, h2, h3⟩ := ok_of_check h.2
  exact ⟨objs, root, rep, h1, of_decide_eq_true h.1, h2⟩

theorem exCat_assigned {y : Nat} {key : Key} {x : Nat} (h : exCat.Assigned y key x) : (key = .slice (some 0) (some 2) none ∧ x = 0) ∨ (key = .int 2 ∧ x = 1) := by
  obtain ⟨n, z, h, _⟩ := h
  simp [Body.Has, exCat, Body.stmts, Stmt.count] at h
  tauto

/-- C73 applies: `y` is `x[0], x[1], w, 7` and `z` is its square -/
example : ∃ objs root rep, GoodNames exCat ∧ NoChain exCat.toModel ∧ runProgram exCat = .ok (objs, root) ∧ compile (objects objs) 20 id root = .ok rep ∧
    ∃ (f : Nat → Nat) (node : List Name → Nat → Nat), ∀ (P : Power ℚ) (den : Unit → List (Val ℚ) → Nat → Val ℚ) (σ0 : Env (Val ℚ)),
      let σ := execAll rep.graph ⟨fun i => decide ((objects objs i).kind = .op), fun i => (objects objs i).deps.map f, opMeaning P den objs⟩ σ0 rep.sorted
      (∀ i < 2, σ (node [] 2) [i] = σ (node [] 0) [i]) ∧ σ (node [] 2) [2] = σ (node [] 1) [0] ∧ σ (node [] 2) [3] = 7 ∧ ∀ i, σ (node [] 3) i = σ (node [] 2) i * σ (node [] 2) i := by
  obtain ⟨objs, root, rep, hr, hl, hc⟩ := exCat_run
  have hf : ∀ path b', BAt exCat path b' → (b'.locals.outputs ++ b'.locals.declared).length + objs.length ≤ 20 := by
    intro path b' h
    obtain ⟨_, rfl⟩ := exCat_at h
    rw [hl]
    decide
  obtain ⟨f, node, _, h2, h3⟩ := C73_programs_mean_what_they_say exCat exCat_good exCat_noChain objs root hr (by rw [hl]; decide) 20 hf id (fun _ _ => Iff.rfl) rep hc
  refine ⟨objs, root, rep, exCat_good, exCat_noChain, hr, hc, f, node, fun P den σ0 => ?_⟩
  obtain ⟨sol, _, _⟩ := h3 P den σ0
  have l3 : exCat.Live 3 := .output (name := "z".toList) (by decide)
  have h22 : exCat.Has 2 (.output "y".toList [4] fun _ => 7) := by simp [Body.Has, exCat, Body.stmts, Stmt.count]
  have h33 : exCat.Has 3 (.expr (.mul 2 2)) := by simp [Body.Has, exCat, Body.stmts, Stmt.count]
  have a1 : exCat.Assigned 2 (.slice (some 0) (some 2) none) 0 := ⟨3, 2, by simp [Body.Has, exCat, Body.stmts, Stmt.count], .refl _⟩
  have a2 : exCat.Assigned 2 (.int 2) 1 := ⟨3, 2, by simp [Body.Has, exCat, Body.stmts, Stmt.count], .refl _⟩
  have k1 : tgtIndices [4] (.slice (some 0) (some 2) none) = .ok ([0, 1], [2]) := by decide
  have k2 : tgtIndices [4] (.int 2) = .ok ([2], [1]) := by decide
  have e3 := sol.expr [] exCat (.here _) 3 _ h33 l3
  obtain ⟨e1, e2⟩ := sol.output [] exCat (.here _) 2 _ _ _ h22
  refine ⟨fun i hi => ?_, ?_, ?_, fun i => congrFun e3 i⟩
  · have : i = 0 ∨ i = 1 := by omega
    rcases this with rfl | rfl
    · exact e1 _ _ _ _ a1 k1 [0] 0 rfl
    · exact e1 _ _ _ _ a1 k1 [1] 1 rfl
  · exact e1 _ _ _ _ a2 k2 [2] 0 rfl
  · refine e2 [3] fun key x idx shp ha ht => ?_
    rcases exCat_assigned ha with ⟨rfl, rfl⟩ | ⟨rfl, rfl⟩
    · rw [k1] at ht; cases ht; decide
    · rw [k2] at ht; cases ht; decide

/-- C74 applies: the method is fine because the program runs -/
example : exCat.Assigns ∧ PlainNames exCat ∧ MethodOk exCat := by
  have hp : PlainNames exCat := plainNames exCat_good fun _ => by decide
  obtain ⟨objs, root, _, hr, _⟩ := exCat_run
  exact ⟨⟨[], exCat, 3, 2, .int 2, 1, .here _, by simp [Body.Has, exCat, Body.stmts, Stmt.count]⟩, hp, (C74_programs_run_iff exCat hp).1 ⟨objs, root, hr⟩ [] exCat (.here _)⟩

/-! ### Assignments that are rejected -/

/-- `y[0:2] = x; y[1] = w`: the second assignment overlaps with the first -/
def exOverlap : Body ℚ Unit :=
  .stmt (.input "x".toList [2] (fun _ => 1)) (.stmt (.input "w".toList [1] (fun _ => 1)) (.stmt (.output "y".toList [4] fun _ => 7) (.stmt (.assign 2 (.slice (some 0) (some 2) none) 0) (.stmt (.assign 2 (.int 1) 1) .done))))

/-- an output without any assignment -/
def exUnassigned : Body ℚ Unit := .stmt (.input "x".toList [2] (fun _ => 1)) (.stmt (.output "y".toList [4] fun _ => 7) .done)

example : okCheck (runProgram exOverlap) (fun _ => true) = false ∧ okCheck (runProgram exUnassigned) (fun _ => true) = false := by decide +kernel

end Csdl.Prog
