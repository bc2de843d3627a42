import Verif.Proofs.Inside
import Verif.Props.InputDeclared
/-
C114: no element outside of an array is read.
-/
namespace Csdl.Prog
open Csdl Csdl.Arith
variable {K F : Type} [Field K] [DecidableEq K]

/-- **C114.** Run and compile a valid program in which joined variables have the same shape, and execute its representation twice.  If the given values have the same elements in both executions, and no function reads outside of its arguments, then all variables that matter have the same elements:
nothing that an operator, a part, an assembled output or a connection reads lies outside of the shape of the variable it is read from. -/
theorem C114_reads_inside (b : Body K F) (hv : ValidProgram b) (hs : b.Assigns → b.maxObjects ≤ 63 ^ 4) (hj : JoinedShapesEqual b) : ∃ objs root, runProgram b = .ok (objs, root) ∧ (objs.length ≤ 63 ^ 4 →
    ∀ order : List Nat → List Nat, (∀ l x, x ∈ order l ↔ x ∈ l) → ∀ fuel, (∀ path c, BAt b path c → (c.locals.outputs ++ c.locals.declared).length + objs.length ≤ fuel) →
      ∃ rep, compile (objects objs) fuel order root = .ok rep ∧ ∃ (f : Nat → Nat) (node : List Name → Nat → Nat), ∀ (P : Power K) (den den' : F → List (Val K) → Nat → Val K) (σ0 σ0' : Env (Val K)),
        let value := fun path x => execAll rep.graph ⟨fun i => decide ((objects objs i).kind = .op), fun i => (objects objs i).deps.map f, opMeaning P den objs⟩ σ0 rep.sorted (node path x)
        let value' := fun path x => execAll rep.graph ⟨fun i => decide ((objects objs i).kind = .op), fun i => (objects objs i).deps.map f, opMeaning P den' objs⟩ σ0' rep.sorted (node path x)
        Solution P den b value ∧ Solution P den' b value' ∧ (∀ path x, GivenVar b path x → value path x = σ0 (node path x) ∧ value' path x = σ0' (node path x)) ∧
        (CallsInside b den den' → (∀ path c x, BAt b path c → GivenVar b path x → AgreeInside (c.shapes.getD x []) (σ0 (node path x)) (σ0' (node path x))) →
          ∀ path c, BAt b path c → ∀ x, c.Live x → AgreeInside (c.shapes.getD x []) (value path x) (value' path x))) := by
  obtain ⟨objs, root, h1, h2⟩ := C74_valid_programs_compute b hv hs
  refine ⟨objs, root, h1, fun hn order ho fuel hf => ?_⟩
  obtain ⟨rep, hc, f, node, h3⟩ := h2 hn order ho fuel hf
  refine ⟨rep, hc, f, node, fun P den den' σ0 σ0' => ?_⟩
  obtain ⟨s1, s2, _⟩ := h3 P den σ0
  obtain ⟨t1, t2, _⟩ := h3 P den' σ0'
  refine ⟨s1, t1, fun path x hg => ⟨s2 path x hg, t2 path x hg⟩, fun hd hg path c hc x hl => ?_⟩
  exact s1.inside hv h1 hn hj hd t1 (fun p d y k1 k2 => by
    have e1 := s2 p y k2
    have e2 := t2 p y k2
    have e3 := hg p d y k1 k2
    rw [← e1, ← e2] at e3
    exact e3) (path, x) ⟨c, hc, hl⟩ c hc

/-! ### Example: parts of a variable -/

omit [DecidableEq K] in
/-- in a program of one model without connections, joined variables have the same shape if variables declared with the same name have -/
theorem oneModel_joined {b : Body K F} (h1 : b.subs = []) (h2 : b.locals.connections = []) (hg : GoodNames b) (hm : MethodOk b) (hd : ∀ x y name s s', (x, name, s) ∈ (b.stmts 0).filterMap declaredOf → (y, name, s') ∈ (b.stmts 0).filterMap declaredOf → s = s') :
    JoinedShapesEqual b := by
  have hsub := toSubs_nil h1
  have hshape : ∀ {x : Nat} {name : Name} {s : Shape}, (x, name, s) ∈ (b.stmts 0).filterMap declaredOf → b.shapes.getD x [] = s := by
    intro x name s h
    obtain ⟨⟨n, t⟩, g1, g2⟩ := List.mem_filterMap.1 h
    cases t <;> simp only [declaredOf, reduceCtorEq, Option.some.injEq, Prod.mk.injEq] at g2
    obtain ⟨rfl, rfl, rfl⟩ := g2
    exact shape_declare g1
  have hname : ∀ {path : List Name} {x : Nat} {p : Name}, HasName b path x p → b.Named x p := by
    rintro path x p ⟨b', name, k, w, g1, _, g3, g4, rfl⟩
    obtain ⟨rfl, rfl⟩ := oneModel_at h1 g1
    unfold Body.toModel at g4
    rw [hsub] at g4
    rwa [(oneModel_promoted g4).2.2] at g3
  intro q r hs c c' hc hc'
  obtain ⟨_, rfl⟩ := oneModel_at h1 hc
  obtain ⟨_, rfl⟩ := oneModel_at h1 hc'
  cases hs with
  | name p k1 k2 =>
    rcases named_unique hg (hname k1) (hname k2) with e | ⟨⟨s, e1⟩, s', e2⟩
    · simp only [e]
    · rw [hshape e1, hshape e2, hd _ _ _ _ _ e1 e2]
  | connection path b' s t p q hb hcn =>
    obtain ⟨_, rfl⟩ := oneModel_at h1 hb
    rw [h2] at hcn
    cases hcn
  | «alias» b' hb _ _ ha =>
    obtain ⟨_, rfl⟩ := oneModel_at h1 hb
    exact shape_alias hm ha

theorem exIdx_valid : ValidProgram exIdx := valid_of_run rfl rfl (by simp [exIdx, Body.stmts]) exIdx_good (by decide +kernel)

/-- the hypotheses hold for a program that reads parts of a vector -/
example : ValidProgram exIdx ∧ JoinedShapesEqual exIdx ∧ ∀ den : Unit → List (Val ℚ) → Nat → Val ℚ, CallsInside exIdx den den := by
  refine ⟨exIdx_valid, oneModel_joined rfl rfl exIdx_good (exIdx_valid.methods _ _ (.here _)) ?_, ?_⟩
  · intro x y name s s' h
    simp [exIdx, Body.stmts, declaredOf] at h
  · intro den path c n f args outs hc hs
    obtain ⟨_, rfl⟩ := exIdx_at hc
    simp [Body.Has, exIdx, Body.stmts] at hs

end Csdl.Prog
