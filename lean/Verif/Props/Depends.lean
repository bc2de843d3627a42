import Verif.Proofs.Depends
import Verif.Props.ValidProgram
/-
C100: a value depends only on the given values and functions it is computed from.
-/
namespace Csdl.Prog
open Csdl Csdl.Arith
variable {K F : Type} [Field K] [DecidableEq K]

/-- **C100.** Run and compile a valid program.  Execute its representation twice, with different given values and different meanings of the functions.  A variable that matters has the same value in both executions if all given
variables it depends on (itself, those that are the same, and those it is computed from, in any number of steps) have the same values and all functions it depends on have the same meaning. -/
theorem C100_values_depend (b : Body K F) (hv : ValidProgram b) (hs : b.Assigns → b.maxObjects ≤ 63 ^ 4) : ∃ objs root, runProgram b = .ok (objs, root) ∧ (objs.length ≤ 63 ^ 4 →
    ∀ order : List Nat → List Nat, (∀ l x, x ∈ order l ↔ x ∈ l) → ∀ fuel, (∀ path c, BAt b path c → (c.locals.outputs ++ c.locals.declared).length + objs.length ≤ fuel) →
      ∃ rep, compile (objects objs) fuel order root = .ok rep ∧ ∃ (f : Nat → Nat) (node : List Name → Nat → Nat), ∀ (P : Power K) (den den' : F → List (Val K) → Nat → Val K) (σ0 σ0' : Env (Val K)),
        let value := fun path x => execAll rep.graph ⟨fun i => decide ((objects objs i).kind = .op), fun i => (objects objs i).deps.map f, opMeaning P den objs⟩ σ0 rep.sorted (node path x)
        let value' := fun path x => execAll rep.graph ⟨fun i => decide ((objects objs i).kind = .op), fun i => (objects objs i).deps.map f, opMeaning P den' objs⟩ σ0' rep.sorted (node path x)
        Solution P den b value ∧ Solution P den' b value' ∧ (∀ path x, GivenVar b path x → value path x = σ0 (node path x) ∧ value' path x = σ0' (node path x)) ∧
        ∀ path c, BAt b path c → ∀ x, c.Live x → (∀ path' y, GivenVar b path' y → DependsOn b (path, x) (path', y) → σ0 (node path' y) = σ0' (node path' y)) →
          (∀ g, DependsOnCall b (path, x) g → den g = den' g) → value path x = value' path x) := by
  obtain ⟨objs, root, h1, h2⟩ := C74_valid_programs_compute b hv hs
  refine ⟨objs, root, h1, fun hn order ho fuel hf => ?_⟩
  obtain ⟨rep, hc, f, node, h3⟩ := h2 hn order ho fuel hf
  refine ⟨rep, hc, f, node, fun P den den' σ0 σ0' => ?_⟩
  obtain ⟨s1, s2, _⟩ := h3 P den σ0
  obtain ⟨t1, t2, _⟩ := h3 P den' σ0'
  refine ⟨s1, t1, fun path x hg => ⟨s2 path x hg, t2 path x hg⟩, fun path c hc x hl hg hd => ?_⟩
  exact s1.depends hv h1 hn t1 (path, x) ⟨c, hc, hl⟩ (fun p y k1 k2 => (s2 p y k1).trans ((hg p y k1 k2).trans (t2 p y k1).symm)) hd

/-! ### Example: `s` does not depend on the function -/

theorem exMain_depends {z g : List Name × Nat} (h : DependsOn exMain z g) : exRank g ≤ exRank z := by
  unfold DependsOn at h
  induction h with
  | refl => exact Nat.le_refl _
  | tail _ h ih =>
    rcases h with h | h
    · exact ih.trans (exMain_same h).le
    · exact ih.trans (exMain_feeds h).le

/-- the hypotheses hold: whatever the function means, the value of `s` (variable 2 of the main model) is the same if the value of `x` is -/
example : ∃ objs root rep, runProgram exMain = .ok (objs, root) ∧ compile (objects objs) 20 id root = .ok rep ∧ ∃ (f : Nat → Nat) (node : List Name → Nat → Nat),
    ∀ (P : Power ℚ) (den den' : Unit → List (Val ℚ) → Nat → Val ℚ) (σ0 σ0' : Env (Val ℚ)), (∀ path y, GivenVar exMain path y → σ0 (node path y) = σ0' (node path y)) →
      execAll rep.graph ⟨fun i => decide ((objects objs i).kind = .op), fun i => (objects objs i).deps.map f, opMeaning P den objs⟩ σ0 rep.sorted (node [] 2) =
        execAll rep.graph ⟨fun i => decide ((objects objs i).kind = .op), fun i => (objects objs i).deps.map f, opMeaning P den' objs⟩ σ0' rep.sorted (node [] 2) := by
  obtain ⟨objs, root, h1, h2⟩ := C100_values_depend exMain exMain_valid fun h => absurd h exMain_plain
  obtain ⟨⟨os, rt⟩, r1, r2⟩ := ok_of_check (x := runProgram exMain) (P := fun q => decide (q.1.length = 12)) (by decide +kernel)
  rw [r1] at h1
  cases h1
  have l1 := of_decide_eq_true r2
  dsimp only at l1
  obtain ⟨rep, c1, f, node, h3⟩ := h2 (by rw [l1]; decide) id (fun _ _ => Iff.rfl) 20 (by
    intro path b' h
    rw [l1]
    rcases exMain_at h with ⟨_, rfl⟩ | ⟨_, rfl⟩ <;> decide)
  refine ⟨_, _, rep, r1, c1, f, node, fun P den den' σ0 σ0' he => ?_⟩
  refine (h3 P den den' σ0 σ0').2.2.2 [] exMain (.here _) 2 (.output (name := "s".toList) (by decide)) (fun p y hg _ => he p y hg) ?_
  rintro g ⟨path, c, n, args, outs, j, k1, k2, k3, _, k5⟩
  have hrank := exMain_depends k5
  exfalso
  unfold Body.Has at k2
  rcases exMain_at k1 with ⟨rfl, rfl⟩ | ⟨rfl, rfl⟩
  · rw [exMain_stmts] at k2
    simp at k2
  · rw [exSub_stmts] at k2
    simp only [List.mem_cons, Prod.mk.injEq, reduceCtorEq, and_false, false_or, or_false, List.not_mem_nil, Stmt.call.injEq] at k2
    obtain ⟨rfl, _, rfl, rfl⟩ := k2
    obtain rfl : j = 0 := by simpa using k3
    exact absurd hrank (by decide)

end Csdl.Prog
