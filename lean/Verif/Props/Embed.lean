import Verif.Proofs.Embed
import Mathlib.Algebra.Field.Basic
import Mathlib.Algebra.Field.Rat
import Verif.Props.ValidProgram
/-
C117: computing with the numbers of a larger field.
-/
namespace Csdl.Prog
open Csdl Csdl.Arith
variable {K L F : Type} [Field K] [Field L]

theorem exec_along (φ : K →+* L) {P : Power K} {Q : Power L} {den : F → List (Val K) → Nat → Val K} {den' : F → List (Val L) → Nat → Val L} {S : K → Prop} (h : ExtendsOn φ S P Q den den') (objs : List (PObj K F)) (hS : PIn S objs) (g : Graph) (f : Nat → Nat) (order : List Nat) :
    ∀ σ : Env (Val K), execAll g ⟨fun i => decide ((objects objs i).kind = .op), fun i => (objects objs i).deps.map f, opMeaning Q den' (objs.map (mPObj φ))⟩ (fun n => alongVal φ (σ n)) order =
      fun n => alongVal φ (execAll g ⟨fun i => decide ((objects objs i).kind = .op), fun i => (objects objs i).deps.map f, opMeaning P den objs⟩ σ order n) := by
  induction order with
  | nil => intro σ; rfl
  | cons n order ih =>
    intro σ
    have hn : execNode g ⟨fun i => decide ((objects objs i).kind = .op), fun i => (objects objs i).deps.map f, opMeaning Q den' (objs.map (mPObj φ))⟩ (fun n => alongVal φ (σ n)) n =
        fun v => alongVal φ (execNode g ⟨fun i => decide ((objects objs i).kind = .op), fun i => (objects objs i).deps.map f, opMeaning P den objs⟩ σ n v) := by
      funext v
      simp only [execNode]
      split
      · have hm : ((objects objs n).deps.map f).map (fun n => alongVal φ (σ n)) = (((objects objs n).deps.map f).map σ).map (alongVal φ) := by
          simp only [List.map_map]; rfl
        rw [hm, opMeaning, opMeaning, m_kindOf, m_objects]
        cases hk : kindOf objs n with
        | none => funext i; simp [alongVal]
        | some k =>
          obtain ⟨p, h1, h2⟩ := Option.bind_eq_some_iff.1 hk
          exact m_eval φ h k (hS p (List.mem_of_getElem? h1) k h2) _ _
      · rfl
    simp only [execAll, List.foldl_cons] at ih ⊢
    rw [hn]
    exact ih _

variable [DecidableEq K] [DecidableEq L]

/-- **C117.** Let `φ` embed a field `K` in a field `L` (e.g. the real numbers in the complex numbers) and let a program over `K` be given.  The same program over `L`, with all its numbers mapped, raises an exception when it is run if and only if the program over `K` does, and the same.
If they run, they have the same hierarchy, objects and representation, all values given in the program are mapped, and executing the representation, or operations in any order, with mapped values
and powers (with the exponents of the program) and functions that extend those of `K`, computes the mapped values at every node. -/
theorem C117_larger_field (φ : K →+* L) (b : Body K F) : (∀ e, runProgram b = .error e ↔ runProgram (along φ b) = .error e) ∧
    ∀ (objs : List (PObj K F)) (root : OModel), runProgram b = .ok (objs, root) → ∃ objs' : List (PObj L F), runProgram (along φ b) = .ok (objs', root) ∧ (∀ i, objects objs' i = objects objs i) ∧
      (∀ i : Nat, (objs'[i]?.bind fun p => p.val) = (objs[i]?.bind fun p => p.val).map (alongVal φ)) ∧ (∀ fuel order, compile (objects objs') fuel order root = compile (objects objs) fuel order root) ∧
      ∀ (P : Power K) (Q : Power L) (den : F → List (Val K) → Nat → Val K) (den' : F → List (Val L) → Nat → Val L), Extends φ b P Q den den' → ∀ (g : Graph) (f : Nat → Nat) (order : List Nat) (σ : Env (Val K)),
        execAll g ⟨fun i => decide ((objects objs' i).kind = .op), fun i => (objects objs' i).deps.map f, opMeaning Q den' objs'⟩ (fun n => alongVal φ (σ n)) order =
          fun n => alongVal φ (execAll g ⟨fun i => decide ((objects objs i).kind = .op), fun i => (objects objs i).deps.map f, opMeaning P den objs⟩ σ order n) := by
  have key := m_runFrom φ b []
  simp only [List.map_nil] at key
  simp only [runProgram]
  rw [← key]
  cases hr : runFrom [] b with
  | error e => exact ⟨fun e' => by simp [Except.map], fun objs root h => by cases h⟩
  | ok q =>
    obtain ⟨objs, root⟩ := q
    refine ⟨fun e' => by simp [Except.map], fun objs1 root1 h => ?_⟩
    cases h
    have ho := m_objects φ objs
    refine ⟨objs.map (mPObj φ), rfl, fun i => by rw [ho], fun i => ?_, fun fuel order => by rw [ho], fun P Q den den' h g f order σ => ?_⟩
    · rw [List.getElem?_map]
      cases objs[i]? <;> rfl
    · rw [ho]
      refine exec_along φ (S := fun c => c = 1 ∨ c = -1 ∨ Exponent c b) ⟨fun a c hc => ?_, h.2⟩ objs (PIn.runFrom (.inl rfl) (.inr (.inl rfl)) (fun c hc => .inr (.inr hc)) (pre := []) (fun p hp => by cases hp) hr) g f order σ
      rcases hc with rfl | rfl | hc
      · rw [map_one, P.one, Q.one]
      · rw [map_neg, map_one, P.neg_one, Q.neg_one, map_inv₀]
      · exact h.1 a c hc

omit [DecidableEq K] [DecidableEq L] in
/-- **C117, the hypothesis can always be met.** Powers and functions of every field in which 1 is not -1 can be extended to every larger field. -/
theorem C117_extension_exists (b : Body K F) (h2 : (1 : K) ≠ -1) (φ : K →+* L) (P : Power K) (den : F → List (Val K) → Nat → Val K) : ∃ (Q : Power L) (den' : F → List (Val L) → Nat → Val L), Extends φ b P Q den den' := by
  classical
  have hφ : Function.Injective φ := fun a c h => sub_eq_zero.1 ((map_eq_zero φ).1 (by rw [map_sub, h, sub_self]))
  have hv : Function.Injective (alongVal φ) := fun v w h => funext fun i => hφ (congrFun h i)
  let pw : L → L → L := fun a c => if h : ∃ p : K × K, φ p.1 = a ∧ φ p.2 = c then φ (P.pow h.choose.1 h.choose.2) else if c = 1 then a else a⁻¹
  have hp : ∀ a c, pw (φ a) (φ c) = φ (P.pow a c) := fun a c => by
    have h : ∃ p : K × K, φ p.1 = φ a ∧ φ p.2 = φ c := ⟨(a, c), rfl, rfl⟩
    simp only [pw, dif_pos h]
    rw [hφ h.choose_spec.1, hφ h.choose_spec.2]
  refine ⟨⟨pw, fun x => ?_, fun x => ?_⟩, fun f args j => if h : ∃ l : List (Val K), l.map (alongVal φ) = args then alongVal φ (den f h.choose j) else fun _ => 0, fun a c _ => hp a c, fun f args j => ?_⟩
  · by_cases h : ∃ a, φ a = x
    · obtain ⟨a, rfl⟩ := h
      rw [← map_one φ, hp, P.one]
    · have h' : ¬ ∃ p : K × K, φ p.1 = x ∧ φ p.2 = 1 := fun ⟨p, k, _⟩ => h ⟨p.1, k⟩
      simp only [pw, dif_neg h', if_true]
  · by_cases h : ∃ a, φ a = x
    · obtain ⟨a, rfl⟩ := h
      have e : (-1 : L) = φ (-1) := by simp
      rw [e, hp, P.neg_one, map_inv₀]
    · have h' : ¬ ∃ p : K × K, φ p.1 = x ∧ φ p.2 = -1 := fun ⟨p, k, _⟩ => h ⟨p.1, k⟩
      have h1 : (-1 : L) ≠ 1 := fun h1 => h2 (hφ (by simp [h1]))
      simp only [pw, dif_neg h', if_neg h1]
  · have h : ∃ l : List (Val K), l.map (alongVal φ) = args.map (alongVal φ) := ⟨args, rfl⟩
    simp only [dif_pos h]
    rw [List.map_injective_iff.2 hv h.choose_spec]

/-- **C117, valid programs.** Run and compile a valid program over `K`, and the same program over `L`.  They have the same representation, and whatever values are given, powers and functions mean over `K`, if they are given the mapped values and powers and functions mean the same over `L`, every variable of every model has
the mapped value; over `K` the values satisfy all statements of the program. -/
theorem C117_values (φ : K →+* L) (b : Body K F) (hv : ValidProgram b) (hs : b.Assigns → b.maxObjects ≤ 63 ^ 4) : ∃ (objs : List (PObj K F)) (objs' : List (PObj L F)) (root : OModel), runProgram b = .ok (objs, root) ∧ runProgram (along φ b) = .ok (objs', root) ∧ (objs.length ≤ 63 ^ 4 →
    ∀ order : List Nat → List Nat, (∀ l x, x ∈ order l ↔ x ∈ l) → ∀ fuel, (∀ path c, BAt b path c → (c.locals.outputs ++ c.locals.declared).length + objs.length ≤ fuel) →
      ∃ rep, compile (objects objs) fuel order root = .ok rep ∧ compile (objects objs') fuel order root = .ok rep ∧ ∃ (f : Nat → Nat) (node : List Name → Nat → Nat),
        ∀ (P : Power K) (Q : Power L) (den : F → List (Val K) → Nat → Val K) (den' : F → List (Val L) → Nat → Val L), Extends φ b P Q den den' → ∀ (σ : Env (Val K)) (σ' : Env (Val L)), (∀ n i, σ' n i = φ (σ n i)) →
          let value := fun path x => execAll rep.graph ⟨fun i => decide ((objects objs i).kind = .op), fun i => (objects objs i).deps.map f, opMeaning P den objs⟩ σ rep.sorted (node path x)
          let value' := fun path x => execAll rep.graph ⟨fun i => decide ((objects objs' i).kind = .op), fun i => (objects objs' i).deps.map f, opMeaning Q den' objs'⟩ σ' rep.sorted (node path x)
          Solution P den b value ∧ (∀ path x, GivenVar b path x → value path x = σ (node path x)) ∧ ∀ path x i, value' path x i = φ (value path x i)) := by
  obtain ⟨objs, root, h1, h2⟩ := C74_valid_programs_compute b hv hs
  obtain ⟨objs', k1, _, _, k2, k3⟩ := (C117_larger_field φ b).2 objs root h1
  refine ⟨objs, objs', root, h1, k1, fun hn order ho fuel hf => ?_⟩
  obtain ⟨rep, hc, f, node, h3⟩ := h2 hn order ho fuel hf
  refine ⟨rep, hc, (k2 fuel order).trans hc, f, node, fun P Q den den' he σ σ' hσ => ?_⟩
  obtain ⟨s1, s2, _⟩ := h3 P den σ
  have hσ' : σ' = fun n => alongVal φ (σ n) := funext fun n => funext fun i => hσ n i
  refine ⟨s1, s2, fun path x i => ?_⟩
  have := congrFun (k3 P Q den den' he rep.graph f rep.sorted σ) (node path x)
  rw [hσ']
  exact congrFun this i

/-! ### Example: the valid program of C73, whose numbers are rational, over every field of which the rational numbers are part -/

example (φ : ℚ →+* L) : ∃ (objs : List (PObj ℚ Unit)) (objs' : List (PObj L Unit)) (root : OModel), runProgram exMain = .ok (objs, root) ∧ runProgram (along φ exMain) = .ok (objs', root) := by
  obtain ⟨objs, objs', root, h1, h2, _⟩ := C117_values φ exMain exMain_valid fun h => absurd h exMain_plain
  exact ⟨objs, objs', root, h1, h2⟩

/-- the function of the example may be any function that extends the one over the rational numbers: there are such functions and powers -/
example (φ : ℚ →+* L) (P : Power ℚ) (den : Unit → List (Val ℚ) → Nat → Val ℚ) : ∃ (Q : Power L) (den' : Unit → List (Val L) → Nat → Val L), Extends φ exMain P Q den den' := C117_extension_exists _ (by decide) φ P den

end Csdl.Prog
