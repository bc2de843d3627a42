import Verif.Proofs.InputDeclared3
import Verif.Props.Join
import Verif.Props.Exact
import Verif.Props.OneModel
/-
C113: an input can be declared instead.
-/
namespace Csdl.Prog
open Csdl Csdl.Arith
variable {K F : Type} [Field K] [DecidableEq K]

/-- **C113.** Let `b'` be `b` in which some variables that were inputs, in any of its models, are declared instead.  If both programs are valid, both are accepted; and if the representations are executed with the same values for the
variables that must be given, they compute the same values for all variables that matter in `b'`, whatever the functions mean.  (An input that nothing uses matters in `b` but not in `b'`.) -/
theorem C113_input_or_declared (b b' : Body K F) (h : InputsDeclared b b') (hv : ValidProgram b) (hv' : ValidProgram b') (hs : b.Assigns → b.maxObjects ≤ 63 ^ 4) (hs' : b'.Assigns → b'.maxObjects ≤ 63 ^ 4) :
    ∃ objs root objs' root', runProgram b = .ok (objs, root) ∧ runProgram b' = .ok (objs', root') ∧ (objs.length ≤ 63 ^ 4 → objs'.length ≤ 63 ^ 4 →
      ∀ order : List Nat → List Nat, (∀ l x, x ∈ order l ↔ x ∈ l) → ∀ fuel, (∀ path c, BAt b path c ∨ BAt b' path c → (c.locals.outputs ++ c.locals.declared).length + max objs.length objs'.length ≤ fuel) →
      ∃ rep rep', compile (objects objs) fuel order root = .ok rep ∧ compile (objects objs') fuel order root' = .ok rep' ∧
        ∃ (f f' : Nat → Nat) (node node' : List Name → Nat → Nat), ∀ (P : Power K) (den : F → List (Val K) → Nat → Val K) (σ0 σ0' : Env (Val K)),
          let value := fun path x => execAll rep.graph ⟨fun i => decide ((objects objs i).kind = .op), fun i => (objects objs i).deps.map f, opMeaning P den objs⟩ σ0 rep.sorted (node path x)
          let value' := fun path x => execAll rep'.graph ⟨fun i => decide ((objects objs' i).kind = .op), fun i => (objects objs' i).deps.map f', opMeaning P den objs'⟩ σ0' rep'.sorted (node' path x)
          Solution P den b value ∧ Solution P den b' value' ∧ (∀ path x, GivenVar b path x → value path x = σ0 (node path x)) ∧ (∀ path x, GivenVar b' path x → value' path x = σ0' (node' path x) ∧ GivenVar b path x) ∧
          ((∀ path x, GivenVar b' path x → σ0 (node path x) = σ0' (node' path x)) → ∀ path c, BAt b' path c → ∀ x, c.Live x → value path x = value' path x)) := by
  obtain ⟨objs, root, h1, h2⟩ := C74_valid_programs_compute b hv hs
  obtain ⟨objs', root', h1', h2'⟩ := C74_valid_programs_compute b' hv' hs'
  refine ⟨objs, root, objs', root', h1, h1', fun hn hn' order ho fuel hf => ?_⟩
  obtain ⟨rep, hc, f, node, h3⟩ := h2 hn order ho fuel fun path c hc => (Nat.add_le_add_left (Nat.le_max_left ..) _).trans (hf path c (Or.inl hc))
  obtain ⟨rep', hc', f', node', h3'⟩ := h2' hn' order ho fuel fun path c hc => (Nat.add_le_add_left (Nat.le_max_right ..) _).trans (hf path c (Or.inr hc))
  obtain ⟨Ls, hh, _⟩ := runFrom_hier h1 (all := objs) List.prefix_rfl
  have u : Setup objs b root Ls := ⟨hh, hv.names, runFrom_closed (by simp [Closed]) h1, hn⟩
  refine ⟨rep, rep', hc, hc', f, f', node, node', fun P den σ0 σ0' => ?_⟩
  obtain ⟨s1, s2, _⟩ := h3 P den σ0
  obtain ⟨t1, t2, t3⟩ := h3' P den σ0'
  have hg : ∀ path x, GivenVar b' path x → GivenVar b path x := fun path x => h.methods.given (h.joins hv hv')
  refine ⟨s1, t1, s2, fun path x g => ⟨t2 path x g, hg path x g⟩, fun he path c hb x hl => ?_⟩
  exact t3 _ (h.methods.solution s1 fun q r hs => s1.same u (.rel _ _ (h.same' hs))) (fun path x g => (s2 path x (hg path x g)).trans (he path x g)) path c hb x hl

/-! ### Example: the input of a small program, declared -/

/-- `x = create_input('x'); register_output('y', x * x)` -/
def exGiven : Body ℚ Unit := .stmt (.input "x".toList [1] fun _ => 3) (.stmt (.expr (.mul 0 0)) (.stmt (.register "y".toList 1) .done))

/-- `x = declare_variable('x', val=3); register_output('y', x * x)` -/
def exDeclared : Body ℚ Unit := .stmt (.declare "x".toList [1] (some fun _ => 3)) (.stmt (.expr (.mul 0 0)) (.stmt (.register "y".toList 1) .done))

theorem exDeclared_related : InputsDeclared exGiven exDeclared := .stmt (.inr ⟨_, _, _, _, rfl, rfl⟩) (.stmt (.inl rfl) (.stmt (.inl rfl) .done))

theorem valid_of_run {b : Body ℚ Unit} (h1 : b.subs = []) (h2 : b.locals.connections = []) (h3 : ∀ s ∈ b.stmts 0, ∀ y k x, s.2 ≠ .assign y k x) (hg : GoodNames b) (hr : okCheck (runProgram b) (fun _ => true) = true) : ValidProgram b := by
  have ha : ¬b.Assigns := by
    rintro ⟨path, b', n, z, k, x, hb, hA⟩
    obtain ⟨_, rfl⟩ := oneModel_at h1 hb
    exact h3 _ hA _ _ _ rfl
  refine C84_one_model_valid b ⟨h1, h2, ?_⟩ ?_ hg
  · intro i j n m s z v a key g1 g2 g3 g4
    exact absurd rfl (h3 _ (List.mem_of_getElem? g3) _ _ _)
  · obtain ⟨⟨objs, root⟩, h, _⟩ := ok_of_check hr
    exact (C74_programs_run_iff b (plainNames hg fun h => absurd h ha)).1 ⟨objs, root, h⟩ [] b (.here _)

theorem exGiven_valid : ValidProgram exGiven := by
  refine valid_of_run rfl rfl (by simp [exGiven, Body.stmts]) ?_ (by decide +kernel)
  constructor <;> intro path c hc <;> obtain ⟨rfl, rfl⟩ := oneModel_at (by rfl) hc <;> decide +kernel

theorem exDeclared_valid : ValidProgram exDeclared := by
  refine valid_of_run rfl rfl (by simp [exDeclared, Body.stmts]) ?_ (by decide +kernel)
  constructor <;> intro path c hc <;> obtain ⟨rfl, rfl⟩ := oneModel_at (by rfl) hc <;> decide +kernel

/-- the hypotheses of C113 are met -/
example : InputsDeclared exGiven exDeclared ∧ ValidProgram exGiven ∧ ValidProgram exDeclared := ⟨exDeclared_related, exGiven_valid, exDeclared_valid⟩

end Csdl.Prog
