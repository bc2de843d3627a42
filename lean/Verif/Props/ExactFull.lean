import Verif.Spec.ExactFull
import Verif.Props.Exact
import Verif.Props.ProgramFull
/-
C104: exactly the acceptable programs are accepted, in sessions, and with custom operations, implicit operations and optimisation declarations.
-/
namespace Csdl.Prog
open Csdl Csdl.Arith

section
variable {K F : Type} [Field K] [DecidableEq K]

/-- a program that ran, in a session -/
theorem accepted_in_session (b : Body K F) (hg : GoodNames b) (hch : NoChain b.toModel) (hcons : ConsistentDeclarations b) (pre done : List (PObj K F)) (root : OModel) (hr : runFrom pre b = .ok (done, root))
    (hm : ∀ path b', BAt b path b' → MethodOk b') (objs : List (PObj K F)) (hpre : done <+: objs) (hcl : Closed objs) (hn : objs.length ≤ 63 ^ 4) (fuel : Nat)
    (hf : ∀ path b', BAt b path b' → (b'.locals.outputs ++ b'.locals.declared).length + objs.length ≤ fuel) (order : List Nat → List Nat) (ho : ∀ l x, x ∈ order l ↔ x ∈ l) :
    (∃ rep, compile (objects objs) fuel order root = .ok rep) ↔ AcceptableProgram b := by
  obtain ⟨Ls, hh, _⟩ := runFrom_hier hr hpre
  have u : Setup objs b root Ls := ⟨hh, hg, hcl, hn⟩
  have hct := consistent_of hcons
  rw [← u.hier.names] at hct hch
  constructor
  · rintro ⟨rep, hc⟩
    have ha := accepted_acceptable (objects objs) objs.length fuel root u.wellBuilt hch hct (enough u hf) order ho rep hc
    obtain ⟨r, _, _, hres, _⟩ := compile_ok hc
    rw [u.hier.names] at hres
    exact u.acceptableProgram hm hcons hres ha
  · intro hv
    exact acceptable_accepted (objects objs) objs.length fuel root u.wellBuilt hch (u.acceptable hv) (enough u hf) order ho

/-- **C104, sessions.** After other objects were created in the session (`pre`: by other programs, say): the `define` methods of a program run and its representation is built, without an error, exactly if the program is acceptable.
Whether it is does not depend on `pre`. -/
theorem C104_accepted_in_session_iff (b : Body K F) (hg : GoodNames b) (hch : NoChain b.toModel) (hcons : ConsistentDeclarations b) (pre : List (PObj K F)) (hcl : Closed pre) (hs : pre.length + b.maxObjects ≤ 63 ^ 4)
    (fuel : Nat) (hf : ∀ path b', BAt b path b' → (b'.locals.outputs ++ b'.locals.declared).length + (pre.length + b.maxObjects) ≤ fuel) (order : List Nat → List Nat) (ho : ∀ l x, x ∈ order l ↔ x ∈ l) :
    (∃ objs root rep, runFrom pre b = .ok (objs, root) ∧ compile (objects objs) fuel order root = .ok rep) ↔ AcceptableProgram b := by
  have hp : PlainAfter pre.length b := fun ha => ⟨hs, (plainNames hg (fun _ => by omega) ha).2⟩
  have key : ∀ objs root, runFrom pre b = .ok (objs, root) → (∀ path b', BAt b path b' → MethodOk b') → ((∃ rep, compile (objects objs) fuel order root = .ok rep) ↔ AcceptableProgram b) := by
    intro objs root hr hm
    have hl := runFrom_length hr
    exact accepted_in_session b hg hch hcons pre objs root hr hm objs List.prefix_rfl (runFrom_closed hcl hr) (by omega) fuel (fun path b' hb => (by have := hf path b' hb; omega)) order ho
  constructor
  · rintro ⟨objs, root, rep, hr, hc⟩
    exact (key objs root hr ((runFrom_ok_iff pre b hp).1 ⟨objs, root, hr⟩)).1 ⟨rep, hc⟩
  · intro hv
    obtain ⟨objs, root, hr⟩ := (runFrom_ok_iff pre b hp).2 hv.methods
    obtain ⟨rep, hc⟩ := (key objs root hr hv.methods).2 hv
    exact ⟨objs, root, rep, hr, hc⟩

end

variable {K F G I : Type} [Field K] [DecidableEq K]

/-- **C104, all programs.** After other objects were created in the session: the `define` methods of a program with custom operations, implicit operations and optimisation declarations run and its representation is built, without an
error, exactly if the program is acceptable. -/
theorem C104_full_programs_accepted_iff (b : XBody K F G I) (hg : GoodNames (b.low 0)) (hch : NoChain (b.low 0).toModel) (hcons : ConsistentDeclarations (b.low 0)) (pre : List (PObj K (Fun F G I))) (hcl : Closed pre)
    (hp : XPlainAfter pre.length b) (fuel : Nat) (hf : ∀ path b', XAt b path b' → (b'.locals.outputs ++ b'.locals.declared).length + (pre.length + (b.low 0).maxObjects) ≤ fuel)
    (order : List Nat → List Nat) (ho : ∀ l x, x ∈ order l ↔ x ∈ l) :
    (∃ objs root rep, xrunFrom pre b = .ok (objs, root) ∧ compile (xobjects objs) fuel order root = .ok rep) ↔ XAcceptable b := by
  have hall := C82_programs_run_iff pre b hp
  have hf' : ∀ n, n ≤ pre.length + (b.low 0).maxObjects → ∀ path c, BAt (b.low 0) path c → (c.locals.outputs ++ c.locals.declared).length + n ≤ fuel := by
    intro n hn path c hc
    obtain ⟨b', h1, rfl⟩ := bat_low hc
    have := hf path b' h1
    have e : (b'.locals.outputs ++ b'.locals.declared).length = ((b'.low 0).locals.outputs ++ (b'.low 0).locals.declared).length := rfl
    omega
  have base : ∀ objs root, xrunFrom pre b = .ok (objs, root) → objs.length ≤ pre.length + (b.low 0).maxObjects ∧ objs.length ≤ 63 ^ 4 ∧ Closed objs ∧
      (∀ path c, BAt (b.low 0) path c → MethodOk c) ∧ ((∃ rep, compile (objects objs) fuel order (OModel.strip root) = .ok rep) ↔ AcceptableProgram (b.low 0)) := by
    intro objs root hr
    have hr0 := (xrunFrom_low hr).1
    have hl := runFrom_length hr0
    have hs := hp.size
    have hm := (runFrom_ok_iff pre _ hp.low).1 ⟨_, _, hr0⟩
    have hcl' := runFrom_closed hcl hr0
    exact ⟨hl, by omega, hcl', hm, accepted_in_session (b.low 0) hg hch hcons pre objs _ hr0 hm objs List.prefix_rfl hcl' (by omega) fuel (hf' _ hl) order ho⟩
  have names : ∀ objs root, xrunFrom pre b = .ok (objs, root) → ∀ rep0, compile (objects objs) fuel order (OModel.strip root) = .ok rep0 → ∃ r, resolve (root.toModel (objects objs)) none = .ok r ∧ rep0.p2u = r.p2u ∧
      root.toModel (objects objs) = b.toModel ∧ DotFree (root.toModel (objects objs)) := by
    intro objs root hr rep0 hc0
    obtain ⟨r, hres, hpu⟩ := compile_p2u hc0
    rw [toModel_strip, resolve_strip] at hres
    obtain ⟨Ls, hh, _⟩ := runFrom_hier (xrunFrom_low hr).1 (List.prefix_rfl (l := objs))
    have e := xrunFrom_names hr (List.prefix_rfl (l := objs))
    refine ⟨r, hres, hpu, e, ?_⟩
    rw [e, ← dotFree_strip, strip_lowModel hr]
    exact hh.dotFree hg
  constructor
  · rintro ⟨objs, root, rep, hr, hc⟩
    obtain ⟨hl, hn, hcl', hm, hiff⟩ := base objs root hr
    obtain ⟨rep0, dv, ob, cn, hc0, e1, e2, e3, rfl⟩ := (xcompile hg hr List.prefix_rfl hcl' hn (hf' _ hl) ho rep).1 hc
    obtain ⟨r, hres, hpu, e, hd⟩ := names objs root hr rep0 hc0
    rw [hpu, ← e] at e1 e2 e3
    refine ⟨fun path b' hb => (hall.1 ⟨objs, root, hr⟩ path b' hb).stmts, hiff.1 ⟨rep0, hc0⟩, ?_, ?_, ?_⟩
    · rw [← e]; exact decl_ok hd hres _ e1
    · rw [← e]; exact decl_ok hd hres _ e3
    · rw [← e]; exact objective_ok hd hres e2
  · intro hv
    obtain ⟨objs, root, hr⟩ := hall.2 fun path b' hb => ⟨hv.low.methods path _ (xat_low hb), hv.methods path b' hb⟩
    obtain ⟨hl, hn, hcl', hm, hiff⟩ := base objs root hr
    obtain ⟨rep0, hc0⟩ := hiff.2 hv.low
    obtain ⟨r, hres, hpu, e, hd⟩ := names objs root hr rep0 hc0
    obtain ⟨dv, e1⟩ := valid_decl hd hres Local.designVars (by rw [e]; exact hv.designVars)
    obtain ⟨cn, e2⟩ := valid_decl hd hres Local.constraints (by rw [e]; exact hv.constraints)
    obtain ⟨ob, e3⟩ := valid_objective hd hres (by rw [e]; exact hv.objective)
    rw [e, ← hpu] at e1 e2 e3
    exact ⟨objs, root, _, hr, (xcompile hg hr List.prefix_rfl hcl' hn (hf' _ hl) ho _).2 ⟨rep0, dv, ob, cn, hc0, e1, e3, e2, rfl⟩⟩

/-- **C104.** Every valid program (C80) is acceptable. -/
theorem C104_full_valid_acceptable (b : XBody K F G I) (hv : XValid b) : XAcceptable b := ⟨hv.methods, C104_valid_acceptable _ hv.low, hv.designVars, hv.constraints, hv.objective⟩

/-- all hypotheses hold of the program of C80, which is acceptable -/
example : GoodNames (exX.low 0) ∧ NoChain (exX.low 0).toModel ∧ ConsistentDeclarations (exX.low 0) ∧ Closed ([] : List (PObj ℚ (Fun Unit Nat Unit))) ∧ XPlainAfter 0 exX ∧ XAcceptable exX := by
  refine ⟨exX_valid.low.names, exX_valid.low.noChain, ?_, by simp [Closed], exX_plain.after, C104_full_valid_acceptable _ exX_valid⟩
  intro path c hc
  obtain ⟨b', h1, rfl⟩ := bat_low hc
  rcases exX_at h1 with ⟨_, rfl⟩ | ⟨_, rfl⟩ <;> decide

end Csdl.Prog
