import Verif.Proofs.DefaultsSame
import Verif.Props.Rename
import Verif.Props.Dead
import Verif.Props.Refactor
/-
C101, C102 with default values.
-/
namespace Csdl.Prog
open Csdl Csdl.Arith
variable {K F : Type}

theorem bat_one {b : Body K F} (h : ∀ path c, BAt b path c → (c.subs.map (·.1)).Nodup) {path : List Name} {c c' : Body K F} (h1 : BAt b path c) (h2 : BAt b path c') : c = c' := by
  induction h1 with
  | here b => cases h2; rfl
  | @down b n p sub path c hs _ ih =>
    cases h2 with
    | @down _ _ p' sub' _ _ hs' h2 =>
      have e := List.inj_on_of_nodup_map (h [] b (.here _)) hs hs' rfl
      obtain ⟨_, e⟩ := Prod.mk.inj e
      obtain ⟨rfl, rfl⟩ := Prod.mk.inj e
      exact ih (fun path c hc => h _ c (.down hs hc)) h2

theorem ValidProgram.batOne [Zero K] {b : Body K F} (h : ValidProgram b) {path : List Name} {c c' : Body K F} (h1 : BAt b path c) (h2 : BAt b path c') : c = c' :=
  bat_one (fun path c hc => (h.methods path c hc).subNames) h1 h2

variable [Field K] [DecidableEq K]

/-- **C101 (default values).** If the default values are clear, a program and the renamed program, run from their default values, compute the same values. -/
theorem C101_renamed_defaults (r : Name ≃ Name) (R : Renaming r) (b : Body K F) (hv : ValidProgram b) (hs : b.Assigns → b.maxObjects ≤ 63 ^ 4) (hd : ClearDefaults b) :
    ∃ objs root objs' root', runProgram b = .ok (objs, root) ∧ runProgram (b.rename r) = .ok (objs', root') ∧ (objs.length ≤ 63 ^ 4 → objs'.length ≤ 63 ^ 4 →
      ∀ order : List Nat → List Nat, (∀ l x, x ∈ order l ↔ x ∈ l) → ∀ fuel, (∀ path c, BAt b path c → (c.locals.outputs ++ c.locals.declared).length + max objs.length objs'.length ≤ fuel) →
      ∃ rep rep', compile (objects objs) fuel order root = .ok rep ∧ compile (objects objs') fuel order root' = .ok rep' ∧
        ∃ (f f' : Nat → Nat) (node node' : List Name → Nat → Nat), ∀ (P : Power K) (den : F → List (Val K) → Nat → Val K),
          let value := fun path x => execAll rep.graph ⟨fun i => decide ((objects objs i).kind = .op), fun i => (objects objs i).deps.map f, opMeaning P den objs⟩ (initial objs) rep.sorted (node path x)
          let value' := fun path x => execAll rep'.graph ⟨fun i => decide ((objects objs' i).kind = .op), fun i => (objects objs' i).deps.map f', opMeaning P den objs'⟩ (initial objs') rep'.sorted (node' path x)
          Solution P den b value ∧ Solution P den (b.rename r) value' ∧ (∀ path x, GivenVar b path x → ∃ v, DefaultOf b path x v ∧ value path x = v.getD fun _ => 1) ∧
          ∀ path c, BAt b path c → ∀ x, c.Live x → value path x = value' (path.map r) x) := by
  have hv' := hv.renamed R
  obtain ⟨objs, root, h1, h2⟩ := C74_valid_programs_compute b hv hs
  obtain ⟨objs', root', h1', h2'⟩ := C74_valid_programs_compute (b.rename r) hv' fun h => by rw [maxObjects_rename]; exact hs (assigns_rename r h)
  refine ⟨objs, root, objs', root', h1, h1', fun hn hn' order ho fuel hf => ?_⟩
  have hf1 : ∀ path c, BAt b path c → (c.locals.outputs ++ c.locals.declared).length + objs.length ≤ fuel := fun path c hc => (Nat.add_le_add_left (Nat.le_max_left ..) _).trans (hf path c hc)
  have hf2 : ∀ path c, BAt (b.rename r) path c → (c.locals.outputs ++ c.locals.declared).length + objs'.length ≤ fuel := fun path c hc => by
    obtain ⟨path0, c0, rfl, rfl, h0⟩ := bat_inv r hc
    have := hf _ _ h0
    rw [locals_rename]
    simp only [List.length_append, List.length_map] at this ⊢
    omega
  obtain ⟨rep, hc, _⟩ := h2 hn order ho fuel hf1
  obtain ⟨rep', hc', _⟩ := h2' hn' order ho fuel hf2
  obtain ⟨f, node, _, h3⟩ := C86_default_values b hv.names hv.noChain objs root h1 hn fuel hf1 order ho rep hc
  obtain ⟨f', node', _, h3'⟩ := C86_default_values (b.rename r) hv'.names hv'.noChain objs' root' h1' hn' fuel hf2 order ho rep' hc'
  refine ⟨rep, rep', hc, hc', f, f', node, node', fun P den => ?_⟩
  obtain ⟨s1, s2, _, s3⟩ := h3 P den
  obtain ⟨t1, t2, _, _⟩ := h3' P den
  refine ⟨s1, t1, s2, fun path c hb x hl => (s3 _ (t1.unrename R) (fun path x hg => ?_) path c hb x hl).symm⟩
  obtain ⟨v, e1, e2⟩ := s2 path x hg
  obtain ⟨v', e1', e2'⟩ := t2 (path.map r) x (given_rename R hg)
  exact (e2'.trans (by rw [hd _ _ _ _ hg e1 (default_inv R e1')])).trans e2.symm

/-- **C102 (default values).** If the default values are clear, a program with an unused computation, run from its default values, computes the same values as without it. -/
theorem C102_unused_defaults (b b' c : Body K F) (q : List Name) (s : Stmt K F) (hv : ValidProgram b) (h : Replaced c (c.addStmt s) b q b') (hl : DeadLast c s) (hs : b.Assigns → b'.maxObjects ≤ 63 ^ 4) (hd : ClearDefaults b) :
    ∃ objs root objs' root', runProgram b = .ok (objs, root) ∧ runProgram b' = .ok (objs', root') ∧ (objs.length ≤ 63 ^ 4 → objs'.length ≤ 63 ^ 4 →
      ∀ order : List Nat → List Nat, (∀ l x, x ∈ order l ↔ x ∈ l) → ∀ fuel, (∀ path c, BAt b path c → (c.locals.outputs ++ c.locals.declared).length + max objs.length objs'.length ≤ fuel) →
      ∃ rep rep', compile (objects objs) fuel order root = .ok rep ∧ compile (objects objs') fuel order root' = .ok rep' ∧
        ∃ (f f' : Nat → Nat) (node node' : List Name → Nat → Nat), ∀ (P : Power K) (den : F → List (Val K) → Nat → Val K),
          let value := fun path x => execAll rep.graph ⟨fun i => decide ((objects objs i).kind = .op), fun i => (objects objs i).deps.map f, opMeaning P den objs⟩ (initial objs) rep.sorted (node path x)
          let value' := fun path x => execAll rep'.graph ⟨fun i => decide ((objects objs' i).kind = .op), fun i => (objects objs' i).deps.map f', opMeaning P den objs'⟩ (initial objs') rep'.sorted (node' path x)
          Solution P den b value ∧ Solution P den b' value' ∧ (∀ path x, GivenVar b path x → ∃ v, DefaultOf b path x v ∧ value path x = v.getD fun _ => 1) ∧
          ∀ path d, BAt b path d → ∀ x, d.Live x → value path x = value' path x) := by
  have hm := hv.methods q c h.bat
  have hv' := C102_unused_valid b b' c q s hv h hl
  obtain ⟨A, A', _⟩ := alike_of_replaced hv.namesValid h (looks_first hm hl.computation hl.ok hl.unused) (looks_last hm hl.computation hl.ok hl.unused) (subs_addStmt s c).symm (methodOk_last hm hl.computation hl.ok hl.unused)
  have hmax : b.maxObjects ≤ b'.maxObjects := h.maxObjects (by rw [Body.addStmt, maxObjects_append]; omega)
  obtain ⟨objs, root, h1, h2⟩ := C74_valid_programs_compute b hv fun ha => hmax.trans (hs ha)
  obtain ⟨objs', root', h1', h2'⟩ := C74_valid_programs_compute b' hv' fun ha => hs (assigns_last hv h hl ha)
  refine ⟨objs, root, objs', root', h1, h1', fun hn hn' order ho fuel hf => ?_⟩
  have hf1 : ∀ path c, BAt b path c → (c.locals.outputs ++ c.locals.declared).length + objs.length ≤ fuel := fun path c hc => (Nat.add_le_add_left (Nat.le_max_left ..) _).trans (hf path c hc)
  have hf2 : ∀ path c, BAt b' path c → (c.locals.outputs ++ c.locals.declared).length + objs'.length ≤ fuel := fun path d' hd' => by
    obtain ⟨d, k1, k2, _⟩ := A'.methods hd'
    rw [k2.locals]
    exact (Nat.add_le_add_left (Nat.le_max_right ..) _).trans (hf path d k1)
  obtain ⟨rep, hc, _⟩ := h2 hn order ho fuel hf1
  obtain ⟨rep', hc', _⟩ := h2' hn' order ho fuel hf2
  obtain ⟨f, node, _, h3⟩ := C86_default_values b hv.names hv.noChain objs root h1 hn fuel hf1 order ho rep hc
  obtain ⟨f', node', _, h3'⟩ := C86_default_values b' hv'.names hv'.noChain objs' root' h1' hn' fuel hf2 order ho rep' hc'
  refine ⟨rep, rep', hc, hc', f, f', node, node', fun P den => ?_⟩
  obtain ⟨s1, s2, _, s3⟩ := h3 P den
  obtain ⟨t1, t2, _, _⟩ := h3' P den
  refine ⟨s1, t1, s2, fun path d hb x hx => (s3 _ (A.solution t1) (fun path x hg => ?_) path d hb x hx).symm⟩
  have hg' := A.given A' hg
  obtain ⟨v, e1, e2⟩ := s2 path x hg
  obtain ⟨v', e1', e2'⟩ := t2 path x hg'
  exact (e2'.trans (by rw [hd _ _ _ _ hg e1 (A'.defaults A hv'.batOne hv.batOne hg'.1 e1')])).trans e2.symm

/-! ### Example: the default values of `exMain` are clear -/

theorem exMain_input {path : List Name} {c : Body ℚ Unit} (hc : BAt exMain path c) {y : Nat} {name : Name} {shape : Shape} {v : Val ℚ} (h : c.Has y (.input name shape v)) : v = fun _ => 1 := by
  rcases exMain_at hc with ⟨rfl, rfl⟩ | ⟨rfl, rfl⟩
  · unfold Body.Has at h
    simp [exMain, Body.stmts] at h
    exact h.2.2.2
  · unfold Body.Has at h
    simp [exSub, Body.stmts] at h

theorem exMain_clear : ClearDefaults exMain := by
  intro path x v v' hg h h'
  obtain ⟨rfl, rfl⟩ := exMain_given hg
  have key : ∀ {v}, DefaultOf exMain [] 0 v → v = some fun _ => 1 := by
    intro v h
    cases h with
    | input h1 h2 h3 h4 => rw [exMain_input h1 h2]
    | declare h1 h2 h3 h4 h5 h6 => exact (h5 [] exMain 0 "x".toList [1] (fun _ => 1) (.here _) (by unfold Body.Has; simp [exMain, Body.stmts]) (.refl _)).elim
  rw [key h, key h']

example : ValidProgram exMain ∧ ClearDefaults exMain ∧ Renaming exRen ∧ DeadLast exSub (.expr (.mul 1 1)) := ⟨exMain_valid, exMain_clear, exRen_renaming, exDead_last⟩

end Csdl.Prog
