import Verif.Props.Join
import Verif.Props.DefaultsSame
/-
C97 with default values.
-/
namespace Csdl.Prog
open Csdl Csdl.Arith
variable {K F : Type}

/-- a default value in the second program is one in the first, if that has one -/
theorem SameMethods.defaults {b b' : Body K F} (h : SameMethods b b') (hj : SameJoins b b') (hi : ClearInputs b) {path : List Name} {x : Nat} {v v' : Option (Val K)} (hd : DefaultOf b path x v)
    (h' : DefaultOf b' path x v') : DefaultOf b path x v' := by
  cases h' with
  | @input path' c' y name shape w h1 h2 h3 h4 =>
    obtain ⟨c, g1, g2⟩ := h.2 _ _ h1
    have g3 := g2.symm.has rfl h2
    have g4 := (hj _ _).2 h3
    cases id hd with
    | @input path2 c2 y2 name2 shape2 w2 k1 k2 k3 k4 =>
      rw [hi _ _ _ _ _ _ _ _ _ _ _ _ g1 g3 k1 k2 (g4.symm.trans _ _ _ k3)]
      exact hd
    | declare k1 k2 k3 k4 k5 k6 => exact (k5 _ _ _ _ _ _ g1 g3 g4).elim
  | @declare path' c' y name shape w h1 h2 h3 h4 h5 h6 =>
    obtain ⟨c, g1, g2⟩ := h.2 _ _ h1
    refine .declare g1 (g2.symm.has rfl h2) ((hj _ _).2 h3) (fun y' s' w' hh => h4 y' s' w' (g2.has rfl hh)) ?_ ?_
    · intro path2 b2 z nm s w k1 k2 k3
      obtain ⟨c2, j1, j2⟩ := h.1 _ _ k1
      exact h5 _ _ _ _ _ _ j1 (j2.has rfl k2) ((hj _ _).1 k3)
    · intro path2 b2 z nm s w k1 k2 k3
      obtain ⟨c2, j1, j2⟩ := h.1 _ _ k1
      obtain ⟨a1, a2, a3⟩ := h6 _ _ _ _ _ _ j1 (j2.has rfl k2) ((hj _ _).1 k3)
      exact ⟨a1, fun e hl => a2 e fun y' s' w' hh => hl y' s' w' (j2.symm.has rfl hh), a3⟩

variable [Field K] [DecidableEq K]

/-- **C97 (default values).** Two valid programs with the same statements, in which the same variables are joined: if the default values are clear and inputs that are the same variable have the same value, both programs, run from
their default values, compute the same values. -/
theorem C97_defaults (b b' : Body K F) (hv : ValidProgram b) (hv' : ValidProgram b') (hm : SameMethods b b') (hj : SameJoins b b') (hs : b.Assigns → b.maxObjects ≤ 63 ^ 4) (hs' : b'.Assigns → b'.maxObjects ≤ 63 ^ 4)
    (hd : ClearDefaults b) (hi : ClearInputs b) :
    ∃ objs root objs' root', runProgram b = .ok (objs, root) ∧ runProgram b' = .ok (objs', root') ∧ (objs.length ≤ 63 ^ 4 → objs'.length ≤ 63 ^ 4 →
      ∀ order : List Nat → List Nat, (∀ l x, x ∈ order l ↔ x ∈ l) → ∀ fuel, (∀ path c, BAt b path c → (c.locals.outputs ++ c.locals.declared).length + max objs.length objs'.length ≤ fuel) →
      ∃ rep rep', compile (objects objs) fuel order root = .ok rep ∧ compile (objects objs') fuel order root' = .ok rep' ∧
        ∃ (f f' : Nat → Nat) (node node' : List Name → Nat → Nat), ∀ (P : Power K) (den : F → List (Val K) → Nat → Val K),
          let value := fun path x => execAll rep.graph ⟨fun i => decide ((objects objs i).kind = .op), fun i => (objects objs i).deps.map f, opMeaning P den objs⟩ (initial objs) rep.sorted (node path x)
          let value' := fun path x => execAll rep'.graph ⟨fun i => decide ((objects objs' i).kind = .op), fun i => (objects objs' i).deps.map f', opMeaning P den objs'⟩ (initial objs') rep'.sorted (node' path x)
          Solution P den b value ∧ Solution P den b' value' ∧ (∀ path x, GivenVar b path x → ∃ v, DefaultOf b path x v ∧ value path x = v.getD fun _ => 1) ∧
          ∀ path c, BAt b path c → ∀ x, c.Live x → value path x = value' path x) := by
  obtain ⟨objs, root, h1, h2⟩ := C74_valid_programs_compute b hv hs
  obtain ⟨objs', root', h1', h2'⟩ := C74_valid_programs_compute b' hv' hs'
  refine ⟨objs, root, objs', root', h1, h1', fun hn hn' order ho fuel hf => ?_⟩
  have hf1 : ∀ path c, BAt b path c → (c.locals.outputs ++ c.locals.declared).length + objs.length ≤ fuel := fun path c hc => (Nat.add_le_add_left (Nat.le_max_left ..) _).trans (hf path c hc)
  have hf2 : ∀ path c, BAt b' path c → (c.locals.outputs ++ c.locals.declared).length + objs'.length ≤ fuel := fun path c hc => by
    obtain ⟨c', g1, g2⟩ := hm.symm.1 path c hc
    have e1 : c.locals.outputs = c'.locals.outputs := by simp [Body.locals, g2.outputs, g2.shapes]
    have e2 : c.locals.declared = c'.locals.declared := by simp [Body.locals, g2.declareds]
    rw [e1, e2]
    exact (Nat.add_le_add_left (Nat.le_max_right ..) _).trans (hf path c' g1)
  obtain ⟨rep, hc, _⟩ := h2 hn order ho fuel hf1
  obtain ⟨rep', hc', _⟩ := h2' hn' order ho fuel hf2
  obtain ⟨f, node, _, h3⟩ := C86_default_values b hv.names hv.noChain objs root h1 hn fuel hf1 order ho rep hc
  obtain ⟨f', node', _, h3'⟩ := C86_default_values b' hv'.names hv'.noChain objs' root' h1' hn' fuel hf2 order ho rep' hc'
  refine ⟨rep, rep', hc, hc', f, f', node, node', fun P den => ?_⟩
  obtain ⟨s1, s2, _, s3⟩ := h3 P den
  obtain ⟨t1, t2, _, _⟩ := h3' P den
  refine ⟨s1, t1, s2, fun path c hb x hl => (s3 _ (solution_of_joins hv' hm hj h1' hn' t1) (fun path x hg => ?_) path c hb x hl).symm⟩
  obtain ⟨v, e1, e2⟩ := s2 path x hg
  obtain ⟨v', e1', e2'⟩ := t2 path x (hm.given hj hg)
  exact (e2'.trans (by rw [hd _ _ _ _ hg e1 (hm.defaults hj hi e1 e1')])).trans e2.symm

/-- the hypotheses hold for `exMain`, whose submodel's output is promoted, and `exLinked`, where it is connected -/
example : ValidProgram exMain ∧ ValidProgram exLinked ∧ SameMethods exMain exLinked ∧ SameJoins exMain exLinked ∧ ClearDefaults exMain ∧ ClearInputs exMain := by
  have J : Joined "m".toList "c".toList exMain exLinked := ⟨exMain_valid, exLinked_valid, exLinked_instead⟩
  exact ⟨exMain_valid, exLinked_valid, J.sameMethods, J.sameJoins, exMain_clear, fun _ _ _ _ _ _ _ _ _ _ _ _ h1 h2 h3 h4 _ => by rw [exMain_input h1 h2, exMain_input h3 h4]⟩

end Csdl.Prog
