import Verif.Props.Print
import Verif.Props.DefaultsSame
/-
C96 with default values.
-/
namespace Csdl.Prog
open Csdl Csdl.Arith
variable {K F : Type}

section
variable [Zero K] {f : F} {args : List Nat} {sh : Shape} {nm : Name} {c0 c0' b b' : Body K F} {path0 : List Name} (A : Adding f args sh nm c0 c0' b path0 b')
include A

theorem Adding.sameMono {u v : List Name × Nat} (h : Relation.EqvGen (Same b) u v) : Relation.EqvGen (Same b') u v := by
  induction h with
  | rel _ _ h =>
    refine .rel _ _ ?_
    cases h with
    | name p h1 h2 => exact .name p (A.hasName h1) (A.hasName h2)
    | connection path c s t p q h1 h2 h3 h4 h5 h6 =>
      obtain ⟨c', g1, _, _, _, g5, _⟩ := A.mono h1
      exact .connection path c' s t p q g1 (g5 ▸ h2) (A.denotes h3) (A.denotes h4) (A.hasName h5) (A.hasName h6)
    | «alias» c h1 h2 h3 h4 =>
      obtain ⟨c', g1, _, g3, _, _, _, g7, _⟩ := A.mono h1
      exact .alias c' g1 (g3 h2) (g3 h3) (g7.2 h4)
  | refl _ => exact .refl _
  | symm _ _ _ ih => exact ih.symm
  | trans _ _ _ _ _ h1 h2 => exact h1.trans _ _ _ h2

/-- the inputs and declared variables are those of before -/
theorem Adding.givens {path : List Name} {c' : Body K F} (h : BAt b' path c') : ∃ c, BAt b path c ∧ (∀ {y name shape v}, c'.Has y (.input name shape v) ↔ c.Has y (.input name shape v)) ∧
    (∀ {y name shape v}, c'.Has y (.declare name shape v) ↔ c.Has y (.declare name shape v)) := by
  obtain ⟨c, g1, ⟨rfl, rfl, rfl⟩ | ⟨_, e, _⟩⟩ := A.method' h
  · refine ⟨c, g1, fun {y name shape v} => ⟨fun hh => ?_, A.grew.has⟩, fun {y name shape v} => ⟨fun hh => ?_, A.grew.has⟩⟩
    · rcases A.grew.has' hh with hh | ⟨_, hh⟩ | ⟨_, hh⟩
      · exact hh
      · cases hh
      · cases hh
    · rcases A.grew.has' hh with hh | ⟨_, hh⟩ | ⟨_, hh⟩
      · exact hh
      · cases hh
      · cases hh
  · exact ⟨c, g1, by intros; unfold Body.Has; rw [e], by intros; unfold Body.Has; rw [e]⟩

theorem Adding.givens' {path : List Name} {c : Body K F} (h : BAt b path c) : ∃ c', BAt b' path c' ∧ (∀ {y name shape v}, c'.Has y (.input name shape v) ↔ c.Has y (.input name shape v)) ∧
    (∀ {y name shape v}, c'.Has y (.declare name shape v) ↔ c.Has y (.declare name shape v)) := by
  obtain ⟨c', g1, ⟨rfl, rfl, rfl⟩ | ⟨_, e, _⟩⟩ := A.method h
  · refine ⟨c', g1, fun {y name shape v} => ⟨fun hh => ?_, A.grew.has⟩, fun {y name shape v} => ⟨fun hh => ?_, A.grew.has⟩⟩
    · rcases A.grew.has' hh with hh | ⟨_, hh⟩ | ⟨_, hh⟩
      · exact hh
      · cases hh
      · cases hh
    · rcases A.grew.has' hh with hh | ⟨_, hh⟩ | ⟨_, hh⟩
      · exact hh
      · cases hh
      · cases hh
  · exact ⟨c', g1, by intros; unfold Body.Has; rw [e], by intros; unfold Body.Has; rw [e]⟩

theorem Adding.target {p : Name} (h : TargetName b.toModel p) : TargetName b'.toModel p := by
  obtain ⟨path, c, a, d, h1, h2, h3⟩ := target_iff.1 h
  obtain ⟨c', g1, _, _, _, g5, _⟩ := A.mono h1
  exact target_iff.2 ⟨path, c', a, d, g1, g5 ▸ h2, A.denotes h3⟩

theorem Adding.defaults {path : List Name} {x : Nat} {v : Option (Val K)} (h : DefaultOf b' path x v) : DefaultOf b path x v := by
  cases h with
  | @input path' c' y name shape v h1 h2 h3 h4 =>
    obtain ⟨c, g1, g2, _⟩ := A.givens h1
    exact .input g1 (g2.1 h2) (A.sameAll h3) fun p hp ht => h4 p (A.hasName hp) (A.target ht)
  | @declare path' c' y name shape v h1 h2 h3 h4 h5 h6 =>
    obtain ⟨c, g1, _, g3⟩ := A.givens h1
    refine .declare g1 (g3.1 h2) (A.sameAll h3) (fun y' shape' val' hh => h4 y' shape' val' (g3.2 hh)) ?_ ?_
    · intro path2 b2 z nm' s w k1 k2 k3
      obtain ⟨c2, j1, j2, _⟩ := A.givens' k1
      exact h5 _ _ _ _ _ _ j1 (j2.2 k2) (A.sameMono k3)
    · intro path2 b2 z nm' s w k1 k2 k3
      obtain ⟨c2, j1, _, j3⟩ := A.givens' k1
      obtain ⟨a1, a2, a3⟩ := h6 _ _ _ _ _ _ j1 (j3.2 k2) (A.sameMono k3)
      exact ⟨a1, fun e hd => a2 e fun y' shape' val' hh => hd y' shape' val' (j3.1 hh), a3⟩

end

variable [Field K] [DecidableEq K]

/-- **C96 (default values).** If the default values are clear, a program to which such an output is added, run from its default values, computes the same values as without it. -/
theorem C96_defaults (b b' c : Body K F) (path : List Name) (hv : ValidProgram b) (f : F) (args : List Nat) (sh : Shape) (nm : Name) (hr : Replaced c (c.addOutput f args sh nm) b path b') (ha : ∀ a ∈ args, c.Live a)
    (hn : NewOutput b b' path c nm) (hs : b.Assigns → b'.maxObjects ≤ 63 ^ 4) (hd : ClearDefaults b) :
    ∃ objs root objs' root', runProgram b = .ok (objs, root) ∧ runProgram b' = .ok (objs', root') ∧ (objs.length ≤ 63 ^ 4 → objs'.length ≤ 63 ^ 4 →
      ∀ order : List Nat → List Nat, (∀ l x, x ∈ order l ↔ x ∈ l) → ∀ fuel, (∀ path d, BAt b' path d → (d.locals.outputs ++ d.locals.declared).length + max objs.length objs'.length ≤ fuel) →
      ∃ rep rep', compile (objects objs) fuel order root = .ok rep ∧ compile (objects objs') fuel order root' = .ok rep' ∧
        ∃ (r r' : Nat → Nat) (node node' : List Name → Nat → Nat), ∀ (P : Power K) (den : F → List (Val K) → Nat → Val K),
          let value := fun path x => execAll rep.graph ⟨fun i => decide ((objects objs i).kind = .op), fun i => (objects objs i).deps.map r, opMeaning P den objs⟩ (initial objs) rep.sorted (node path x)
          let value' := fun path x => execAll rep'.graph ⟨fun i => decide ((objects objs' i).kind = .op), fun i => (objects objs' i).deps.map r', opMeaning P den objs'⟩ (initial objs') rep'.sorted (node' path x)
          Solution P den b value ∧ Solution P den b' value' ∧ (∀ path x, GivenVar b path x → ∃ v, DefaultOf b path x v ∧ value path x = v.getD fun _ => 1) ∧
          value' path (numVars (c.stmts 0)) = den f (args.map (value' path)) 0 ∧
          ∀ path d, BAt b path d → ∀ x, d.Live x → value path x = value' path x) := by
  have g := grew_addOutput f args sh nm c
  have A : Adding f args sh nm c _ b path b' := ⟨hv, hr, g, ha, hn⟩
  have hv' := A.validProgram
  have hmax : b.maxObjects ≤ b'.maxObjects := hr.maxObjects (by rw [Body.addOutput, maxObjects_append]; omega)
  obtain ⟨objs, root, h1, h2⟩ := C74_valid_programs_compute b hv fun h => hmax.trans (hs h)
  obtain ⟨objs', root', h1', h2'⟩ := C74_valid_programs_compute b' hv' fun h => hs (A.assigns h)
  refine ⟨objs, root, objs', root', h1, h1', fun hl hl' order ho fuel hf => ?_⟩
  have hf1 : ∀ path d, BAt b path d → (d.locals.outputs ++ d.locals.declared).length + objs.length ≤ fuel := fun path d hd => by
    obtain ⟨d', g1, ⟨rfl, rfl, rfl⟩ | ⟨_, _, e⟩⟩ := A.method hd
    · have := hf _ _ g1
      rw [g.localOutputs A.ok0, g.localDeclared] at this
      simp only [List.length_append, List.length_singleton] at this ⊢
      omega
    · have := hf _ _ g1
      rw [e] at this
      omega
  have hf2 : ∀ path d, BAt b' path d → (d.locals.outputs ++ d.locals.declared).length + objs'.length ≤ fuel := fun path d hd => (Nat.add_le_add_left (Nat.le_max_right ..) _).trans (hf path d hd)
  obtain ⟨rep, hc, _⟩ := h2 hl order ho fuel hf1
  obtain ⟨rep', hc', _⟩ := h2' hl' order ho fuel hf2
  obtain ⟨r, node, _, h3⟩ := C86_default_values b hv.names hv.noChain objs root h1 hl fuel hf1 order ho rep hc
  obtain ⟨r', node', _, h3'⟩ := C86_default_values b' hv'.names hv'.noChain objs' root' h1' hl' fuel hf2 order ho rep' hc'
  refine ⟨rep, rep', hc, hc', r, r', node, node', fun P den => ?_⟩
  obtain ⟨s1, s2, _, s3⟩ := h3 P den
  obtain ⟨t1, t2, _, _⟩ := h3' P den
  refine ⟨s1, t1, s2, ?_, fun path d hb x hx => (s3 _ (A.solution t1) (fun path x hg => ?_) path d hb x hx).symm⟩
  · exact t1.call path _ hr.symm.bat (numVars (c.stmts 0)) f args [sh] (by unfold Body.Has; rw [g.stmts]; simp) 0 (by simp) g.live_new
  · obtain ⟨v, e1, e2⟩ := s2 path x hg
    obtain ⟨v', e1', e2'⟩ := t2 path x (A.given hg)
    exact (e2'.trans (by rw [hd _ _ _ _ hg e1 (A.defaults e1')])).trans e2.symm

/-- the hypotheses hold for a program with a submodel, in which a variable of the submodel is printed -/
example : ValidProgram exMain ∧ ClearDefaults exMain ∧ Replaced exSub (exSub.print () 0 "a_print".toList) exMain ["m".toList] exPrinted ∧ exSub.Live 0 ∧ NewOutput exMain exPrinted ["m".toList] exSub "a_print".toList :=
  ⟨exMain_valid, exMain_clear, exPrinted_replaced, exSub_live, exPrinted_new⟩

end Csdl.Prog
