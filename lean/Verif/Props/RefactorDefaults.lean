import Verif.Props.Refactor
import Verif.Props.DefaultsSame
/-
C99 with default values.
-/
namespace Csdl.Prog
open Csdl Csdl.Arith
variable {K F : Type}

theorem SameValues.symm {c c' : Body K F} (h : SameValues c c') : SameValues c' c := ⟨fun n v => (h.inputs n v).symm, fun n v => (h.declared n v).symm⟩

section
variable [Zero K] {c c' b b' : Body K F} {q : List Name} (R : Refactored c c' b q b')
include R

/-- the variable of the other program for a variable with a name -/
theorem Refactored.otherVar (hf' : MethodFacts c') {e' e : List Name × Nat} (hc : Counter c c' q e' e) {y : Nat} {nm : Name} (h : Relation.EqvGen (Same b') e' (q, y)) (hy : c'.Named y nm) {y0 : Nat} (h0 : c.Named y0 nm) :
    c.Live y0 ∧ Relation.EqvGen (Same b) e (q, y0) := by
  obtain ⟨f, g1, g2⟩ := (R.chain hf' h).1 e hc
  rcases g1 with ⟨g1, rfl⟩ | ⟨g1, _, g4, name, v', g5, g6, g7, g8⟩
  · exact absurd rfl g1
  obtain rfl := hf'.unique _ _ _ _ hy g6 g7
  have hl : c.Live y0 := .same g4 g8 h0
  refine ⟨hl, g2.trans _ _ _ ?_⟩
  have : f = (q, f.2) := by rw [← g1]
  rw [this]
  exact .rel _ _ (R.same_named g4 g8 hl h0)

theorem Refactored.sameOutside (hf' : MethodFacts c') {e' e : List Name × Nat} (hc : Counter c c' q e' e) {path : List Name} {y : Nat} (hp : path ≠ q) (h : Relation.EqvGen (Same b') e' (path, y)) :
    Relation.EqvGen (Same b) e (path, y) := by
  obtain ⟨f, g1, g2⟩ := (R.chain hf' h).1 e hc
  rcases g1 with ⟨g1, rfl⟩ | ⟨g1, g3, _⟩
  · exact g2
  · exact absurd g3 hp

theorem Refactored.declaredToo {nm : Name} {y : Nat} {sh : Shape} {v : Option (Val K)} (h : c'.Has y (.declare nm sh v)) : ∃ y0 sh0 v0, c.Has y0 (.declare nm sh0 v0) := by
  have e := congrArg (fun l => l.declared.map (·.name)) R.iface.locals
  simp only [Body.locals, List.map_map] at e
  have hm : nm ∈ ((c'.stmts 0).filterMap declaredOf).map ((fun v : VarInfo => v.name) ∘ fun x => ⟨x.2.1, x.2.2⟩) := List.mem_map.2 ⟨_, mem_declaredOf.2 ⟨_, h⟩, rfl⟩
  rw [← e] at hm
  obtain ⟨⟨z, n2, s2⟩, hz, rfl⟩ := List.mem_map.1 hm
  obtain ⟨v0, h0⟩ := mem_declaredOf.1 hz
  exact ⟨z, s2, v0, h0⟩

theorem Refactored.defaults (hf : MethodFacts c) (hf' : MethodFacts c') (hs : SameValues c c') {e' e : List Name × Nat} (hc : Counter c c' q e' e) (hc2 : Counter c' c q e e') {v : Option (Val K)} (hd : DefaultOf b' e'.1 e'.2 v) :
    DefaultOf b e.1 e.2 v := by
  have named : ∀ {d : Body K F} {y nm sh w}, d.Has y (.input nm sh w) → d.Named y nm := fun h => Or.inl ⟨_, Or.inl (mem_inputOf.2 ⟨_, h⟩)⟩
  have namedD : ∀ {d : Body K F} {y nm sh w}, d.Has y (.declare nm sh w) → d.Named y nm := fun h => Or.inl ⟨_, Or.inr (mem_declaredOf.2 ⟨_, h⟩)⟩
  have noInput : (∀ path2 b2 z nm s w, BAt b' path2 b2 → b2.Has z (.input nm s w) → ¬ SameVar b' e'.1 e'.2 path2 z) → ∀ path2 b2 z nm s w, BAt b path2 b2 → b2.Has z (.input nm s w) → ¬ SameVar b e.1 e.2 path2 z := by
    intro hno path2 b2 z nm s w k1 k2 k3
    by_cases hq : path2 = q
    · subst hq
      obtain rfl := R.atq k1
      obtain ⟨y0, s0, j0⟩ := (hs.inputs _ _).1 ⟨_, _, k2⟩
      exact hno _ _ _ _ _ _ R.step.symm.bat j0 (R.symm.otherVar hf hc2 k3 (named k2) (named j0)).2
    · obtain ⟨d', j1, j2⟩ := R.other k1 hq
      exact hno _ _ _ _ _ _ j1 (by unfold Body.Has at *; rw [← j2]; exact k2) (R.symm.sameOutside hf hc2 hq k3)
  have first : ∀ {path' : List Name} {v : Option (Val K)}, (∀ path2 b2 z nm s w, BAt b' path2 b2 → b2.Has z (.declare nm s w) → SameVar b' e'.1 e'.2 path2 z →
        max path'.length 1 ≤ max path2.length 1 ∧ (max path2.length 1 = max path'.length 1 → b2.LastDeclared nm z → w.isSome = true → v.isSome = true) ∧ (path2 = [] → path' = [] ∨ v.isSome = true)) →
      ∀ path2 b2 z nm s w, BAt b path2 b2 → b2.Has z (.declare nm s w) → SameVar b e.1 e.2 path2 z →
        max path'.length 1 ≤ max path2.length 1 ∧ (max path2.length 1 = max path'.length 1 → b2.LastDeclared nm z → w.isSome = true → v.isSome = true) ∧ (path2 = [] → path' = [] ∨ v.isSome = true) := by
    intro path' v h6 path2 b2 z nm s w k1 k2 k3
    by_cases hq : path2 = q
    · subst hq
      obtain rfl := R.atq k1
      obtain ⟨y0, s0, v0, j0⟩ := R.symm.declaredToo k2
      obtain ⟨a1, _, a3⟩ := h6 _ _ _ _ _ _ R.step.symm.bat j0 (R.symm.otherVar hf hc2 k3 (namedD k2) (namedD j0)).2
      refine ⟨a1, fun h7 h8 h9 => ?_, a3⟩
      obtain ⟨y1, s1, j1, j2⟩ := (hs.declared _ _).1 ⟨_, _, k2, h8⟩
      exact (h6 _ _ _ _ _ _ R.step.symm.bat j1 (R.symm.otherVar hf hc2 k3 (namedD k2) (namedD j1)).2).2.1 h7 j2 h9
    · obtain ⟨d', j1, j2⟩ := R.other k1 hq
      obtain ⟨a1, a2, a3⟩ := h6 _ _ _ _ _ _ j1 (by unfold Body.Has at *; rw [← j2]; exact k2) (R.symm.sameOutside hf hc2 hq k3)
      exact ⟨a1, fun h7 h8 h9 => a2 h7 (fun y' s' w' hh => h8 y' s' w' (by unfold Body.Has at *; rw [j2]; exact hh)) h9, a3⟩
  cases hd with
  | @input path2 d y nm sh w h1 h2 h3 h4 =>
    by_cases hq : path2 = q
    · subst hq
      obtain rfl := R.symm.atq h1
      obtain ⟨y0, s0, j0⟩ := (hs.inputs _ _).2 ⟨_, _, h2⟩
      obtain ⟨l1, l2⟩ := R.otherVar hf' hc h3 (named h2) (named j0)
      refine .input R.step.bat j0 l2 fun p hp ht => ?_
      have hl : d.Live y := .input (mem_inputOf.2 ⟨_, h2⟩)
      exact h4 p (R.symm.nameOf hf (e' := (path2, y0)) (e := (path2, y)) (Or.inr ⟨rfl, rfl, hl, nm, y0, l1, named j0, .refl _, named h2⟩) hp) (R.toModel ▸ ht)
    · obtain ⟨d', j1, j2⟩ := R.symm.other h1 hq
      exact .input j1 (by unfold Body.Has at *; rw [← j2]; exact h2) (R.sameOutside hf' hc hq h3) fun p hp ht => h4 p (R.hasName hq hp) (R.toModel ▸ ht)
  | @declare path2 d y nm sh w h1 h2 h3 h4 h5 h6 =>
    by_cases hq : path2 = q
    · subst hq
      obtain rfl := R.symm.atq h1
      obtain ⟨y0, s0, j0, jl⟩ := (hs.declared _ _).2 ⟨_, _, h2, h4⟩
      exact .declare R.step.bat j0 (R.otherVar hf' hc h3 (namedD h2) (namedD j0)).2 jl (noInput h5) (first h6)
    · obtain ⟨d', j1, j2⟩ := R.symm.other h1 hq
      exact .declare j1 (by unfold Body.Has at *; rw [← j2]; exact h2) (R.sameOutside hf' hc hq h3) (fun y' s' w' hh => h4 y' s' w' (by unfold Body.Has at *; rw [j2]; exact hh)) (noInput h5) (first h6)

end

variable [Field K] [DecidableEq K]

/-- **C99 (default values).** Let a model of a valid program get another method with the same interface and the same values of its inputs and declared variables, such that the program is valid.  Run and compile both programs, and run
both from their default values.  If the new method computes the same as the old one and the default values are clear, every variable outside of the model, and every variable of the model that has a name, has the same value in both. -/
theorem C99_defaults (b b' c c' : Body K F) (q : List Name) (hv : ValidProgram b) (hv' : ValidProgram b') (h : Replaced c c' b q b') (hi : SameInterface c c') (hvals : SameValues c c') (hcl : ClearDefaults b)
    (hs : b.Assigns → b.maxObjects ≤ 63 ^ 4) (hs' : b'.Assigns → b'.maxObjects ≤ 63 ^ 4) :
    ∃ objs root objs' root', runProgram b = .ok (objs, root) ∧ runProgram b' = .ok (objs', root') ∧ (objs.length ≤ 63 ^ 4 → objs'.length ≤ 63 ^ 4 →
      ∀ order : List Nat → List Nat, (∀ l x, x ∈ order l ↔ x ∈ l) → ∀ fuel, (∀ path d, BAt b path d → (d.locals.outputs ++ d.locals.declared).length + max objs.length objs'.length ≤ fuel) →
      ∃ rep rep', compile (objects objs) fuel order root = .ok rep ∧ compile (objects objs') fuel order root' = .ok rep' ∧
        ∃ (f f' : Nat → Nat) (node node' : List Name → Nat → Nat), ∀ (P : Power K) (den : F → List (Val K) → Nat → Val K),
          let value := fun path x => execAll rep.graph ⟨fun i => decide ((objects objs i).kind = .op), fun i => (objects objs i).deps.map f, opMeaning P den objs⟩ (initial objs) rep.sorted (node path x)
          let value' := fun path x => execAll rep'.graph ⟨fun i => decide ((objects objs' i).kind = .op), fun i => (objects objs' i).deps.map f', opMeaning P den objs'⟩ (initial objs') rep'.sorted (node' path x)
          Solution P den b value ∧ Solution P den b' value' ∧ (∀ path x, GivenVar b path x → ∃ v, DefaultOf b path x v ∧ value path x = v.getD fun _ => 1) ∧
          (Refines P den c c' → (∀ path d, BAt b path d → path ≠ q → ∀ x, d.Live x → value path x = value' path x) ∧
            ∀ x y name, c.Live x → c.Named x name → c'.Live y → c'.Named y name → value q x = value' q y)) := by
  obtain ⟨objs, root, h1, h2⟩ := C74_valid_programs_compute b hv hs
  obtain ⟨objs', root', h1', h2'⟩ := C74_valid_programs_compute b' hv' hs'
  refine ⟨objs, root, objs', root', h1, h1', fun hn hn' order ho fuel hf => ?_⟩
  have R : Refactored c c' b q b' := ⟨hv.namesValid, hv'.namesValid, h, hi⟩
  have mf := methodFacts hv.namesValid h1 R.step.bat
  have mf' := methodFacts hv'.namesValid h1' R.step.symm.bat
  have hf1 : ∀ path c, BAt b path c → (c.locals.outputs ++ c.locals.declared).length + objs.length ≤ fuel := fun path c hc => (Nat.add_le_add_left (Nat.le_max_left ..) _).trans (hf path c hc)
  have hf2 : ∀ path c, BAt b' path c → (c.locals.outputs ++ c.locals.declared).length + objs'.length ≤ fuel := fun path d hd => by
    obtain ⟨d', k1, k2⟩ := R.symm.locals hd
    rw [k2]
    exact (Nat.add_le_add_left (Nat.le_max_right ..) _).trans (hf path d' k1)
  obtain ⟨rep, hc, _⟩ := h2 hn order ho fuel hf1
  obtain ⟨rep', hc', _⟩ := h2' hn' order ho fuel hf2
  obtain ⟨f, node, _, h3⟩ := C86_default_values b hv.names hv.noChain objs root h1 hn fuel hf1 order ho rep hc
  obtain ⟨f', node', _, h3'⟩ := C86_default_values b' hv'.names hv'.noChain objs' root' h1' hn' fuel hf2 order ho rep' hc'
  refine ⟨rep, rep', hc, hc', f, f', node, node', fun P den => ?_⟩
  obtain ⟨s1, s2, _, s3⟩ := h3 P den
  obtain ⟨t1, t2, _, _⟩ := h3' P den
  refine ⟨s1, t1, s2, fun hr => ?_⟩
  obtain ⟨ρc, r1, r2⟩ := hr _ (R.symm.methodSolution t1)
  have hsol := R.solution t1 r1 r2
  have hall := s3 _ hsol fun path x hg => by
    by_cases hp : path = q
    · subst hp
      rw [if_pos rfl]
      obtain ⟨v, name, k1, k2, k3, k4⟩ := R.givenNamed mf x hg
      obtain ⟨y, k5, k6⟩ := (R.iface.matters name).1 ⟨v, k1, k2⟩
      have e1 := k4 P den _ (R.methodSolution s1)
      have cn : Counter c c' path (path, y) (path, v) := Or.inr ⟨rfl, rfl, k1, name, y, k5, k6, .refl _, k2⟩
      have hgy : GivenVar b' path y := R.given mf mf' (e' := (path, y)) (e := (path, v)) cn ⟨c', R.step.symm.bat, k5⟩ k3
      obtain ⟨w, d1, d2⟩ := s2 path v k3
      obtain ⟨w', d1', d2'⟩ := t2 path y hgy
      have ew := hcl _ _ _ _ k3 d1 (R.defaults mf mf' hvals (e' := (path, y)) (e := (path, v)) cn (Or.inr ⟨rfl, rfl, k5, name, v, k1, k2, .refl _, k6⟩) d1')
      subst ew
      exact (k4 P den _ r1).trans ((r2 name v y k1 k2 k5 k6).trans (d2'.trans (d2.symm.trans e1.symm)))
    · rw [if_neg hp]
      obtain ⟨d, k1, k2⟩ := hg.1
      obtain ⟨d', k3, k4⟩ := R.other k1 hp
      have hg' : GivenVar b' path x := R.given mf mf' (e' := (path, x)) (e := (path, x)) (Or.inl ⟨hp, rfl⟩) ⟨d', k3, (sameStatements_of_stmts k4).live k2⟩ hg
      obtain ⟨w, d1, d2⟩ := s2 path x hg
      obtain ⟨w', d1', d2'⟩ := t2 path x hg'
      have ew := hcl _ _ _ _ hg d1 (R.defaults mf mf' hvals (e' := (path, x)) (e := (path, x)) (Or.inl ⟨hp, rfl⟩) (Or.inl ⟨hp, rfl⟩) d1')
      subst ew
      exact d2'.trans d2.symm
  refine ⟨fun path d hd hp x hl => ?_, fun x y name k1 k2 k3 k4 => ?_⟩
  · have := hall path d hd x hl
    rw [if_neg hp] at this
    exact this.symm
  · have := hall q c R.step.bat x k1
    rw [if_pos rfl] at this
    rw [← this, r2 name x y k1 k2 k3 k4]

/-- the hypotheses hold for `exMain` and `exMain2` -/
example : ValidProgram exMain ∧ ValidProgram exMain2 ∧ Replaced exSub exSub2 exMain ["m".toList] exMain2 ∧ SameInterface exSub exSub2 ∧ SameValues exSub exSub2 ∧ ClearDefaults exMain ∧
    ∀ (P : Power ℚ) (den : Unit → List (Val ℚ) → Nat → Val ℚ), Refines P den exSub exSub2 := by
  refine ⟨exMain_valid, exMain2_valid, exMain2_step, exSub_iface, ⟨fun name v => ?_, fun name v => ?_⟩, exMain_clear, exSub_refines⟩
  · simp [Body.Has, exSub_stmts, exSub2_stmts]
  · simp [Body.Has, Body.LastDeclared, exSub_stmts, exSub2_stmts]

end Csdl.Prog
