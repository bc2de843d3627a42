import Verif.Proofs.ApartDefaults
import Verif.Props.Apart
import Verif.Props.Defaults
import Verif.Props.DefaultsSame
import Verif.Props.Exact
/-
C103 with default values.
-/
namespace Csdl.Prog
open Csdl Csdl.Arith
variable {K F : Type} [Field K] [DecidableEq K]

/-- **C103 (default values).** Add a valid program to a valid program as a submodel with a new name, nothing promoted.  If the default values of both are clear, and no direct submodel of the added program gives a value for a variable
that its main model declares without one, then both parts, run from the default values of the combination, compute what they compute on their own from their default values. -/
theorem C103_apart_defaults (b sub : Body K F) (i : Bool) (n : Name) (hv : ValidProgram b) (hn : NewSub b n) (hs : ValidProgram sub) (hmax : b.Assigns ∨ sub.Assigns ∨ (b.addApart i n sub).Assigns → (b.addApart i n sub).maxObjects ≤ 63 ^ 4)
    (hd1 : ClearDefaults b) (hd2 : ClearDefaults sub) (hu : UntiedDefaults sub) :
    ∃ objs1 root1 objs2 root2 objs root, runProgram b = .ok (objs1, root1) ∧ runProgram sub = .ok (objs2, root2) ∧ runProgram (b.addApart i n sub) = .ok (objs, root) ∧
      (objs1.length ≤ 63 ^ 4 → objs2.length ≤ 63 ^ 4 → objs.length ≤ 63 ^ 4 → ∀ order : List Nat → List Nat, (∀ l x, x ∈ order l ↔ x ∈ l) →
      ∀ fuel, (∀ path c, BAt (b.addApart i n sub) path c → (c.locals.outputs ++ c.locals.declared).length + max (max objs1.length objs2.length) objs.length ≤ fuel) →
      ∃ rep1 rep2 rep, compile (objects objs1) fuel order root1 = .ok rep1 ∧ compile (objects objs2) fuel order root2 = .ok rep2 ∧ compile (objects objs) fuel order root = .ok rep ∧
        ∃ (f1 f2 f : Nat → Nat) (node1 node2 node : List Name → Nat → Nat), ∀ (P : Power K) (den : F → List (Val K) → Nat → Val K),
          let value1 := fun path x => execAll rep1.graph ⟨fun i => decide ((objects objs1 i).kind = .op), fun i => (objects objs1 i).deps.map f1, opMeaning P den objs1⟩ (initial objs1) rep1.sorted (node1 path x)
          let value2 := fun path x => execAll rep2.graph ⟨fun i => decide ((objects objs2 i).kind = .op), fun i => (objects objs2 i).deps.map f2, opMeaning P den objs2⟩ (initial objs2) rep2.sorted (node2 path x)
          let value := fun path x => execAll rep.graph ⟨fun i => decide ((objects objs i).kind = .op), fun i => (objects objs i).deps.map f, opMeaning P den objs⟩ (initial objs) rep.sorted (node path x)
          Solution P den b value1 ∧ Solution P den sub value2 ∧ Solution P den (b.addApart i n sub) value ∧
          (∀ path x, GivenVar b path x → ∃ v, DefaultOf b path x v ∧ value1 path x = v.getD fun _ => 1) ∧ (∀ path x, GivenVar sub path x → ∃ v, DefaultOf sub path x v ∧ value2 path x = v.getD fun _ => 1) ∧
          (∀ path c, BAt b path c → ∀ x, c.Live x → value path x = value1 path x) ∧ ∀ path c, BAt sub path c → ∀ x, c.Live x → value (n :: path) x = value2 path x) := by
  have A := apart_of_valid i hv hn hs
  have hv' := A.validProgram
  have hm : (b.addApart i n sub).maxObjects = b.maxObjects + (1 + sub.maxObjects) := by
    simp [Body.addApart, maxObjects_append, Body.maxObjects]
  obtain ⟨objs1, root1, a1, a2⟩ := C74_valid_programs_compute b hv fun h => by have := hmax (Or.inl h); omega
  obtain ⟨objs2, root2, b1, b2⟩ := C74_valid_programs_compute sub hs fun h => by have := hmax (Or.inr (Or.inl h)); omega
  obtain ⟨objs, root, c1, c2⟩ := C74_valid_programs_compute _ hv' fun h => hmax (Or.inr (Or.inr h))
  refine ⟨objs1, root1, objs2, root2, objs, root, a1, b1, c1, fun hn1 hn2 hn3 order ho fuel hf => ?_⟩
  have hf1 : ∀ path c, BAt b path c → (c.locals.outputs ++ c.locals.declared).length + objs1.length ≤ fuel := fun path c hc => by
    obtain ⟨c', g1, g2⟩ := A.first hc
    have := hf path c' g1
    rw [(Looks.of_stmts g2).locals]
    omega
  have hf2 : ∀ path c, BAt sub path c → (c.locals.outputs ++ c.locals.declared).length + objs2.length ≤ fuel := fun path c hc => by
    have := hf _ c (apart_second hc)
    omega
  have hf3 : ∀ path c, BAt (b.addApart i n sub) path c → (c.locals.outputs ++ c.locals.declared).length + objs.length ≤ fuel := fun path c hc => by
    have := hf path c hc
    omega
  obtain ⟨rep1, d1, _⟩ := a2 hn1 order ho fuel hf1
  obtain ⟨rep2, d2, _⟩ := b2 hn2 order ho fuel hf2
  obtain ⟨rep, d3, _⟩ := c2 hn3 order ho fuel hf3
  obtain ⟨f1, node1, _, e1⟩ := C86_default_values b hv.names hv.noChain objs1 root1 a1 hn1 fuel hf1 order ho rep1 d1
  obtain ⟨f2, node2, _, e2⟩ := C86_default_values sub hs.names hs.noChain objs2 root2 b1 hn2 fuel hf2 order ho rep2 d2
  obtain ⟨f, node, _, e3⟩ := C86_default_values _ hv'.names hv'.noChain objs root c1 hn3 fuel hf3 order ho rep d3
  refine ⟨rep1, rep2, rep, d1, d2, d3, f1, f2, f, node1, node2, node, fun P den => ?_⟩
  obtain ⟨s1, s2, _, s3⟩ := e1 P den
  obtain ⟨t1, t2, _, t3⟩ := e2 P den
  obtain ⟨u1, u2, _, _⟩ := e3 P den
  refine ⟨s1, t1, u1, s2, t2, ?_, ?_⟩
  · refine s3 _ (A.solution_first u1) fun path x hg => ?_
    obtain ⟨v, k1, k2⟩ := s2 path x hg
    obtain ⟨v', j1, j2⟩ := u2 path x (A.given_first hg)
    obtain ⟨⟨c, hc, _⟩, _⟩ := id hg
    exact (j2.trans (by rw [hd1 _ _ _ _ hg k1 (A.default_first (A.outside hc) j1)])).trans k2.symm
  · refine t3 _ (Solution.sub hv' (apart_second (.here sub)) u1) fun path x hg => ?_
    obtain ⟨v, k1, k2⟩ := t2 path x hg
    obtain ⟨v', j1, j2⟩ := u2 (n :: path) x (A.given_second hg)
    exact (j2.trans (by rw [hd2 _ _ _ _ hg k1 (A.default_second hu j1)])).trans k2.symm

/-! ### The hypotheses hold of `exMain` -/

theorem exMain_untied : UntiedDefaults exMain := by
  intro y name shape m c z nm s w _ _ h3 h4 _ _
  rcases exMain_at h3 with ⟨e, _⟩ | ⟨_, rfl⟩
  · cases e
  · simp only [Body.Has, exSub_stmts, List.mem_cons, Prod.mk.injEq, Stmt.declare.injEq, List.not_mem_nil, or_false, reduceCtorEq, and_false] at h4
    exact h4.2.2.2

example : ClearDefaults exMain ∧ UntiedDefaults exMain ∧ ValidProgram exMain ∧ NewSub exMain "k".toList := ⟨exMain_clear, exMain_untied, exMain_valid, exMain_new⟩

/-! ### Without the last hypothesis: adding a program to another changes its default values -/

theorem exM_sizes {path : List Name} {k : VarKind} {v : VarInfo} {p : Name} (h : PromotedAs exM.toModel path k v p) : v.shape = [1] := by
  obtain ⟨l, subs, h1, h2⟩ := promoted_at h
  obtain ⟨c, h3, e⟩ := BAt.locals h1
  rw [Body.toModel] at e
  cases e
  have key : ∀ c : Body ℚ Unit, (c = exM ∨ c = exQ) → ∀ v ∈ c.locals.vars k, v.shape = [1] := by
    rintro c (rfl | rfl) <;> cases k <;> decide
  rcases exM_at h3 with ⟨_, rfl⟩ | ⟨_, rfl⟩
  · exact key _ (Or.inl rfl) v h2
  · exact key _ (Or.inr rfl) v h2

theorem exM_acceptable : NoChain exM.toModel ∧ AcceptableProgram exM := by
  refine acceptable_of_check exM exM_good (by decide) (by decide) ?_ ?_ (by decide +kernel)
  · intro path b' hb
    rcases exM_at hb with ⟨_, rfl⟩ | ⟨_, rfl⟩ <;> decide
  · intro path b' hb
    rcases exM_at hb with ⟨_, rfl⟩ | ⟨_, rfl⟩ <;> decide

theorem exM_valid : ValidProgram exM where
  methods := exM_acceptable.2.methods
  names := exM_good
  oneSource := exM_acceptable.2.oneSource
  sizes := by
    intro path c hc p k1 path1 v1 k2 path2 v2 h1 h2 _
    have key : ∀ {k : VarKind} {q : List Name} {v : VarInfo}, PromotedAs c.toModel q k v p → v.shape = [1] := by
      intro k q v h
      rcases exM_at hc with ⟨_, rfl⟩ | ⟨_, rfl⟩
      · exact exM_sizes h
      · obtain ⟨_, hv, _⟩ := oneModel_promoted h
        have : ∀ v ∈ exQ.locals.vars k, v.shape = [1] := by cases k <;> decide
        exact this v hv
    rw [key h1, key h2]
  promotes := by
    intro path c hc n q sub hs
    rcases exM_at hc with ⟨_, rfl⟩ | ⟨_, rfl⟩ <;> simp [exM, exQ, Body.subs] at hs
  connections := by
    intro path c a d hc h
    rcases exM_at hc with ⟨_, rfl⟩ | ⟨_, rfl⟩ <;> simp [Body.locals, exM, exQ, Body.stmts, Stmt.count, stepConnections] at h
  oneConnection := exM_acceptable.2.oneConnection
  noChain := exM_acceptable.1
  acyclic := exM_acceptable.2.acyclic

/-- `def define(self): add(M, 'w', promotes=[])` -/
def exWrap : Body ℚ Unit := (Body.done : Body ℚ Unit).addApart false "w".toList exM

theorem exWrap_apart : Apart (Body.done : Body ℚ Unit) false "w".toList exM :=
  apart_of_done false ⟨by decide, by intro c hc; simp at hc; subst hc; decide, fun h => absurd h.1 (by decide), by simp [Body.subs], by simp [Local.sources, Body.locals, Body.stmts]⟩ exM_valid

theorem exWrap_default {v : Option (Val ℚ)} (h : DefaultOf exWrap ["w".toList] 0 v) : v = none := by
  have hb1 : BAt exWrap ["w".toList] exM := apart_second (.here _)
  cases h with
  | input hb hy hs hno =>
    rcases exWrap_apart.split hb with ⟨c', g1, g2, _⟩ | ⟨q, rfl, g1⟩
    · obtain ⟨_, rfl⟩ := done_at g1
      have := has_of_stmts g2 hy
      simp [Body.Has, Body.stmts] at this
    · rcases exM_at g1 with ⟨rfl, rfl⟩ | ⟨rfl, rfl⟩ <;> simp [Body.Has, exM, exQ, Body.stmts, Stmt.count] at hy
  | declare hb hy _ _ _ hbest =>
    rcases exWrap_apart.split hb with ⟨c', g1, g2, _⟩ | ⟨q, rfl, g1⟩
    · obtain ⟨_, rfl⟩ := done_at g1
      have := has_of_stmts g2 hy
      simp [Body.Has, Body.stmts] at this
    · rcases exM_at g1 with ⟨rfl, rfl⟩ | ⟨rfl, rfl⟩
      · simp only [Body.Has, exM, Body.stmts, Stmt.count, List.mem_cons, Prod.mk.injEq, List.not_mem_nil, or_false, Stmt.declare.injEq, reduceCtorEq, and_false] at hy
        exact hy.2.2.2
      · have := (hbest ["w".toList] exM 0 "a".toList [1] none hb1 (by simp [Body.Has, exM, Body.stmts, Stmt.count]) (.refl _)).1
        simp at this

theorem exWrap_run : ∃ objs root rep, runProgram exWrap = .ok (objs, root) ∧ objs.length = 8 ∧ compile (objects objs) 20 id root = .ok rep := by
  obtain ⟨⟨objs, root⟩, h1, h⟩ := ok_of_check (x := runProgram exWrap) (P := fun q => decide (q.1.length = 8) && okCheck (compile (objects q.1) 20 id q.2) fun _ => true) (by decide +kernel)
  rw [Bool.and_eq_true] at h
  obtain ⟨rep, h2, _⟩ := ok_of_check h.2
  exact ⟨objs, root, rep, h1, of_decide_eq_true h.1, h2⟩

/-- **C103, limits (default values).** Without the last hypothesis of `C103_apart_defaults` it does not hold: run on its own, the valid program `exM` has 5 as the value of `a` (its direct submodel gives it, C86); wrapped in a model that promotes
nothing from it, the value of the same variable is 1. -/
theorem C103_wrapping_changes_default : ValidProgram exM ∧ ValidProgram exWrap ∧
    (∃ objs root rep, runProgram exM = .ok (objs, root) ∧ compile (objects objs) 20 id root = .ok rep ∧ ∃ (f : Nat → Nat) (node : List Name → Nat → Nat), ∀ (P : Power ℚ) (den : Unit → List (Val ℚ) → Nat → Val ℚ),
      execAll rep.graph ⟨fun i => decide ((objects objs i).kind = .op), fun i => (objects objs i).deps.map f, opMeaning P den objs⟩ (initial objs) rep.sorted (node [] 0) = fun _ => 5) ∧
    ∃ objs root rep, runProgram exWrap = .ok (objs, root) ∧ compile (objects objs) 20 id root = .ok rep ∧ ∃ (f : Nat → Nat) (node : List Name → Nat → Nat), ∀ (P : Power ℚ) (den : Unit → List (Val ℚ) → Nat → Val ℚ),
      Solution P den exWrap (fun path x => execAll rep.graph ⟨fun i => decide ((objects objs i).kind = .op), fun i => (objects objs i).deps.map f, opMeaning P den objs⟩ (initial objs) rep.sorted (node path x)) ∧
      execAll rep.graph ⟨fun i => decide ((objects objs i).kind = .op), fun i => (objects objs i).deps.map f, opMeaning P den objs⟩ (initial objs) rep.sorted (node ["w".toList] 0) = fun _ => 1 := by
  have hv := exWrap_apart.validProgram
  refine ⟨exM_valid, hv, C86_value_of_submodel, ?_⟩
  obtain ⟨objs, root, rep, hr, hl, hc⟩ := exWrap_run
  have hf : ∀ path c, BAt exWrap path c → (c.locals.outputs ++ c.locals.declared).length + objs.length ≤ 20 := by
    intro path c hc
    rw [hl]
    rcases exWrap_apart.split hc with ⟨c', g1, g2, _⟩ | ⟨q, rfl, g1⟩
    · obtain ⟨_, rfl⟩ := done_at g1
      rw [(Looks.of_stmts g2).locals]
      decide
    · rcases exM_at g1 with ⟨rfl, rfl⟩ | ⟨rfl, rfl⟩ <;> decide
  obtain ⟨f, node, _, h⟩ := C86_default_values exWrap hv.names hv.noChain objs root hr (by rw [hl]; decide) 20 hf id (fun _ _ => Iff.rfl) rep hc
  refine ⟨objs, root, rep, hr, hc, f, node, fun P den => ?_⟩
  obtain ⟨h1, h2, _⟩ := h P den
  refine ⟨h1, ?_⟩
  obtain ⟨v, d, e⟩ := h2 ["w".toList] 0 (exWrap_apart.given_second exM_given)
  rw [exWrap_default d] at e
  exact e

end Csdl.Prog
