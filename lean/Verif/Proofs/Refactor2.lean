import Verif.Proofs.Refactor
/-
For C99: which variables are given when a method is replaced.
-/
namespace Csdl.Prog
open Csdl Csdl.Arith
variable {K F : Type}

/-- what is used about a method that has been run -/
structure MethodFacts (c : Body K F) : Prop where
  unique : ∀ x y n1 n2, c.Named x n1 → c.Named y n2 → Alias (c.stmts 0) x y → n1 = n2
  first : ∀ n t x y, c.Has n t → t.Computes → n ≤ y → y < n + t.count → c.Live x → Alias (c.stmts 0) x y → c.Live y
  cover : ∀ x, c.Live x → ∃ n s, c.Has n s ∧ n ≤ x ∧ x < n + s.count

theorem methodFacts [Field K] [DecidableEq K] {b : Body K F} {objs : List (PObj K F)} {root : OModel} (hv : NamesValid b) (hr : runProgram b = .ok (objs, root)) {q : List Name} {c : Body K F} (hq : BAt b q c) : MethodFacts c := by
  obtain ⟨Ls, hh, _⟩ := runFrom_hier hr (all := objs) List.prefix_rfl
  obtain ⟨s, hs, rfl⟩ := hh.ofBody q c hq
  obtain ⟨m, hm, cx⟩ := hh.model hs
  have hcov : ∀ {x}, s.body.Live x → ∃ n t, s.body.Has n t ∧ n ≤ x ∧ x < n + t.count := fun {x} h => by
    obtain ⟨j, _, n, t, h1, h2, h3⟩ := created_before s.body (s.body.stmts 0).length x (by rw [List.take_length]; exact (hv.methods q _ hq).live_lt h)
    exact ⟨n, t, List.mem_of_getElem? h1, h2, h3⟩
  have hlt : ∀ {x}, s.body.Live x → x < s.st.env.length := fun {x} h => by
    obtain ⟨n, t, h1, h2, h3⟩ := hcov h
    have := cx.inv.nums n t h1
    omega
  constructor
  · intro x y n1 n2 h1 h2 ha
    obtain ⟨o, _, h3, h4⟩ := cx.named h1
    obtain ⟨o', _, h5, h6⟩ := cx.named h2
    have := (cx.alias_iff (lt_of_some h3)).1 ha
    rw [h3, h5] at this
    cases this
    rw [← h4, ← h6]
  · intro n t x y ht hc h1 h2 hl ha
    have h3 := (cx.alias_iff (hlt hl)).1 ha
    obtain ⟨o, ho⟩ := List.getElem?_eq_some_iff.2 ⟨hlt hl, rfl⟩ |> fun h => (⟨_, h⟩ : ∃ o, s.st.env[x]? = some o)
    exact cx.first' ht (by rintro ⟨y, rfl⟩; exact hc) h1 h2 ho (h3 ▸ ho) hl
  · intro x hl
    exact hcov hl

section refactored
variable [Zero K] {c c' b b' : Body K F} {q : List Name}

/-- `e` is the variable of `b` that corresponds to the variable `e'` of `b'` -/
def Counter (c c' : Body K F) (q : List Name) (e' e : List Name × Nat) : Prop :=
  (e.1 ≠ q ∧ e' = e) ∨ (e.1 = q ∧ e'.1 = q ∧ c.Live e.2 ∧ ∃ name v', c'.Live v' ∧ c'.Named v' name ∧ Alias (c'.stmts 0) e'.2 v' ∧ c.Named e.2 name)

variable (R : Refactored c c' b q b')
include R

theorem Refactored.nameOf (hf : MethodFacts c') {e' e : List Name × Nat} {p : Name} (h : Counter c c' q e' e) (hn : HasName b' e'.1 e'.2 p) : HasName b e.1 e.2 p := by
  rcases h with ⟨h1, rfl⟩ | ⟨h1, h2, h3, name, v', h4, h5, h6, h7⟩
  · exact R.symm.hasName h1 hn
  · rw [h1]
    rw [h2] at hn
    obtain ⟨d, n2, k, w, g1, g2, g3, g4, g5⟩ := hn
    rw [R.symm.atq g1] at g3
    obtain rfl := hf.unique _ _ _ _ g3 h5 h6
    exact ⟨c, _, k, w, R.step.bat, h3, h7, R.toModel ▸ g4, g5⟩

theorem Refactored.ofName {e' : List Name × Nat} {p : Name} (hn : HasName b' e'.1 e'.2 p) : ∃ e, Counter c c' q e' e ∧ HasName b e.1 e.2 p := by
  by_cases hq : e'.1 = q
  · rw [hq] at hn
    obtain ⟨y, name, h1, h2, h3, h4, h5⟩ := R.symm.counterpart hn
    exact ⟨(q, y), Or.inr ⟨rfl, hq, h3, name, e'.2, h1, h2, .refl _, h4⟩, h5⟩
  · exact ⟨e', Or.inl ⟨hq, rfl⟩, R.symm.hasName hq hn⟩

theorem Refactored.chain (hf : MethodFacts c') {e' f' : List Name × Nat} (h : Relation.EqvGen (Same b') e' f') :
    (∀ e, Counter c c' q e' e → ∃ f, Counter c c' q f' f ∧ Relation.EqvGen (Same b) e f) ∧ ∀ f, Counter c c' q f' f → ∃ e, Counter c c' q e' e ∧ Relation.EqvGen (Same b) e f := by
  induction h with
  | rel _ _ h =>
    cases h with
    | name p h1 h2 =>
      constructor
      · intro e he
        obtain ⟨f, g1, g2⟩ := R.ofName (e' := (_, _)) h2
        exact ⟨f, g1, .rel _ _ (.name p (R.nameOf hf he h1) g2)⟩
      · intro e he
        obtain ⟨f, g1, g2⟩ := R.ofName (e' := (_, _)) h1
        exact ⟨f, g1, .rel _ _ (.name p g2 (R.nameOf hf he h2))⟩
    | connection path d s t p p2 hd hst hp hp2 h1 h2 =>
      obtain ⟨d', k1, k2⟩ := R.symm.locals hd
      constructor
      · intro e he
        obtain ⟨f, g1, g2⟩ := R.ofName (e' := (_, _)) h2
        exact ⟨f, g1, .rel _ _ (.connection path d' s t p p2 k1 (k2 ▸ hst) (R.toModel ▸ hp) (R.toModel ▸ hp2) (R.nameOf hf he h1) g2)⟩
      · intro e he
        obtain ⟨f, g1, g2⟩ := R.ofName (e' := (_, _)) h1
        exact ⟨f, g1, .rel _ _ (.connection path d' s t p p2 k1 (k2 ▸ hst) (R.toModel ▸ hp) (R.toModel ▸ hp2) g2 (R.nameOf hf he h2))⟩
    | @«alias» path x y d hd hx hy ha =>
      by_cases hq : path = q
      · subst hq
        obtain rfl := R.symm.atq hd
        constructor
        · rintro e (⟨h1, rfl⟩ | ⟨h1, h2, h3, name, v', h4, h5, h6, h7⟩)
          · exact absurd rfl h1
          · exact ⟨e, Or.inr ⟨h1, h2, h3, name, v', h4, h5, .trans (.symm ha) h6, h7⟩, .refl _⟩
        · rintro e (⟨h1, rfl⟩ | ⟨h1, h2, h3, name, v', h4, h5, h6, h7⟩)
          · exact absurd rfl h1
          · exact ⟨e, Or.inr ⟨h1, h2, h3, name, v', h4, h5, .trans ha h6, h7⟩, .refl _⟩
      · obtain ⟨d', k1, k2⟩ := R.symm.other hd hq
        have s := sameStatements_of_stmts k2
        have hs : Same b (path, x) (path, y) := .alias d' k1 (s.live hx) (s.live hy) (k2 ▸ ha)
        constructor
        · rintro e (⟨h1, rfl⟩ | ⟨h1, h2, _⟩)
          · exact ⟨_, Or.inl ⟨hq, rfl⟩, .rel _ _ hs⟩
          · exact absurd h2 hq
        · rintro e (⟨h1, rfl⟩ | ⟨h1, h2, _⟩)
          · exact ⟨_, Or.inl ⟨hq, rfl⟩, .rel _ _ hs⟩
          · exact absurd h2 hq
  | refl _ => exact ⟨fun e he => ⟨e, he, .refl _⟩, fun e he => ⟨e, he, .refl _⟩⟩
  | symm _ _ _ ih =>
    constructor
    · intro e he
      obtain ⟨f, h1, h2⟩ := ih.2 e he
      exact ⟨f, h1, h2.symm⟩
    · intro e he
      obtain ⟨f, h1, h2⟩ := ih.1 e he
      exact ⟨f, h1, h2.symm⟩
  | trans _ _ _ _ _ ih1 ih2 =>
    constructor
    · intro e he
      obtain ⟨f, h1, h2⟩ := ih1.1 e he
      obtain ⟨g, h3, h4⟩ := ih2.1 f h1
      exact ⟨g, h3, h2.trans _ _ _ h4⟩
    · intro e he
      obtain ⟨f, h1, h2⟩ := ih2.2 e he
      obtain ⟨g, h3, h4⟩ := ih1.2 f h1
      exact ⟨g, h3, h4.trans _ _ _ h2⟩

theorem Refactored.given (hf : MethodFacts c) (hf' : MethodFacts c') {e' e : List Name × Nat} (he : Counter c c' q e' e) (hl : ∃ d, BAt b' e'.1 d ∧ d.Live e'.2) (hg : GivenVar b e.1 e.2) : GivenVar b' e'.1 e'.2 := by
  refine ⟨hl, fun path' d n s y hd hs hc h1 h2 hy hsame => ?_⟩
  obtain ⟨f, g1, g2⟩ := (R.chain hf' hsame).1 e he
  rcases g1 with ⟨g1, rfl⟩ | ⟨g1, g3, g4, name, v', g5, g6, g7, g8⟩
  · obtain ⟨d', k1, k2⟩ := R.symm.other hd g1
    have ss := sameStatements_of_stmts k2
    exact hg.2 path' d' n s y k1 (by unfold Body.Has at *; rw [← k2]; exact hs) hc h1 h2 (ss.live hy) g2
  · dsimp only at g3
    subst g3
    obtain rfl := R.symm.atq hd
    have ho := named_output (R.valid'.methods _ _ R.step.symm.bat) hs hc h1 h2 g7 g6
    have : ∃ z, (z, name) ∈ (c.stmts 0).filterMap outputOf := by
      have h := congrArg (fun l => l.outputs.map (·.name)) R.iface.locals
      simp only [Body.locals, List.map_map] at h
      have : name ∈ ((d.stmts 0).filterMap outputOf).map ((fun v : VarInfo => v.name) ∘ fun x => ⟨x.2, d.shapes.getD x.1 []⟩) := List.mem_map.2 ⟨_, ho, rfl⟩
      rw [← h] at this
      obtain ⟨⟨z, nm⟩, hz, rfl⟩ := List.mem_map.1 this
      exact ⟨z, hz⟩
    obtain ⟨z, hz⟩ := this
    obtain ⟨n0, s0, y0, j1, j2, j3, j4, j5⟩ := output_computed (R.valid.methods _ _ R.step.bat) hz
    have hzl : c.Live z := .output hz
    have hyl := hf.first _ _ _ _ j1 j2 j3 j4 hzl j5
    have e1 := R.same_named g4 g8 hzl (Or.inr hz)
    have e2 : Same b (path', z) (path', y0) := .alias c R.step.bat hzl hyl j5
    refine hg.2 path' c n0 s0 y0 R.step.bat j1 j2 j3 j4 hyl (g2.trans _ _ _ ?_)
    have : f = (path', f.2) := by rw [← g1]
    rw [this]
    exact Relation.EqvGen.trans _ _ _ (.rel _ _ e1) (.rel _ _ e2)

end refactored

/-- a given variable of the replaced method is the same as one with a name -/
theorem Refactored.givenNamed [Field K] {c c' b b' : Body K F} {q : List Name} (R : Refactored c c' b q b') (hf : MethodFacts c) (x : Nat) (hg : GivenVar b q x) :
    ∃ v name, c.Live v ∧ c.Named v name ∧ GivenVar b q v ∧ ∀ (P : Power K) (den : F → List (Val K) → Nat → Val K) ρ, MethodSolution P den c ρ → ρ x = ρ v := by
  induction x using Nat.strong_induction_on with
  | _ x ih =>
    obtain ⟨d, hd, hl⟩ := hg.1
    obtain rfl := R.atq hd
    obtain ⟨n, s, h1, h2, h3⟩ := hf.cover x hl
    by_cases hc : s.Computes
    · exact absurd (.refl _) (hg.2 q d n s x hd h1 hc h2 h3 hl)
    cases s with
    | input name sh v =>
      obtain rfl : x = n := by simp [Stmt.count] at h3; omega
      exact ⟨x, name, hl, Or.inl ⟨sh, Or.inl (mem_inputOf.2 ⟨_, h1⟩)⟩, hg, fun _ _ _ _ => rfl⟩
    | declare name sh v =>
      obtain rfl : x = n := by simp [Stmt.count] at h3; omega
      exact ⟨x, name, hl, Or.inl ⟨sh, Or.inr (mem_declaredOf.2 ⟨_, h1⟩)⟩, hg, fun _ _ _ _ => rfl⟩
    | expr i =>
      obtain rfl : x = n := by simp [Stmt.count] at h3; omega
      cases i with
      | pos y =>
        have hy : d.Live y := .operand hl h1 h2 h3 (by simp [Stmt.operands, Instr.first])
        have hlt := operands_before (R.valid.methods _ _ hd) h1 (x := y) (by simp [Stmt.operands, Instr.first])
        have hgy : GivenVar b q y := by
          refine ⟨⟨d, hd, hy⟩, fun path' d' n s z k1 k2 k3 k4 k5 k6 k7 => hg.2 path' d' n s z k1 k2 k3 k4 k5 k6 ?_⟩
          exact Relation.EqvGen.trans _ _ _ (.rel _ _ (.alias d hd hl hy (.plus h1))) k7
        obtain ⟨v, name, g1, g2, g3, g4⟩ := ih y hlt hgy
        refine ⟨v, name, g1, g2, g3, fun P den ρ hρ => ?_⟩
        rw [← g4 P den ρ hρ, hρ.expr x _ h1 hl]
        simp [Instr.meaning, hlt]
      | _ => exact absurd trivial hc
    | call => exact absurd trivial hc
    | index => exact absurd trivial hc
    | output => exact absurd trivial hc
    | _ => simp [Stmt.count] at h3; omega

end Csdl.Prog
