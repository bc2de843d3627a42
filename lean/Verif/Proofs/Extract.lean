import Verif.Proofs.Restructure
import Verif.Proofs.Apart
import Verif.Proofs.Reorder
import Verif.Proofs.OneModel
import Verif.Proofs.Dead2
/-
Moving the last statements of the main method to a submodel (C105): statements, shapes, aliases, what matters.
-/
namespace Csdl.Prog
open Csdl Csdl.Arith
variable {K F : Type}

theorem onVars_operands (f : Nat → Nat) (s : Stmt K F) : (s.onVars f).operands = s.operands.map f := by
  cases s with
  | expr i => cases i <;> rfl
  | _ => rfl

theorem onVars_count (f : Nat → Nat) (s : Stmt K F) : (s.onVars f).count = s.count := by cases s <;> rfl

theorem onVars_id (i : Instr K) : onVars (fun x => x) i = i := by cases i <;> rfl

section
variable {b : Body K F} {μ : Nat → Nat}

theorem Inlined.subs {k N : Nat} {sub rest : Body K F} (h : Inlined b μ k N sub rest) : sub.subs = [] ∧ rest.subs = [] := by
  induction h with
  | done => exact ⟨rfl, rfl⟩
  | known _ _ _ _ _ ih => exact ih
  | stmt _ _ ih => exact ih

/-- what becomes of the statements of the submodel -/
theorem Inlined.to {k N : Nat} {sub rest : Body K F} (h : Inlined b μ k N sub rest) : ∀ m s, (m, s) ∈ sub.stmts k →
    (∃ name shape val, s = .declare name shape val ∧ b.SourceNamed (μ m) name ∧ b.shapes.getD (μ m) [] = shape) ∨ ∃ m', (m', s.onVars μ) ∈ rest.stmts N ∧ ∀ j < s.count, μ (m + j) = m' + j := by
  induction h with
  | done => intro m s h; cases h
  | @known k N y name shape sub rest val h1 h2 h3 _ ih =>
    intro m s h
    simp only [Body.stmts, List.mem_cons, Prod.mk.injEq] at h
    rcases h with ⟨rfl, rfl⟩ | h
    · subst h3
      exact Or.inl ⟨name, shape, val, rfl, h1, h2⟩
    · exact ih m s h
  | @stmt k N s sub rest h1 _ ih =>
    intro m t h
    simp only [Body.stmts, List.mem_cons, Prod.mk.injEq] at h
    rcases h with ⟨rfl, rfl⟩ | h
    · exact Or.inr ⟨N, by simp [Body.stmts], h1⟩
    · rcases ih m t h with h | ⟨m', h2, h3⟩
      · exact Or.inl h
      · exact Or.inr ⟨m', by rw [Body.stmts, onVars_count]; exact List.mem_cons_of_mem _ h2, h3⟩

/-- where the statements come from -/
theorem Inlined.from {k N : Nat} {sub rest : Body K F} (h : Inlined b μ k N sub rest) : ∀ m' t, (m', t) ∈ rest.stmts N → ∃ m s, (m, s) ∈ sub.stmts k ∧ t = s.onVars μ ∧ ∀ j < s.count, μ (m + j) = m' + j := by
  induction h with
  | done => intro m s h; cases h
  | known val h1 h2 h3 _ ih =>
    intro m' t h
    obtain ⟨m, s, h4, h5⟩ := ih m' t h
    exact ⟨m, s, List.mem_cons_of_mem _ h4, h5⟩
  | @stmt k N s sub rest h1 _ ih =>
    intro m' t h
    simp only [Body.stmts, List.mem_cons, Prod.mk.injEq, onVars_count] at h
    rcases h with ⟨rfl, rfl⟩ | h
    · exact ⟨k, s, by simp [Body.stmts], rfl, h1⟩
    · obtain ⟨m, u, h4, h5⟩ := ih m' t h
      exact ⟨m, u, List.mem_cons_of_mem _ h4, h5⟩

theorem step_onVars (s : Stmt K F) (ss tt : List Shape) (h : ∀ x ∈ s.operands, tt.getD (μ x) [] = ss.getD x []) : ∃ e : List Shape, stepShapes ss s = ss ++ e ∧ stepShapes tt (s.onVars μ) = tt ++ e ∧ e.length = s.count := by
  cases s with
  | input n s v => exact ⟨[s], rfl, rfl, rfl⟩
  | declare n s v => exact ⟨[s], rfl, rfl, rfl⟩
  | output n s v => exact ⟨[s], rfl, rfl, rfl⟩
  | register n x => exact ⟨[], by simp [stepShapes], by simp [stepShapes, Stmt.onVars], rfl⟩
  | connect n x => exact ⟨[], by simp [stepShapes], by simp [stepShapes, Stmt.onVars], rfl⟩
  | assign n k x => exact ⟨[], by simp [stepShapes], by simp [stepShapes, Stmt.onVars], rfl⟩
  | call f args outs => exact ⟨outs, rfl, rfl, rfl⟩
  | expr i =>
    refine ⟨[ss.getD i.first []], rfl, ?_, rfl⟩
    have e : (onVars μ i).first = μ i.first := by cases i <;> rfl
    simp only [stepShapes, Stmt.onVars, e]
    rw [h i.first (by simp [Stmt.operands])]
  | index x key =>
    refine ⟨[partShape (ss.getD x []) key], rfl, ?_, rfl⟩
    simp only [stepShapes, Stmt.onVars]
    rw [h x (by simp [Stmt.operands])]

theorem numVars_cons (s : Nat × Stmt K F) (L : List (Nat × Stmt K F)) : numVars (s :: L) = s.2.count + numVars L := by simp [numVars]

/-- the shapes of the variables -/
theorem Inlined.shapes {k N : Nat} {sub rest : Body K F} (h : Inlined b μ k N sub rest) (hsrc : ∀ y name, b.SourceNamed y name → y < numVars (b.stmts 0)) :
    (∀ m s, (m, s) ∈ sub.stmts k → ∀ x ∈ s.operands, x < m) → ∀ ss tt : List Shape, ss.length = k → tt.length = N → (∀ y < numVars (b.stmts 0), y < N ∧ tt.getD y [] = b.shapes.getD y []) →
    (∀ x < k, μ x < N ∧ tt.getD (μ x) [] = ss.getD x []) → ∀ x < k + numVars (sub.stmts k), μ x < N + numVars (rest.stmts N) ∧
      ((rest.stmts N).foldl (fun ss s => stepShapes ss s.2) tt).getD (μ x) [] = ((sub.stmts k).foldl (fun ss s => stepShapes ss s.2) ss).getD x [] := by
  induction h with
  | done k N => 
    intro _ ss tt _ _ _ h x hx
    simp only [Body.stmts, numVars, List.map_nil, List.sum_nil, Nat.add_zero, List.foldl_nil] at hx ⊢
    exact h x hx
  | @known k N y name shape sub rest val h1 h2 h3 _ ih =>
    intro hop ss tt hs ht hb hx x hx'
    rw [Body.stmts, numVars_cons] at hx'
    simp only [Body.stmts, List.foldl_cons]
    have hc : (Stmt.declare name shape val : Stmt K F).count = 1 := rfl
    rw [hc] at hx' ⊢
    refine ih (fun m s hm => hop m s (List.mem_cons_of_mem _ hm)) (stepShapes ss (.declare name shape val)) tt (by simp [stepShapes, hs]) ht hb ?_ x (by omega)
    intro z hz
    rcases Nat.lt_succ_iff_lt_or_eq.1 hz with hz | rfl
    · obtain ⟨g1, g2⟩ := hx z hz
      refine ⟨g1, ?_⟩
      rw [g2]
      simp only [stepShapes, List.getD_eq_getElem?_getD]
      rw [List.getElem?_append_left (by omega)]
    · obtain ⟨g1, g2⟩ := hb y (hsrc y name h1)
      rw [h3]
      refine ⟨g1, ?_⟩
      rw [g2, h2]
      simp [stepShapes, ← hs]
  | @stmt k N s sub rest h1 _ ih =>
    intro hop ss tt hs ht hb hx x hx'
    obtain ⟨e, e1, e2, e3⟩ := step_onVars (μ := μ) s ss tt fun x hx2 => (hx x (hop k s (by simp [Body.stmts]) x hx2)).2
    rw [Body.stmts, numVars_cons] at hx'
    simp only [Body.stmts, List.foldl_cons, numVars_cons, onVars_count]
    dsimp only at hx'
    rw [e1, e2]
    have := ih (fun m s hm => hop m s (List.mem_cons_of_mem _ hm)) (ss ++ e) (tt ++ e) (by simp [hs, e3]) (by simp [ht, e3]) ?_ ?_ x (by omega)
    · exact ⟨by have := this.1; omega, this.2⟩
    · intro y hy
      obtain ⟨g1, g2⟩ := hb y hy
      refine ⟨by omega, ?_⟩
      rw [← g2]
      simp only [List.getD_eq_getElem?_getD]
      rw [List.getElem?_append_left (by omega)]
    · intro z hz
      by_cases hz' : z < k
      · obtain ⟨g1, g2⟩ := hx z hz'
        refine ⟨by omega, ?_⟩
        simp only [List.getD_eq_getElem?_getD] at g2 ⊢
        rw [List.getElem?_append_left (by omega), List.getElem?_append_left (by omega)]
        exact g2
      · obtain ⟨j, rfl⟩ : ∃ j, z = k + j := ⟨z - k, by omega⟩
        rw [h1 j (by omega)]
        refine ⟨by omega, ?_⟩
        simp only [List.getD_eq_getElem?_getD]
        rw [List.getElem?_append_right (by omega), List.getElem?_append_right (by omega)]
        congr 2
        omega

end

/-- a program with a submodel all of whose names are promoted, and the program with its statements in the main model -/
structure Extract [Zero K] (b : Body K F) (i : Bool) (n : Name) (sub rest : Body K F) (μ : Nat → Nat) : Prop where
  inl : Inlined b μ 0 (numVars (b.stmts 0)) sub rest
  split : ValidProgram (b.addPromoted i n sub)
  flat : ValidProgram (b.append rest)
  fresh : NewSub (b.append rest) n

theorem stmts_addPromoted (b : Body K F) (i : Bool) (n : Name) (sub : Body K F) : (b.addPromoted i n sub).stmts 0 = b.stmts 0 := by
  unfold Body.addPromoted
  rw [stmts_append]
  simp [Body.stmts]

theorem subs_addPromoted (b : Body K F) (i : Bool) (n : Name) (sub : Body K F) : (b.addPromoted i n sub).subs = b.subs ++ [(n, none, sub)] := by
  unfold Body.addPromoted
  rw [subs_append]
  rfl

theorem locals_addPromoted (b : Body K F) (i : Bool) (n : Name) (sub : Body K F) : (b.addPromoted i n sub).locals = b.locals := by
  simp only [Body.locals, Body.shapes, stmts_addPromoted]

section
variable [Zero K] {b : Body K F} {i : Bool} {n : Name} {sub rest : Body K F} {μ : Nat → Nat} (E : Extract b i n sub rest μ)
include E

theorem Extract.stmts : (b.append rest).stmts 0 = b.stmts 0 ++ rest.stmts (numVars (b.stmts 0)) := by rw [stmts_append, Nat.zero_add]

theorem Extract.subs : (b.append rest).subs = b.subs := by rw [subs_append, E.inl.subs.2, List.append_nil]

theorem Extract.okSplit : MethodOk (b.addPromoted i n sub) := E.split.methods _ _ (.here _)

theorem Extract.okFlat : MethodOk (b.append rest) := E.flat.methods _ _ (.here _)

theorem Extract.atSub : BAt (b.addPromoted i n sub) [n] sub := .down (p := none) (by rw [subs_addPromoted]; simp) (.here _)

theorem Extract.okSub : MethodOk sub := E.split.methods _ _ E.atSub

theorem Extract.hasFirst {m : Nat} {s : Stmt K F} (h : b.Has m s) : (b.append rest).Has m s := by
  unfold Body.Has at h ⊢
  rw [E.stmts]
  exact List.mem_append_left _ h

theorem Extract.hasSplit {m : Nat} {s : Stmt K F} : (b.addPromoted i n sub).Has m s ↔ b.Has m s := by
  unfold Body.Has
  rw [stmts_addPromoted]

theorem Extract.operandLt {m : Nat} {s : Stmt K F} (h : b.Has m s) {x : Nat} (hx : x ∈ s.operands) : x < m := E.okSplit.operand_lt (E.hasSplit.2 h) hx

theorem Extract.namedLt {x : Nat} {name : Name} (h : b.Named x name) : x < numVars (b.stmts 0) := by
  have := E.okSplit.named_lt (y := x) (name := name) (by unfold Body.Named; rw [stmts_addPromoted]; exact h)
  rwa [stmts_addPromoted] at this

omit E in
theorem named_of_source {x : Nat} {name : Name} (h : b.SourceNamed x name) : b.Named x name := h.elim (fun ⟨s, h⟩ => Or.inl ⟨s, Or.inl h⟩) Or.inr

theorem Extract.sourceLt {x : Nat} {name : Name} (h : b.SourceNamed x name) : x < numVars (b.stmts 0) := E.namedLt (named_of_source h)

theorem Extract.shapeFirst {x : Nat} (hx : x < numVars (b.stmts 0)) : (b.append rest).shapes.getD x [] = b.shapes.getD x [] := by
  unfold Body.shapes
  rw [E.stmts, shapesOf_prefix _ _ hx]

/-- the shapes of the variables of the submodel -/
theorem Extract.shape {x : Nat} (hx : x < numVars (sub.stmts 0)) : μ x < numVars ((b.append rest).stmts 0) ∧ (b.append rest).shapes.getD (μ x) [] = sub.shapes.getD x [] := by
  have h := E.inl.shapes (fun y name h => E.sourceLt h) (fun m s h x hx => E.okSub.operand_lt h hx) [] b.shapes rfl (by
    obtain ⟨e, h1, h2⟩ := shapes_fold (b.stmts 0) []
    rw [Body.shapes, shapesOf, h1]
    simp only [List.nil_append]
    omega) (fun y hy => ⟨hy, rfl⟩) (fun x hx => by omega) x (by omega)
  refine ⟨?_, ?_⟩
  · rw [E.stmts, numVars_append]; exact h.1
  · rw [Body.shapes, E.stmts, shapesOf, List.foldl_append]; exact h.2

/-- the statements of the submodel -/
theorem Extract.to {m : Nat} {s : Stmt K F} (h : sub.Has m s) :
    (∃ name shape val, s = .declare name shape val ∧ b.SourceNamed (μ m) name) ∨ ∃ m', (b.append rest).Has m' (s.onVars μ) ∧ ∀ j < s.count, μ (m + j) = m' + j := by
  rcases E.inl.to m s h with ⟨name, shape, val, h1, h2, _⟩ | ⟨m', h1, h2⟩
  · exact Or.inl ⟨name, shape, val, h1, h2⟩
  · refine Or.inr ⟨m', ?_, h2⟩
    unfold Body.Has
    rw [E.stmts]
    exact List.mem_append_right _ h1

theorem Extract.aliasFirst {x y : Nat} (h : Alias (b.stmts 0) x y) : Alias ((b.append rest).stmts 0) x y := by
  induction h with
  | refl x => exact .refl x
  | symm _ ih => exact .symm ih
  | trans _ _ ih1 ih2 => exact .trans ih1 ih2
  | plus h => exact .plus (E.hasFirst h)
  | @part x y u v k l h1 h2 _ e ih =>
    have g1 := E.operandLt h1 (x := u) (by simp [Stmt.operands])
    have g2 := E.operandLt h2 (x := v) (by simp [Stmt.operands])
    have g3 := has_bound (c := b) h1
    have g4 := has_bound (c := b) h2
    refine .part (E.hasFirst h1) (E.hasFirst h2) ih ?_
    have e1 := E.shapeFirst (x := u) (by omega)
    have e2 := E.shapeFirst (x := v) (by omega)
    unfold Body.shapes at e1 e2
    rw [e1, e2]
    exact e

theorem Extract.aliasSub {x y : Nat} (h : Alias (sub.stmts 0) x y) : Alias ((b.append rest).stmts 0) (μ x) (μ y) := by
  have kept : ∀ {m s}, sub.Has m s → (∀ a c d, s ≠ .declare a c d) → s.count = 1 → (b.append rest).Has (μ m) (s.onVars μ) := by
    intro m s h hs hc
    rcases E.to h with ⟨a, c, d, e, _⟩ | ⟨m', h1, h2⟩
    · exact absurd e (hs a c d)
    · have := h2 0 (by omega)
      simp only [Nat.add_zero] at this
      rw [this]; exact h1
  induction h with
  | refl x => exact .refl _
  | symm _ ih => exact .symm ih
  | trans _ _ ih1 ih2 => exact .trans ih1 ih2
  | plus h => exact .plus (kept h (by simp) rfl)
  | @part x y u v k l h1 h2 _ e ih =>
    have g1 := E.okSub.operand_lt h1 (y := u) (by simp [Stmt.operands])
    have g2 := E.okSub.operand_lt h2 (y := v) (by simp [Stmt.operands])
    have g3 := has_bound (c := sub) h1
    have g4 := has_bound (c := sub) h2
    refine .part (kept h1 (by simp) rfl) (kept h2 (by simp) rfl) ih ?_
    have e1 := (E.shape (x := u) (by omega)).2
    have e2 := (E.shape (x := v) (by omega)).2
    unfold Body.shapes at e1 e2
    rw [e1, e2]
    exact e

theorem Extract.namedFirst {x : Nat} {name : Name} (h : b.Named x name) : (b.append rest).Named x name := by
  unfold Body.Named at h ⊢
  simp only [E.stmts, List.filterMap_append, List.mem_append]
  rcases h with ⟨s, h | h⟩ | h
  · exact Or.inl ⟨s, Or.inl (Or.inl h)⟩
  · exact Or.inl ⟨s, Or.inr (Or.inl h)⟩
  · exact Or.inr (Or.inl h)

omit [Zero K] E in
theorem input_has {c : Body K F} {x : Nat} {name : Name} {s : Shape} : (x, name, s) ∈ (c.stmts 0).filterMap inputOf ↔ ∃ v, c.Has x (.input name s v) := by
  rw [List.mem_filterMap]
  constructor
  · rintro ⟨⟨m, t⟩, h1, h2⟩
    cases t <;> simp only [inputOf, Option.some.injEq, Prod.mk.injEq, reduceCtorEq] at h2
    obtain ⟨rfl, rfl, rfl⟩ := h2
    exact ⟨_, h1⟩
  · rintro ⟨v, h⟩
    exact ⟨_, h, rfl⟩

omit [Zero K] E in
theorem declared_has {c : Body K F} {x : Nat} {name : Name} {s : Shape} : (x, name, s) ∈ (c.stmts 0).filterMap declaredOf ↔ ∃ v, c.Has x (.declare name s v) := by
  rw [List.mem_filterMap]
  constructor
  · rintro ⟨⟨m, t⟩, h1, h2⟩
    cases t <;> simp only [declaredOf, Option.some.injEq, Prod.mk.injEq, reduceCtorEq] at h2
    obtain ⟨rfl, rfl, rfl⟩ := h2
    exact ⟨_, h1⟩
  · rintro ⟨v, h⟩
    exact ⟨_, h, rfl⟩

omit [Zero K] E in
theorem output_has {c : Body K F} {x : Nat} {name : Name} : (x, name) ∈ (c.stmts 0).filterMap outputOf ↔ (∃ m, c.Has m (.register name x)) ∨ ∃ s v, c.Has x (.output name s v) := by
  rw [List.mem_filterMap]
  constructor
  · rintro ⟨⟨m, t⟩, h1, h2⟩
    cases t <;> simp only [outputOf, Option.some.injEq, Prod.mk.injEq, reduceCtorEq] at h2
    · obtain ⟨rfl, rfl⟩ := h2
      exact Or.inr ⟨_, _, h1⟩
    · obtain ⟨rfl, rfl⟩ := h2
      exact Or.inl ⟨_, h1⟩
  · rintro (⟨v, h⟩ | ⟨s, v, h⟩)
    · exact ⟨_, h, rfl⟩
    · exact ⟨_, h, rfl⟩

/-- a statement that is not a declaration -/
theorem Extract.kept {m : Nat} {s : Stmt K F} (h : sub.Has m s) (hs : ∀ a c d, s ≠ .declare a c d) : ∃ m', (b.append rest).Has m' (s.onVars μ) ∧ ∀ j < s.count, μ (m + j) = m' + j := by
  rcases E.to h with ⟨a, c, d, e, _⟩ | h
  · exact absurd e (hs a c d)
  · exact h

/-- a statement with one result that is not a declaration -/
theorem Extract.keptOne {m : Nat} {s : Stmt K F} (h : sub.Has m s) (hs : ∀ a c d, s ≠ .declare a c d) (hc : s.count = 1) : (b.append rest).Has (μ m) (s.onVars μ) := by
  obtain ⟨m', h1, h2⟩ := E.kept h hs
  have := h2 0 (by omega)
  simp only [Nat.add_zero] at this
  rw [this]; exact h1

theorem Extract.inputSub {x : Nat} {name : Name} {s : Shape} (h : (x, name, s) ∈ (sub.stmts 0).filterMap inputOf) : (μ x, name, s) ∈ ((b.append rest).stmts 0).filterMap inputOf := by
  obtain ⟨v, h⟩ := input_has.1 h
  exact input_has.2 ⟨v, E.keptOne h (by simp) rfl⟩

theorem Extract.outputSub {x : Nat} {name : Name} (h : (x, name) ∈ (sub.stmts 0).filterMap outputOf) : (μ x, name) ∈ ((b.append rest).stmts 0).filterMap outputOf := by
  rcases output_has.1 h with ⟨m, h⟩ | ⟨s, v, h⟩
  · obtain ⟨m', h1, _⟩ := E.kept h (by simp)
    exact output_has.2 (Or.inl ⟨m', h1⟩)
  · exact output_has.2 (Or.inr ⟨s, v, E.keptOne h (by simp) rfl⟩)

theorem Extract.namedSub {x : Nat} {name : Name} (h : sub.Named x name) : (b.append rest).Named (μ x) name := by
  rcases h with ⟨s, h | h⟩ | h
  · exact Or.inl ⟨s, Or.inl (E.inputSub h)⟩
  · obtain ⟨v, h⟩ := declared_has.1 h
    rcases E.to h with ⟨a, c, d, e, h1⟩ | ⟨m', h1, h2⟩
    · cases e
      exact E.namedFirst (named_of_source h1)
    · have := h2 0 (by simp [Stmt.count])
      simp only [Nat.add_zero] at this
      rw [this]
      exact Or.inl ⟨s, Or.inr (declared_has.2 ⟨v, h1⟩)⟩
  · exact Or.inr (E.outputSub h)

theorem Extract.liveFirst {x : Nat} (h : b.Live x) : (b.append rest).Live x := by
  induction h with
  | input h => exact .input (by rw [E.stmts, List.filterMap_append]; exact List.mem_append_left _ h)
  | output h => exact .output (by rw [E.stmts, List.filterMap_append]; exact List.mem_append_left _ h)
  | operand _ h1 h2 h3 h4 ih => exact .operand ih (E.hasFirst h1) h2 h3 h4
  | result _ h1 h2 h3 h4 h5 ih => exact .result ih (E.hasFirst h1) h2 h3 h4 h5
  | part _ h1 h2 h3 ih => exact .part ih (E.hasFirst h1) (E.hasFirst h2) (E.aliasFirst h3)
  | assigned h => exact .assigned (E.hasFirst h)
  | same _ h1 h2 ih => exact .same ih (E.namedFirst h1) (E.namedFirst h2)

theorem Extract.liveSub {x : Nat} (h : sub.Live x) : (b.append rest).Live (μ x) := by
  induction h with
  | input h => exact .input (E.inputSub h)
  | output h => exact .output (E.outputSub h)
  | @operand x y m s _ h1 h2 h3 h4 ih =>
    obtain ⟨m', g1, g2⟩ := E.kept h1 (by rintro a c d rfl; cases h4)
    obtain ⟨j, rfl⟩ : ∃ j, y = m + j := ⟨y - m, by omega⟩
    rw [g2 j (by omega)] at ih
    exact .operand ih g1 (by omega) (by rw [onVars_count]; omega) (by rw [onVars_operands]; exact List.mem_map_of_mem h4)
  | @result x y m s _ h1 h2 h3 h4 h5 ih =>
    by_cases hs : ∃ a c d, s = .declare a c d
    · obtain ⟨a, c, d, rfl⟩ := hs
      simp only [Stmt.count] at h3 h5
      have : x = y := by omega
      rw [this]; exact ih
    · obtain ⟨m', g1, g2⟩ := E.kept h1 (by rintro a c d rfl; exact hs ⟨a, c, d, rfl⟩)
      obtain ⟨j, rfl⟩ : ∃ j, y = m + j := ⟨y - m, by omega⟩
      obtain ⟨l, rfl⟩ : ∃ l, x = m + l := ⟨x - m, by omega⟩
      rw [g2 j (by omega)] at ih
      rw [g2 l (by omega)]
      exact .result ih g1 (by omega) (by rw [onVars_count]; omega) (by omega) (by rw [onVars_count]; omega)
  | part _ h1 h2 h3 ih => exact .part ih (E.keptOne h1 (by simp) rfl) (E.keptOne h2 (by simp) rfl) (E.aliasSub h3)
  | assigned h =>
    obtain ⟨m', g1, _⟩ := E.kept h (by simp)
    exact .assigned g1
  | same _ h1 h2 ih => exact .same ih (E.namedSub h1) (E.namedSub h2)

/-- where the statements of the program without the submodel come from -/
theorem Extract.from {m : Nat} {s : Stmt K F} (h : (b.append rest).Has m s) : b.Has m s ∨ (numVars (b.stmts 0) ≤ m ∧ ∃ m0 t, sub.Has m0 t ∧ s = t.onVars μ ∧ ∀ j < t.count, μ (m0 + j) = m + j) := by
  unfold Body.Has at h
  rw [E.stmts, List.mem_append] at h
  rcases h with h | h
  · exact Or.inl h
  · exact Or.inr ⟨stmts_ge _ _ _ _ h, E.inl.from m s h⟩

omit [Zero K] E in
theorem Inlined.ge {k N : Nat} {sub rest : Body K F} (h : Inlined b μ k N sub rest) {m : Nat} {s : Stmt K F} (hs : (m, s) ∈ sub.stmts k) (hd : ∀ a c d, s ≠ .declare a c d) {j : Nat} (hj : j < s.count) : N ≤ μ (m + j) := by
  rcases h.to m s hs with ⟨a, c, d, e, _⟩ | ⟨m', h1, h2⟩
  · exact absurd e (hd a c d)
  · have := stmts_ge _ _ _ _ h1
    rw [h2 j hj]; omega

omit [Zero K] E in
/-- different results stay different -/
theorem Inlined.inj {k N : Nat} {sub rest : Body K F} (h : Inlined b μ k N sub rest) : ∀ {m1 m2 : Nat} {s1 s2 : Stmt K F}, (m1, s1) ∈ sub.stmts k → (m2, s2) ∈ sub.stmts k → (∀ a c d, s1 ≠ .declare a c d) → (∀ a c d, s2 ≠ .declare a c d) →
    ∀ {j1 j2 : Nat}, j1 < s1.count → j2 < s2.count → μ (m1 + j1) = μ (m2 + j2) → m1 + j1 = m2 + j2 := by
  induction h with
  | done => intro m1 m2 s1 s2 h; cases h
  | known val h1 h2 h3 _ ih =>
    intro m1 m2 s1 s2 g1 g2 d1 d2
    simp only [Body.stmts, List.mem_cons, Prod.mk.injEq] at g1 g2
    rcases g1 with ⟨rfl, rfl⟩ | g1
    · exact absurd rfl (d1 _ _ _)
    · rcases g2 with ⟨rfl, rfl⟩ | g2
      · exact absurd rfl (d2 _ _ _)
      · exact ih g1 g2 d1 d2
  | @stmt k N s sub rest h1 h2 ih =>
    intro m1 m2 s1 s2 g1 g2 d1 d2 j1 j2 l1 l2 e
    simp only [Body.stmts, List.mem_cons, Prod.mk.injEq] at g1 g2
    rcases g1 with ⟨rfl, rfl⟩ | g1 <;> rcases g2 with ⟨rfl, rfl⟩ | g2
    · rw [h1 j1 l1, h1 j2 l2] at e; omega
    · have := h2.ge g2 d2 l2
      rw [h1 j1 l1] at e; omega
    · have := h2.ge g1 d1 l1
      rw [h1 j2 l2] at e; omega
    · exact ih g1 g2 d1 d2 l1 l2 e

theorem Extract.assignedFirst {y x : Nat} {key : Key} (h : b.Assigned y key x) : (b.append rest).Assigned y key x := by
  obtain ⟨m, z, h1, h2⟩ := h
  exact ⟨m, z, E.hasFirst h1, E.aliasFirst h2⟩

theorem Extract.assignedSub {y x : Nat} {key : Key} (h : sub.Assigned y key x) : (b.append rest).Assigned (μ y) key (μ x) := by
  obtain ⟨m, z, h1, h2⟩ := h
  obtain ⟨m', g1, _⟩ := E.kept h1 (by simp)
  exact ⟨m', μ z, g1, E.aliasSub h2⟩

omit [Zero K] E in
theorem core_le [Zero K] {c : Body K F} (hm : MethodOk c) {x d : Nat} (h : Core c x d) : d ≤ x := by
  induction h with
  | here => exact Nat.le_refl _
  | @step x y c h _ ih => have := operands_before hm h (x := y) (by simp [Stmt.operands, Instr.first]); omega

/-- outputs that are the same -/
theorem Extract.outputs {y y' : Nat} {name name' : Name} {s s' : Shape} {v v' : Val K} (h : (b.append rest).Has y (.output name s v)) (h' : (b.append rest).Has y' (.output name' s' v')) (ha : Alias ((b.append rest).stmts 0) y y') : y = y' := by
  rcases alias_core E.okFlat ha y y' (core_self h (by simp) (Nat.le_refl _) (by simp [Stmt.count])) (core_self h' (by simp) (Nat.le_refl _) (by simp [Stmt.count])) with e | ⟨u, w, k, l, h1, _⟩
  · exact e
  · have := (stmts_unique _ 0 _ _ _ _ y h h1 (Nat.le_refl _) (by simp [Stmt.count]) (Nat.le_refl _) (by simp [Stmt.count])).2
    cases this

theorem Extract.coreOutput {y z : Nat} {name : Name} {s : Shape} {v : Val K} (h : (b.append rest).Has y (.output name s v)) (ha : Alias ((b.append rest).stmts 0) z y) : Core (b.append rest) z y := by
  obtain ⟨c, hc⟩ := core_exists E.okFlat z z (Nat.le_refl _)
  rcases alias_core E.okFlat ha c y hc (core_self h (by simp) (Nat.le_refl _) (by simp [Stmt.count])) with rfl | ⟨u, w, k, l, _, h1, _⟩
  · exact hc
  · have := (stmts_unique _ 0 _ _ _ _ y h h1 (Nat.le_refl _) (by simp [Stmt.count]) (Nat.le_refl _) (by simp [Stmt.count])).2
    cases this

theorem Extract.coreFirst {z y : Nat} (h : Core (b.append rest) z y) (hz : z < numVars (b.stmts 0)) : Alias (b.stmts 0) z y := by
  induction h with
  | here => exact .refl _
  | @step x w c h1 _ ih =>
    rcases E.from h1 with h2 | ⟨h2, _⟩
    · have := E.operandLt h2 (x := w) (by simp [Stmt.operands, Instr.first])
      exact .trans (.plus h2) (ih (by omega))
    · omega

/-- the output that an assignment of the submodel is to -/
theorem Extract.assignOutput {m z x : Nat} {key : Key} (h : sub.Has m (.assign z key x)) : ∃ y name s v, sub.Has y (.output name s v) ∧ Alias (sub.stmts 0) z y ∧ numVars (b.stmts 0) ≤ μ y ∧ (b.append rest).Has (μ y) (.output name s v) := by
  obtain ⟨L1, L2, e, ⟨_, _, y, name, s, v, idx, h1, h2, _⟩, _⟩ := E.okSub.at h
  have hy : sub.Has y (.output name s v) := by unfold Body.Has; rw [e]; exact List.mem_append_left _ h1
  refine ⟨y, name, s, v, hy, ?_, ?_, E.keptOne hy (by simp) rfl⟩
  · rw [e]
    refine alias_mono (fun p u k hp => ?_) h2
    obtain ⟨A, B, rfl⟩ := List.append_of_mem hp
    have := (E.okSub.stmts A (p, .index u k) (B ++ (m, .assign z key x) :: L2) (by rw [e]; simp)).1
    rw [numVars_append]; omega
  · have := E.inl.ge hy (by simp) (j := 0) (by simp [Stmt.count]); simpa using this

/-- the parts of an output of the main model -/
theorem Extract.assignedFirst' {y x : Nat} {key : Key} {name : Name} {s : Shape} {v : Val K} (hy : b.Has y (.output name s v)) (h : (b.append rest).Assigned y key x) : b.Assigned y key x := by
  obtain ⟨m, z, h1, h2⟩ := h
  rcases E.from h1 with g | ⟨_, m0, t, g1, g2, _⟩
  · obtain ⟨L1, L2, e, hok, _⟩ := E.okSplit.at (E.hasSplit.2 g)
    have : z < numVars (b.stmts 0) := by
      have h3 := hok.1
      have h4 := numVars_split e
      rw [stmts_addPromoted] at h4
      omega
    exact ⟨m, z, g, E.coreFirst (E.coreOutput (E.hasFirst hy) h2) this⟩
  · cases t with
    | assign z0 k0 x0 =>
      cases g2
      obtain ⟨y0, name0, s0, v0, k1, k2, k3, k4⟩ := E.assignOutput g1
      have := E.outputs (E.hasFirst hy) k4 (.trans (.symm h2) (E.aliasSub k2))
      have hb := has_bound (c := b) hy
      simp only [Stmt.count] at hb
      omega
    | _ => cases g2

/-- the parts of an output of the submodel -/
theorem Extract.assignedSub' {y x : Nat} {key : Key} {name : Name} {s : Shape} {v : Val K} (hy : sub.Has y (.output name s v)) (h : (b.append rest).Assigned (μ y) key x) : ∃ x0, sub.Assigned y key x0 := by
  obtain ⟨m, z, h1, h2⟩ := h
  have hy' := E.keptOne hy (by simp) rfl
  rcases E.from h1 with g | ⟨_, m0, t, g1, g2, _⟩
  · obtain ⟨L1, L2, e, hok, _⟩ := E.okSplit.at (E.hasSplit.2 g)
    have h3 := hok.1
    have h4 := numVars_split e
    rw [stmts_addPromoted] at h4
    have h5 := core_le E.okFlat (E.coreOutput hy' h2)
    have h6 := E.inl.ge hy (by simp) (j := 0) (by simp [Stmt.count])
    rw [Nat.add_zero] at h6
    omega
  · cases t with
    | assign z0 k0 x0 =>
      cases g2
      obtain ⟨y0, name0, s0, v0, k1, k2, k3, k4⟩ := E.assignOutput g1
      have e := E.outputs hy' k4 (.trans (.symm h2) (E.aliasSub k2))
      have e' := E.inl.inj hy k1 (by simp) (by simp) (j1 := 0) (j2 := 0) (by simp [Stmt.count]) (by simp [Stmt.count]) e
      simp only [Nat.add_zero] at e'
      subst e'
      exact ⟨x0, m0, z0, g1, k2⟩
    | _ => cases g2

end
end Csdl.Prog
