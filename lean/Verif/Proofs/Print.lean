import Verif.Spec.Print
import Verif.Proofs.Reorder2
import Verif.Proofs.OneModel
import Verif.Props.Rotations
/-
Adding a printed output to a method.
-/
namespace Csdl.Prog
open Csdl
variable {K F : Type}


theorem stmts_append (e : Body K F) : ∀ (b : Body K F) (n : Nat), (b.append e).stmts n = b.stmts n ++ e.stmts (n + numVars (b.stmts n)) := by
  intro b
  induction b with
  | done => intro n; simp [Body.append, Body.stmts, numVars]
  | stmt s r ih => intro n; simp [Body.append, Body.stmts, numVars, ih, Nat.add_assoc]
  | add i m p sub r _ ih => intro n; simp only [Body.append, Body.stmts]; exact ih n

theorem subs_append (e : Body K F) : ∀ b : Body K F, (b.append e).subs = b.subs ++ e.subs := by
  intro b
  induction b with
  | done => simp [Body.append, Body.subs]
  | stmt s r ih => simpa [Body.append, Body.subs] using ih
  | add i m p sub r _ ih => simpa [Body.append, Body.subs] using ih

theorem numVars_append (L M : List (Nat × Stmt K F)) : numVars (L ++ M) = numVars L + numVars M := by simp [numVars]

/-- `c'` has the statements of `c` and then those for a new output -/
structure Grew (f : F) (args : List Nat) (sh : Shape) (nm : Name) (c c' : Body K F) : Prop where
  stmts : c'.stmts 0 = c.stmts 0 ++ [(numVars (c.stmts 0), .call f args [sh]), (numVars (c.stmts 0) + 1, .register nm (numVars (c.stmts 0)))]
  subs : c'.subs = c.subs

theorem grew_addOutput (f : F) (args : List Nat) (sh : Shape) (nm : Name) (c : Body K F) : Grew f args sh nm c (c.addOutput f args sh nm) := by
  constructor
  · rw [Body.addOutput, stmts_append]
    simp [Body.stmts, Stmt.count]
  · rw [Body.addOutput, subs_append]
    simp [Body.subs]

/-- variables are created before statements use them -/
theorem has_bound {c : Body K F} {n : Nat} {s : Stmt K F} (h : c.Has n s) : n + s.count ≤ numVars (c.stmts 0) := by
  obtain ⟨L1, L2, e⟩ := List.append_of_mem h
  have := stmts_numVars c 0 L1 n s L2 e
  rw [e, numVars_append]
  simp only [numVars, List.map_cons, List.sum_cons] at this ⊢
  omega

theorem numVars_split {c : Body K F} {L1 L2 : List (Nat × Stmt K F)} (e : c.stmts 0 = L1 ++ L2) : numVars L1 ≤ numVars (c.stmts 0) := by rw [e, numVars_append]; omega

section local_
variable [Zero K] {f : F} {args : List Nat} {sh : Shape} {nm : Name} {c c' : Body K F}

theorem MethodOk.at (hm : MethodOk c) {n : Nat} {s : Stmt K F} (h : c.Has n s) : ∃ L1 L2, c.stmts 0 = L1 ++ (n, s) :: L2 ∧ StmtOk L1 s ∧ n = numVars L1 := by
  obtain ⟨L1, L2, e⟩ := List.append_of_mem h
  exact ⟨L1, L2, e, hm.stmts _ _ _ e, by have := stmts_numVars c 0 L1 n s L2 e; omega⟩

theorem MethodOk.operand_lt (hm : MethodOk c) {n : Nat} {s : Stmt K F} (h : c.Has n s) {y : Nat} (hy : y ∈ s.operands) : y < n := by
  obtain ⟨L1, L2, e, ho, rfl⟩ := hm.at h
  cases s <;> simp only [Stmt.operands, List.not_mem_nil] at hy
  · exact ho.1 y hy
  · exact ho y hy
  · simp only [List.mem_singleton] at hy; subst hy; exact ho.1

theorem MethodOk.named_lt (hm : MethodOk c) {y : Nat} {name : Name} (h : c.Named y name) : y < numVars (c.stmts 0) := by
  rcases h with ⟨s, h | h⟩ | h
  · obtain ⟨⟨n, t⟩, h1, h2⟩ := List.mem_filterMap.1 h
    cases t <;> simp only [inputOf, Option.some.injEq, Prod.mk.injEq, reduceCtorEq] at h2
    obtain ⟨rfl, _⟩ := h2
    have := has_bound (c := c) h1
    simp only [Stmt.count] at this; omega
  · obtain ⟨⟨n, t⟩, h1, h2⟩ := List.mem_filterMap.1 h
    cases t <;> simp only [declaredOf, Option.some.injEq, Prod.mk.injEq, reduceCtorEq] at h2
    obtain ⟨rfl, _⟩ := h2
    have := has_bound (c := c) h1
    simp only [Stmt.count] at this; omega
  · obtain ⟨⟨n, t⟩, h1, h2⟩ := List.mem_filterMap.1 h
    cases t <;> simp only [outputOf, Option.some.injEq, Prod.mk.injEq, reduceCtorEq] at h2
    · obtain ⟨rfl, _⟩ := h2
      have := has_bound (c := c) h1
      simp only [Stmt.count] at this; omega
    · obtain ⟨rfl, _⟩ := h2
      obtain ⟨L1, L2, e, ho, rfl⟩ := hm.at (c := c) h1
      exact lt_of_lt_of_le ho.2.1 (numVars_split e)

theorem MethodOk.live_lt (hm : MethodOk c) {y : Nat} (h : c.Live y) : y < numVars (c.stmts 0) := by
  induction h with
  | input h => exact hm.named_lt (Or.inl ⟨_, Or.inl h⟩)
  | output h => exact hm.named_lt (Or.inr h)
  | operand _ h1 _ _ h4 _ => have := hm.operand_lt h1 h4; have := has_bound h1; omega
  | result _ h1 _ _ _ h4 _ => have := has_bound h1; omega
  | part _ _ h2 _ _ => have := has_bound h2; simp only [Stmt.count] at this; omega
  | assigned h =>
    obtain ⟨L1, L2, e, ho, rfl⟩ := hm.at h
    exact lt_of_lt_of_le ho.2.1 (numVars_split e)
  | same _ _ h2 _ => exact hm.named_lt h2

variable (g : Grew f args sh nm c c')
include g

omit [Zero K] in
theorem Grew.has {n : Nat} {s : Stmt K F} (h : c.Has n s) : c'.Has n s := by
  unfold Body.Has; rw [g.stmts]; exact List.mem_append_left _ h

omit [Zero K] in
theorem Grew.has' {n : Nat} {s : Stmt K F} (h : c'.Has n s) : c.Has n s ∨ (n = numVars (c.stmts 0) ∧ s = .call f args [sh]) ∨ (n = numVars (c.stmts 0) + 1 ∧ s = .register nm (numVars (c.stmts 0))) := by
  unfold Body.Has at h ⊢
  rw [g.stmts] at h
  simp only [List.mem_append, List.mem_cons, List.not_mem_nil, or_false, Prod.mk.injEq] at h
  exact h

omit [Zero K] in
theorem Grew.shapes : c'.shapes = c.shapes ++ [sh] := by
  unfold Body.shapes
  rw [g.stmts]
  simp [shapesOf, List.foldl_append, stepShapes, Body.shapes]

omit [Zero K] in
theorem Grew.shape {y : Nat} (hy : y < numVars (c.stmts 0)) : c'.shapes.getD y [] = c.shapes.getD y [] := by
  rw [g.shapes, List.getD_eq_getElem?_getD, List.getD_eq_getElem?_getD, List.getElem?_append_left (by rw [Body.shapes, Elem.shapes_length]; exact hy)]

omit [Zero K] in
theorem Grew.shape_new : c'.shapes.getD (numVars (c.stmts 0)) [] = sh := by
  have e : numVars (c.stmts 0) = c.shapes.length := by rw [Body.shapes, Elem.shapes_length]
  rw [g.shapes, e, List.getD_eq_getElem?_getD, List.getElem?_concat_length]; rfl

omit [Zero K] in
theorem Grew.inputs : (c'.stmts 0).filterMap inputOf = (c.stmts 0).filterMap inputOf := by rw [g.stmts, List.filterMap_append]; simp [inputOf]

omit [Zero K] in
theorem Grew.declareds : (c'.stmts 0).filterMap declaredOf = (c.stmts 0).filterMap declaredOf := by rw [g.stmts, List.filterMap_append]; simp [declaredOf]

omit [Zero K] in
theorem Grew.outputs : (c'.stmts 0).filterMap outputOf = (c.stmts 0).filterMap outputOf ++ [(numVars (c.stmts 0), nm)] := by rw [g.stmts, List.filterMap_append]; rfl

omit [Zero K] in
theorem Grew.named {y : Nat} {name : Name} : c'.Named y name ↔ c.Named y name ∨ (y = numVars (c.stmts 0) ∧ name = nm) := by
  unfold Body.Named
  rw [g.inputs, g.declareds, g.outputs]
  simp only [List.mem_append, List.mem_singleton, Prod.mk.injEq]
  exact or_assoc.symm

omit [Zero K] in
theorem Grew.connections : c'.locals.connections = c.locals.connections := by
  simp only [Body.locals]
  rw [g.stmts, List.foldl_append]
  simp [stepConnections]

omit [Zero K] in
theorem Grew.localInputs : c'.locals.inputs = c.locals.inputs := by simp only [Body.locals, g.inputs]

omit [Zero K] in
theorem Grew.localDeclared : c'.locals.declared = c.locals.declared := by simp only [Body.locals, g.declareds]

theorem Grew.localOutputs (hm : MethodOk c) : c'.locals.outputs = c.locals.outputs ++ [⟨nm, sh⟩] := by
  simp only [Body.locals]
  rw [g.outputs, List.map_append]
  simp only [List.map_cons, List.map_nil, g.shape_new]
  congr 1
  exact List.map_congr_left fun q hq => by rw [g.shape (hm.named_lt (Or.inr hq))]

theorem Grew.alias (hm : MethodOk c) {y z : Nat} : Alias (c'.stmts 0) y z ↔ Alias (c.stmts 0) y z := by
  have hsh : ∀ {n u : Nat} {k : Key}, c.Has n (.index u k) → (shapesOf (c'.stmts 0)).getD u [] = (shapesOf (c.stmts 0)).getD u [] := fun {n u k} h =>
    g.shape (by have := hm.operand_lt h (y := u) (by simp [Stmt.operands]); have := has_bound h; omega)
  constructor
  · intro h
    induction h with
    | refl => exact .refl _
    | symm _ ih => exact ih.symm
    | trans _ _ h1 h2 => exact h1.trans h2
    | plus h =>
      rcases g.has' h with h | ⟨_, h⟩ | ⟨_, h⟩
      · exact .plus h
      · cases h
      · cases h
    | part h1 h2 _ h4 ih =>
      rcases g.has' h1 with h1 | ⟨_, h⟩ | ⟨_, h⟩
      · rcases g.has' h2 with h2 | ⟨_, h⟩ | ⟨_, h⟩
        · rw [hsh h1, hsh h2] at h4
          exact .part h1 h2 ih h4
        · cases h
        · cases h
      · cases h
      · cases h
  · intro h
    induction h with
    | refl => exact .refl _
    | symm _ ih => exact ih.symm
    | trans _ _ h1 h2 => exact h1.trans h2
    | plus h => exact .plus (g.has h)
    | part h1 h2 _ h4 ih =>
      rw [← hsh h1, ← hsh h2] at h4
      exact .part (g.has h1) (g.has h2) ih h4

theorem Grew.assigned (hm : MethodOk c) {y u : Nat} {key : Key} : c'.Assigned y key u ↔ c.Assigned y key u := by
  unfold Body.Assigned
  constructor
  · rintro ⟨n, z, h1, h2⟩
    rcases g.has' h1 with h1 | ⟨_, h⟩ | ⟨_, h⟩
    · exact ⟨n, z, h1, (g.alias hm).1 h2⟩
    · cases h
    · cases h
  · rintro ⟨n, z, h1, h2⟩
    exact ⟨n, z, g.has h1, (g.alias hm).2 h2⟩

theorem Grew.live (hm : MethodOk c) {y : Nat} (h : c.Live y) : c'.Live y := by
  induction h with
  | input h => exact .input (by rw [g.inputs]; exact h)
  | output h => exact .output (by rw [g.outputs]; exact List.mem_append_left _ h)
  | operand _ h1 h2 h3 h4 ih => exact .operand ih (g.has h1) h2 h3 h4
  | result _ h1 h2 h3 h4 h5 ih => exact .result ih (g.has h1) h2 h3 h4 h5
  | part _ h1 h2 h3 ih => exact .part ih (g.has h1) (g.has h2) ((g.alias hm).2 h3)
  | assigned h => exact .assigned (g.has h)
  | same _ h1 h2 ih => exact .same ih (g.named.2 (Or.inl h1)) (g.named.2 (Or.inl h2))

omit [Zero K] in
theorem Grew.live_new : c'.Live (numVars (c.stmts 0)) := .output (name := nm) (by rw [g.outputs]; simp)

/-- a name that is defined -/
theorem MethodOk.named_defines (hm : MethodOk c) {y : Nat} {name : Name} (h : c.Named y name) : ∃ n s, c.Has n s ∧ s.defines = some name := by
  clear g
  rcases h with ⟨s, h | h⟩ | h
  · obtain ⟨⟨n, t⟩, h1, h2⟩ := List.mem_filterMap.1 h
    cases t <;> simp only [inputOf, Option.some.injEq, Prod.mk.injEq, reduceCtorEq] at h2
    exact ⟨n, _, h1, by simp [Stmt.defines, h2.2.1]⟩
  · obtain ⟨⟨n, t⟩, h1, h2⟩ := List.mem_filterMap.1 h
    cases t <;> simp only [declaredOf, Option.some.injEq, Prod.mk.injEq, reduceCtorEq] at h2
    exact ⟨n, _, h1, by simp [Stmt.defines, h2.2.1]⟩
  · obtain ⟨⟨n, t⟩, h1, h2⟩ := List.mem_filterMap.1 h
    cases t <;> simp only [outputOf, Option.some.injEq, Prod.mk.injEq, reduceCtorEq] at h2
    · exact ⟨n, _, h1, by simp [Stmt.defines, h2.2]⟩
    · exact ⟨n, _, h1, by simp [Stmt.defines, h2.2]⟩

theorem Grew.live' (hm : MethodOk c) (hx : ∀ a ∈ args, c.Live a) (hf : ∀ n s, c.Has n s → s.defines ≠ some nm) {y : Nat} (h : c'.Live y) : c.Live y ∨ y = numVars (c.stmts 0) := by
  have hnot : ∀ {y : Nat}, ¬ c.Named y nm := fun h => by
    obtain ⟨n, s, h1, h2⟩ := hm.named_defines g h
    exact hf n s h1 h2
  induction h with
  | input h => rw [g.inputs] at h; exact Or.inl (.input h)
  | output h =>
    rw [g.outputs] at h
    rcases List.mem_append.1 h with h | h
    · exact Or.inl (.output h)
    · simp only [List.mem_singleton, Prod.mk.injEq] at h
      exact Or.inr h.1
  | @operand u y n s _ h1 h2 h3 h4 ih =>
    rcases g.has' h1 with h1 | ⟨rfl, rfl⟩ | ⟨rfl, rfl⟩
    · have := has_bound h1
      rcases ih with ih | rfl
      · exact Or.inl (.operand ih h1 h2 h3 h4)
      · omega
    · exact Or.inl (hx _ h4)
    · simp [Stmt.operands] at h4
  | @result u y n s _ h1 h2 h3 h4 h5 ih =>
    rcases g.has' h1 with h1 | ⟨rfl, rfl⟩ | ⟨rfl, rfl⟩
    · have := has_bound h1
      rcases ih with ih | rfl
      · exact Or.inl (.result ih h1 h2 h3 h4 h5)
      · omega
    · simp only [Stmt.count, List.length_singleton] at h5
      exact Or.inr (by omega)
    · simp only [Stmt.count] at h5; omega
  | part _ h1 h2 h3 ih =>
    rcases g.has' h1 with h1 | ⟨_, h⟩ | ⟨_, h⟩
    · rcases g.has' h2 with h2 | ⟨_, h⟩ | ⟨_, h⟩
      · have := has_bound h1
        rcases ih with ih | rfl
        · exact Or.inl (.part ih h1 h2 ((g.alias hm).1 h3))
        · simp only [Stmt.count] at this; omega
      · cases h
      · cases h
    · cases h
    · cases h
  | assigned h1 =>
    rcases g.has' h1 with h1 | ⟨_, h⟩ | ⟨_, h⟩
    · exact Or.inl (.assigned h1)
    · cases h
    · cases h
  | same _ h1 h2 ih =>
    rcases g.named.1 h2 with h2 | ⟨rfl, _⟩
    · rcases g.named.1 h1 with h1 | ⟨_, rfl⟩
      · rcases ih with ih | rfl
        · exact Or.inl (.same ih h1 h2)
        · exact absurd (hm.named_lt h1) (by omega)
      · exact absurd h2 hnot
    · exact Or.inr rfl

end local_

end Csdl.Prog
