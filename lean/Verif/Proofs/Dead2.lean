import Verif.Proofs.Dead
/-
Computations whose results are not used (C102): the method with one more statement.
-/
namespace Csdl.Prog
open Csdl Csdl.Arith
variable {K F : Type}

theorem stmts_addStmt (s : Stmt K F) (c : Body K F) : (c.addStmt s).stmts 0 = c.stmts 0 ++ [(numVars (c.stmts 0), s)] := by
  unfold Body.addStmt
  rw [stmts_append]
  simp [Body.stmts]

theorem subs_addStmt (s : Stmt K F) (c : Body K F) : (c.addStmt s).subs = c.subs := by
  unfold Body.addStmt
  rw [subs_append]
  simp [Body.subs]

theorem shapesOf_prefix (L L' : List (Nat × Stmt K F)) {u : Nat} (hu : u < numVars L) : (shapesOf (L ++ L')).getD u [] = (shapesOf L).getD u [] := by
  unfold shapesOf
  rw [List.foldl_append]
  obtain ⟨e, h1, _⟩ := shapes_fold L' (L.foldl (fun ss s => stepShapes ss s.2) [])
  obtain ⟨e', h2, h3⟩ := shapes_fold L []
  rw [h1, h2]
  simp only [List.nil_append]
  rw [List.getD_eq_getElem?_getD, List.getD_eq_getElem?_getD, List.getElem?_append_left (by omega)]

section
variable [Zero K] {c : Body K F} {s : Stmt K F}

/-- aliases among the variables that existed before the last statement -/
theorem alias_last (hm : MethodOk c) (hs : s.IsComputation) (hok : StmtOk (c.stmts 0) s) {x y : Nat} (h : Alias ((c.addStmt s).stmts 0) x y) (hx : x < numVars (c.stmts 0)) (hy : y < numVars (c.stmts 0)) :
    Alias (c.stmts 0) x y := by
  classical
  set L := c.stmts 0 with hL
  set N := numVars L with hN
  have hidx : ∀ {n u k}, (n, Stmt.index u k) ∈ L → u < N ∧ n < N := by
    intro n u k h
    have h' : c.Has n (.index u k) := h
    have h1 := hm.operand_lt h' (y := u) (by simp [Stmt.operands])
    have h2 := has_bound h'
    simp only [Stmt.count] at h2
    rw [← hL, ← hN] at h2
    exact ⟨by omega, by omega⟩
  have hplus : ∀ {n u}, (n, Stmt.expr (.pos u)) ∈ L → u < N ∧ n < N := by
    intro n u h
    have h' : c.Has n (.expr (.pos u)) := h
    have h1 := hm.operand_lt h' (y := u) (by simp [Stmt.operands, Arith.Instr.first])
    have h2 := has_bound h'
    simp only [Stmt.count] at h2
    rw [← hL, ← hN] at h2
    exact ⟨by omega, by omega⟩
  -- the variable that existed before and is the same as the new one, if there is one
  let Q : Nat → Prop := fun m => m < N ∧ ((s = .expr (.pos m)) ∨ ∃ u k v l, s = .index u k ∧ (m, .index v l) ∈ L ∧ Alias L u v ∧ normalizeKey ((shapesOf L).getD u []) k = normalizeKey ((shapesOf L).getD v []) l)
  let σ : Nat → Nat := fun x => if h : x = N ∧ ∃ m, Q m then h.2.choose else x
  have σold : ∀ {x}, x < N → σ x = x := by
    intro x hx
    simp only [σ]
    rw [dif_neg (by rintro ⟨rfl, _⟩; omega)]
  have σnew : ∀ {m}, Q m → Q (σ N) := by
    intro m hq
    have : N = N ∧ ∃ m, Q m := ⟨rfl, m, hq⟩
    have e : σ N = this.2.choose := dif_pos this
    rw [e]
    exact this.2.choose_spec
  have Quniq : ∀ {m m'}, Q m → Q m' → Alias L m m' := by
    rintro m m' ⟨_, e | ⟨u, k, v, l, e, g1, g2, g3⟩⟩ ⟨_, e' | ⟨u', k', v', l', e', g1', g2', g3'⟩⟩
    · rw [e] at e'
      cases e'
      exact .refl _
    · rw [e] at e'; cases e'
    · rw [e] at e'; cases e'
    · rw [e] at e'
      cases e'
      exact .part g1 g1' (g2.symm.trans g2') (g3.symm.trans g3')
  have main : ∀ {x y}, Alias ((c.addStmt s).stmts 0) x y → Alias L (σ x) (σ y) := by
    intro x y h
    induction h with
    | refl => exact .refl _
    | symm _ ih => exact ih.symm
    | trans _ _ h1 h2 => exact h1.trans h2
    | @plus x y h =>
      rw [stmts_addStmt] at h
      rcases List.mem_append.1 h with h | h
      · obtain ⟨h1, h2⟩ := hplus h
        rw [σold h1, σold h2]
        exact .plus h
      · rw [List.mem_singleton] at h
        obtain ⟨rfl, e⟩ := Prod.mk.inj h
        have hy : y < N := by
          have := hok
          rw [← e] at this
          exact this.1 y (by simp [Arith.Instr.first])
        have hq : Q y := ⟨hy, Or.inl e.symm⟩
        rw [σold hy]
        exact Quniq (σnew hq) hq
    | @part x y u v k l h1 h2 h3 h4 ih =>
      rw [stmts_addStmt] at h1 h2
      have lt : ∀ {x u k}, (x, Stmt.index u k) ∈ c.stmts 0 ++ [(numVars (c.stmts 0), s)] → u < N := by
        intro x u k h
        rcases List.mem_append.1 h with h | h
        · exact (hidx h).1
        · rw [List.mem_singleton] at h
          obtain ⟨rfl, e⟩ := Prod.mk.inj h
          have := hok
          rw [← e] at this
          exact this.1
      rw [σold (lt h1), σold (lt h2)] at ih
      rw [stmts_addStmt, shapesOf_prefix _ _ (lt h1), shapesOf_prefix _ _ (lt h2)] at h4
      rcases List.mem_append.1 h1 with g1 | g1 <;> rcases List.mem_append.1 h2 with g2 | g2
      · rw [σold (hidx g1).2, σold (hidx g2).2]
        exact .part g1 g2 ih h4
      · rw [List.mem_singleton] at g2
        obtain ⟨rfl, e⟩ := Prod.mk.inj g2
        have hq : Q x := ⟨(hidx g1).2, Or.inr ⟨v, l, u, k, e.symm, g1, ih.symm, h4.symm⟩⟩
        rw [σold (hidx g1).2]
        exact Quniq hq (σnew hq)
      · rw [List.mem_singleton] at g1
        obtain ⟨rfl, e⟩ := Prod.mk.inj g1
        have hq : Q y := ⟨(hidx g2).2, Or.inr ⟨u, k, v, l, e.symm, g2, ih, h4⟩⟩
        rw [σold (hidx g2).2]
        exact Quniq (σnew hq) hq
      · rw [List.mem_singleton] at g1 g2
        obtain ⟨rfl, _⟩ := Prod.mk.inj g1
        obtain ⟨rfl, _⟩ := Prod.mk.inj g2
        exact .refl _
  have := main h
  rwa [σold hx, σold hy] at this

theorem alias_first (hm : MethodOk c) {x y : Nat} (h : Alias (c.stmts 0) x y) : Alias ((c.addStmt s).stmts 0) x y := by
  rw [stmts_addStmt]
  refine alias_mono (fun n u k h => ?_) h
  have h' : c.Has n (.index u k) := h
  have h1 := hm.operand_lt h' (y := u) (by simp [Stmt.operands])
  have h2 := has_bound h'
  omega

theorem has_first {n : Nat} {t : Stmt K F} (h : c.Has n t) : (c.addStmt s).Has n t := by
  unfold Body.Has at *
  rw [stmts_addStmt]
  exact List.mem_append_left _ h

theorem has_last {n : Nat} {t : Stmt K F} (h : (c.addStmt s).Has n t) : c.Has n t ∨ (n = numVars (c.stmts 0) ∧ t = s) := by
  unfold Body.Has at *
  rw [stmts_addStmt] at h
  rcases List.mem_append.1 h with h | h
  · exact Or.inl h
  · rw [List.mem_singleton] at h
    exact Or.inr (Prod.mk.inj h)

theorem inputs_last (hs : s.IsComputation) : ((c.addStmt s).stmts 0).filterMap inputOf = (c.stmts 0).filterMap inputOf := by
  rw [stmts_addStmt, List.filterMap_append]
  cases s <;> first | exact hs.elim | simp [inputOf]
theorem declareds_last (hs : s.IsComputation) : ((c.addStmt s).stmts 0).filterMap declaredOf = (c.stmts 0).filterMap declaredOf := by
  rw [stmts_addStmt, List.filterMap_append]
  cases s <;> first | exact hs.elim | simp [declaredOf]
theorem outputs_last (hs : s.IsComputation) : ((c.addStmt s).stmts 0).filterMap outputOf = (c.stmts 0).filterMap outputOf := by
  rw [stmts_addStmt, List.filterMap_append]
  cases s <;> first | exact hs.elim | simp [outputOf]

theorem named_last (hs : s.IsComputation) {x : Nat} {name : Name} : (c.addStmt s).Named x name ↔ c.Named x name := by
  unfold Body.Named
  rw [inputs_last hs, declareds_last hs, outputs_last hs]

theorem locals_last (hm : MethodOk c) (hs : s.IsComputation) : c.locals = (c.addStmt s).locals := by
  unfold Body.locals
  rw [inputs_last hs, declareds_last hs, outputs_last hs]
  have h1 : ((c.addStmt s).stmts 0).foldl (fun cs s => stepConnections cs s.2) [] = (c.stmts 0).foldl (fun cs s => stepConnections cs s.2) [] := by
    rw [stmts_addStmt, List.foldl_append]
    cases s <;> first | exact hs.elim | rfl
  rw [h1]
  congr 1
  refine List.map_congr_left fun o ho => ?_
  have hl := hm.named_lt (c := c) (y := o.1) (name := o.2) (Or.inr ho)
  unfold Body.shapes
  rw [stmts_addStmt, shapesOf_prefix _ _ hl]

theorem assigned_first (hm : MethodOk c) {y x : Nat} {key : Key} (h : c.Assigned y key x) : (c.addStmt s).Assigned y key x := by
  obtain ⟨n, z, h1, h2⟩ := h
  exact ⟨n, z, has_first h1, alias_first hm h2⟩

theorem live_first (hm : MethodOk c) (hs : s.IsComputation) {x : Nat} (h : c.Live x) : (c.addStmt s).Live x := by
  induction h with
  | input h => exact .input (by rw [inputs_last hs]; exact h)
  | output h => exact .output (by rw [outputs_last hs]; exact h)
  | operand _ h1 h2 h3 h4 ih => exact .operand ih (has_first h1) h2 h3 h4
  | result _ h1 h2 h3 h4 h5 ih => exact .result ih (has_first h1) h2 h3 h4 h5
  | part _ h1 h2 h3 ih => exact .part ih (has_first h1) (has_first h2) (alias_first hm h3)
  | assigned h => exact .assigned (has_first h)
  | same _ h1 h2 ih => exact .same ih ((named_last hs).2 h1) ((named_last hs).2 h2)

end
end Csdl.Prog
