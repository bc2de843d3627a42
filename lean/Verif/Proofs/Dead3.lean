import Verif.Proofs.Dead2
/-
Computations whose results are not used (C102): the method with one more statement looks the same.
-/
namespace Csdl.Prog
open Csdl Csdl.Arith
variable {K F : Type} [Zero K] {c : Body K F} {s : Stmt K F}

theorem index_lt (hm : MethodOk c) {n u : Nat} {k : Key} (h : c.Has n (.index u k)) : u < numVars (c.stmts 0) := by
  have h1 := hm.operand_lt h (y := u) (by simp [Stmt.operands])
  have h2 := has_bound h
  omega

section
variable (hm : MethodOk c) (hs : s.IsComputation) (hok : StmtOk (c.stmts 0) s) (hu : ∀ j < s.count, ¬ (c.addStmt s).Live (numVars (c.stmts 0) + j))
include hm hs hok hu

theorem not_live_new {y : Nat} (h : (c.addStmt s).Live y) (h1 : numVars (c.stmts 0) ≤ y) (h2 : y < numVars (c.stmts 0) + s.count) : False :=
  hu (y - numVars (c.stmts 0)) (by omega) (by rw [Nat.add_sub_cancel' h1]; exact h)

theorem live_last {x : Nat} (h : (c.addStmt s).Live x) : c.Live x := by
  induction h with
  | input h => exact .input (by rw [inputs_last hs] at h; exact h)
  | output h => exact .output (by rw [outputs_last hs] at h; exact h)
  | operand hl h1 h2 h3 h4 ih =>
    rcases has_last h1 with h | ⟨rfl, rfl⟩
    · exact .operand ih h h2 h3 h4
    · exact (not_live_new hm hs hok hu hl h2 h3).elim
  | result hl h1 h2 h3 h4 h5 ih =>
    rcases has_last h1 with h | ⟨rfl, rfl⟩
    · exact .result ih h h2 h3 h4 h5
    · exact (not_live_new hm hs hok hu hl h2 h3).elim
  | part hl h1 h2 h3 ih =>
    rcases has_last h1 with g1 | ⟨rfl, rfl⟩
    · rcases has_last h2 with g2 | ⟨rfl, rfl⟩
      · exact .part ih g1 g2 (alias_last hm hs hok h3 (index_lt hm g1) (index_lt hm g2))
      · exact (not_live_new hm hs hok hu (.part hl h1 h2 h3) le_rfl (by simp [Stmt.count])).elim
    · exact (not_live_new hm hs hok hu hl le_rfl (by simp [Stmt.count])).elim
  | assigned h =>
    rcases has_last h with h | ⟨rfl, rfl⟩
    · exact .assigned h
    · exact hs.elim
  | same _ h1 h2 ih => exact .same ih ((named_last hs).1 h1) ((named_last hs).1 h2)

theorem assigned_last {y x : Nat} {key : Key} (h : (c.addStmt s).Assigned y key x) (hy : y < numVars (c.stmts 0)) : c.Assigned y key x := by
  obtain ⟨n, z, h1, h2⟩ := h
  rcases has_last h1 with h1 | ⟨rfl, rfl⟩
  · obtain ⟨L1, L2, e, hok', _⟩ := hm.at h1
    have := numVars_split e
    exact ⟨n, z, h1, alias_last hm hs hok h2 (by have := hok'.1; omega) hy⟩
  · exact hs.elim

theorem looks_first : Looks c (c.addStmt s) where
  live := live_first hm hs
  named := (named_last hs).2
  assigned := fun _ h => assigned_first hm h
  has := fun h _ _ _ => has_first h
  output := has_first
  aliases := fun _ _ h => alias_first hm h
  shape := fun h _ => by unfold Body.shapes; rw [stmts_addStmt, shapesOf_prefix _ _ (index_lt hm h)]
  locals := locals_last hm hs

theorem looks_last : Looks (c.addStmt s) c where
  live := live_last hm hs hok hu
  named := (named_last hs).1
  assigned := fun {y name shape val key x} ho h => by
    rcases has_last ho with ho | ⟨rfl, rfl⟩
    · have := has_bound ho
      simp only [Stmt.count] at this
      exact assigned_last hm hs hok hu h (by omega)
    · exact hs.elim
  has := fun {n t y} h h1 h2 h3 => by
    rcases has_last h with h | ⟨rfl, rfl⟩
    · exact h
    · exact (not_live_new hm hs hok hu h3 h1 h2).elim
  output := fun {n name shape val} h => by
    rcases has_last h with h | ⟨rfl, rfl⟩
    · exact h
    · exact hs.elim
  aliases := fun h1 h2 h => alias_last hm hs hok h (hm.live_lt (live_last hm hs hok hu h1)) (hm.live_lt (live_last hm hs hok hu h2))
  shape := fun {n x k} h hl => by
    rcases has_last h with h | ⟨rfl, rfl⟩
    · unfold Body.shapes
      rw [stmts_addStmt, shapesOf_prefix _ _ (index_lt hm h)]
    · exact (not_live_new hm hs hok hu hl le_rfl (by simp [Stmt.count])).elim
  locals := (locals_last hm hs).symm

theorem methodOk_last : MethodOk (c.addStmt s) where
  stmts := by
    intro L y L' e
    rw [stmts_addStmt] at e
    rcases List.eq_nil_or_concat L' with rfl | ⟨M, z, rfl⟩
    · obtain ⟨e1, e2⟩ := List.append_inj' e rfl
      rw [← e1]
      obtain rfl : _ = y := by simpa using e2
      exact hok
    · rw [List.concat_eq_append, ← List.cons_append, ← List.append_assoc] at e
      obtain ⟨e1, _⟩ := List.append_inj' e rfl
      exact hm.stmts L y M e1
  assigned := by
    intro y name shape val h
    rcases has_last h with h | ⟨rfl, rfl⟩
    · obtain ⟨key, x, h⟩ := hm.assigned _ _ _ _ h
      exact ⟨key, x, assigned_first hm h⟩
    · exact hs.elim
  subNames := by rw [subs_addStmt]; exact hm.subNames
  subAllowed := by rw [subs_addStmt]; exact hm.subAllowed
  nonEmpty := by rw [subs_addStmt, ← locals_last hm hs]; exact hm.nonEmpty

end

/-- the results of operators and functions in the last statement do not matter -/
theorem expr_unused (hm : MethodOk c) {i : Instr K} (hok : StmtOk (c.stmts 0) (.expr i)) : ∀ {x}, (c.addStmt (.expr i)).Live x → x < numVars (c.stmts 0) := by
  have hs : (Stmt.expr i : Stmt K F).IsComputation := trivial
  intro x h
  induction h with
  | input h => rw [inputs_last hs] at h; exact hm.live_lt (.input h)
  | output h => rw [outputs_last hs] at h; exact hm.live_lt (.output h)
  | operand hl h1 h2 h3 h4 ih =>
    rcases has_last h1 with h | ⟨rfl, rfl⟩
    · have := hm.operand_lt h h4; have := has_bound h; omega
    · omega
  | result hl h1 h2 h3 h4 h5 ih =>
    rcases has_last h1 with h | ⟨rfl, rfl⟩
    · have := has_bound h; omega
    · omega
  | part hl h1 h2 h3 ih =>
    rcases has_last h2 with h | ⟨_, h⟩
    · have := has_bound h; simp only [Stmt.count] at this; omega
    · cases h
  | assigned h =>
    rcases has_last h with h | ⟨_, h⟩
    · exact hm.live_lt (.assigned h)
    · cases h
  | same _ h1 h2 ih => exact hm.named_lt ((named_last hs).1 h2)

theorem call_unused (hm : MethodOk c) {f : F} {args : List Nat} {outs : List Shape} : ∀ {x}, (c.addStmt (.call f args outs)).Live x → x < numVars (c.stmts 0) := by
  have hs : (Stmt.call f args outs : Stmt K F).IsComputation := trivial
  intro x h
  induction h with
  | input h => rw [inputs_last hs] at h; exact hm.live_lt (.input h)
  | output h => rw [outputs_last hs] at h; exact hm.live_lt (.output h)
  | operand hl h1 h2 h3 h4 ih =>
    rcases has_last h1 with h | ⟨rfl, rfl⟩
    · have := hm.operand_lt h h4; have := has_bound h; omega
    · omega
  | result hl h1 h2 h3 h4 h5 ih =>
    rcases has_last h1 with h | ⟨rfl, rfl⟩
    · have := has_bound h; omega
    · omega
  | part hl h1 h2 h3 ih =>
    rcases has_last h2 with h | ⟨_, h⟩
    · have := has_bound h; simp only [Stmt.count] at this; omega
    · cases h
  | assigned h =>
    rcases has_last h with h | ⟨_, h⟩
    · exact hm.live_lt (.assigned h)
    · cases h
  | same _ h1 h2 ih => exact hm.named_lt ((named_last hs).1 h2)

/-- a part of a variable of which no other part matters does not matter -/
theorem index_unused (hm : MethodOk c) {u : Nat} {k : Key} (hok : StmtOk (c.stmts 0) (.index u k)) (hp : ∀ y v l, c.Has y (.index v l) → Alias (c.stmts 0) u v → ¬ c.Live y) :
    ∀ {x}, (c.addStmt (.index u k)).Live x → c.Live x := by
  have hs : (Stmt.index u k : Stmt K F).IsComputation := trivial
  intro x h
  induction h with
  | input h => rw [inputs_last hs] at h; exact .input h
  | output h => rw [outputs_last hs] at h; exact .output h
  | operand hl h1 h2 h3 h4 ih =>
    rcases has_last h1 with h | ⟨rfl, rfl⟩
    · exact .operand ih h h2 h3 h4
    · exact absurd (hm.live_lt ih) (by omega)
  | result hl h1 h2 h3 h4 h5 ih =>
    rcases has_last h1 with h | ⟨rfl, rfl⟩
    · exact .result ih h h2 h3 h4 h5
    · exact absurd (hm.live_lt ih) (by omega)
  | part hl h1 h2 h3 ih =>
    rcases has_last h1 with g1 | ⟨rfl, g1⟩
    · rcases has_last h2 with g2 | ⟨rfl, g2⟩
      · exact .part ih g1 g2 (alias_last hm hs hok h3 (index_lt hm g1) (index_lt hm g2))
      · cases g2
        exact absurd ih (hp _ _ _ g1 (alias_last hm hs hok h3 (index_lt hm g1) hok.1).symm)
    · exact absurd (hm.live_lt ih) (by omega)
  | assigned h =>
    rcases has_last h with h | ⟨_, h⟩
    · exact .assigned h
    · cases h
  | same _ h1 h2 ih => exact .same ih ((named_last hs).1 h1) ((named_last hs).1 h2)

end Csdl.Prog
