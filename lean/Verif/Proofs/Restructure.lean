import Verif.Spec.Restructure
import Verif.Proofs.Program9
import Verif.Proofs.Print
/-
Programs that consist of the same computations (C105).
-/
namespace Csdl.Prog
open Csdl Csdl.Arith
variable {K F : Type}

theorem range_map_getD {α : Type} (f : Nat → α) {n x : Nat} (d : α) (h : x < n) : ((List.range n).map f).getD x d = f x := by
  simp [List.getD_eq_getElem?_getD, h]

/-- the meaning of an operator depends on the values of its operands only -/
theorem meaning_onVars [Field K] (P : Power K) (i : Instr K) (f : Nat → Nat) (vals vals' : List (Val K))
    (h : ∀ x ∈ i.first :: i.others, vals.getD x (fun _ => 0) = vals'.getD (f x) fun _ => 0) : i.meaning P vals = (onVars f i).meaning P vals' := by
  cases i <;> simp only [Instr.first, Instr.others, List.mem_cons, List.not_mem_nil, or_false, forall_eq_or_imp, forall_eq] at h <;> simp only [Instr.meaning, onVars] <;> first | rw [h] | rw [h.1, h.2]

theorem live_all {b : Body K F} {n : Nat} {s : Stmt K F} (h : b.Has n s) {j : Nat} (hj : j < s.count) (hl : b.Live (n + j)) : ∀ k < s.count, b.Live (n + k) :=
  fun k hk => .result hl h (by omega) (by omega) (by omega) (by omega)

theorem has_alias_pos {b : Body K F} {n y : Nat} (h : b.Has n (.expr (.pos y))) : Alias (b.stmts 0) n y := .plus h

/-- values that solve `c` solve `b` -/
theorem Restructured.solution [Field K] [DecidableEq K] {b c : Body K F} {φ : List Name × Nat → List Name × Nat} (R : Restructured b c φ) (hb : ∀ path b', BAt b path b' → MethodOk b') (hc : ∀ path c', BAt c path c' → MethodOk c')
    {P : Power K} {den : F → List (Val K) → Nat → Val K} {ρ : List Name → Nat → Val K} (h : Solution P den c ρ) (hsame : ∀ u v, Coupled c u v → ρ u.1 u.2 = ρ v.1 v.2) :
    Solution P den b fun path x => ρ (φ (path, x)).1 (φ (path, x)).2 := by
  refine ⟨?_, ?_, ?_, ?_, ?_, ?_⟩
  · intro path b' hb' n i hi hl
    have hlt : ∀ x ∈ i.first :: i.others, x < n := fun x hx => (hb path b' hb').operand_lt hi hx
    by_cases hpos : ∃ y, i = .pos y
    · obtain ⟨y, rfl⟩ := hpos
      have hly : b'.Live y := .operand hl hi (Nat.le_refl _) (by simp [Stmt.count]) (by simp [Stmt.operands, Instr.first])
      have e := hsame _ _ (R.joined _ _ (.alias (path := path) b' hb' hl hly (.plus hi)))
      have hy : y < n := hlt y (by simp [Instr.first])
      simp only [Instr.meaning]
      rw [range_map_getD _ _ hy]
      exact e
    · obtain ⟨path', c', m, t, h1, h2, h3, h4⟩ := R.computations path b' n _ hb' hi (by cases i <;> first | trivial | exact absurd ⟨_, rfl⟩ hpos) (live_all hi (j := 0) (by simp [Stmt.count]) hl)
      obtain ⟨g1, g2⟩ := h4 0 (by simp [Stmt.count])
      cases h3 with
      | expr _ f hf =>
        have e1 := hsame _ _ g2
        simp only [Nat.add_zero] at e1 g1
        rw [e1, h.expr path' c' h1 m _ h2 g1]
        symm
        apply meaning_onVars
        intro x hx
        have hx' : f x ∈ (onVars f i).first :: (onVars f i).others := by
          cases i <;> simp only [onVars, Instr.first, Instr.others, List.mem_cons, List.not_mem_nil, or_false] at hx ⊢ <;> aesop
        rw [range_map_getD _ _ (hlt x hx), range_map_getD _ _ ((hc path' c' h1).operand_lt h2 hx')]
        exact hsame _ _ (hf x hx)
  · intro path b' hb' n f args outs hi j hj hl
    obtain ⟨path', c', m, t, h1, h2, h3, h4⟩ := R.computations path b' n _ hb' hi trivial (live_all hi (j := j) hj hl)
    obtain ⟨g1, g2⟩ := h4 j hj
    cases h3 with
    | @call _ _ args' _ hf =>
      rw [hsame _ _ g2, h.call path' c' h1 m f args' outs h2 j hj g1]
      congr 1
      clear h2 hi h4
      induction hf with
      | nil => rfl
      | cons hx _ ih => simp only [List.map_cons]; rw [ih, hsame _ _ hx]
  · intro path b' hb' n x key hi hl
    obtain ⟨path', c', m, t, h1, h2, h3, h4⟩ := R.computations path b' n _ hb' hi trivial (live_all hi (j := 0) (by simp [Stmt.count]) hl)
    obtain ⟨g1, g2⟩ := h4 0 (by simp [Stmt.count])
    cases h3 with
    | @index _ y _ hf hs =>
      have e1 := hsame _ _ g2
      simp only [Nat.add_zero] at e1 g1
      rw [e1, h.index path' c' h1 m y key h2 g1, hs, hsame _ _ hf]
  · intro path b' hb' y name shape val hy
    obtain ⟨path', c', y', name', h1, h2, h3, h4, h5⟩ := R.parts path b' y name shape val hb' hy
    obtain ⟨e1, e2⟩ := h.output path' c' h1 y' name' shape val h2
    have e := hsame _ _ h3
    refine ⟨fun key x idx shp ha ht i j hij => ?_, fun i hi => ?_⟩
    · obtain ⟨x', g1, g2⟩ := h4 key x ha
      rw [e, hsame _ _ g2]
      exact e1 key x' idx shp g1 ht i j hij
    · rw [e]
      refine e2 i fun key x' idx shp ha ht => ?_
      obtain ⟨x, g⟩ := h5 key x' ha
      exact hi key x idx shp g ht
  · intro path x path' y p h1 h2
    exact hsame _ _ (R.joined _ _ (.name p h1 h2))
  · intro path b' hb' s t p q hst hp hq path1 x path2 y h1 h2
    exact hsame _ _ (R.joined _ _ (.connection path b' s t p q hb' hst hp hq h1 h2))

end Csdl.Prog
