import Verif.Model.Rotations
import Verif.Spec.Rotations
import Verif.Props.Elementwise
import Verif.Props.ProgramConcat
import Verif.Props.Indexing2
import Mathlib.Data.Matrix.Reflection
/-
C79: rotations by a body 3-1-3 sequence.
-/
namespace Csdl.Elem
open Csdl Csdl.Arith Csdl.Prog

theorem tgt_two (m k : Nat) (rest : Shape) (i j : Nat) : tgtIndices (m :: k :: rest) (.tuple [.int i, .int j]) =
    (ravelMultiIndex (m :: k :: rest) [(i : Int), (j : Int)]).map fun f => ([Int.ofNat f], [1, 1]) := by
  have e1 : sliceToList (some (i : Int)) (some ((i : Int) + 1)) none m = .ok [(i : Int)] := sliceToList_single (by omega)
  have e2 : sliceToList (some (j : Int)) (some ((j : Int) + 1)) none k = .ok [(j : Int)] := sliceToList_single (by omega)
  have e3 : setTuple (m :: k :: rest) [.int i, .int j] = .ok [[(i : Int)], [(j : Int)]] := by
    simp only [setTuple]
    rw [e1, ok_bind, e2, ok_bind]
    rfl
  rw [tgtIndices, e3, ok_bind, if_neg (by simp)]
  have e4 : meshIJ [[(i : Int)], [(j : Int)]] = [[(i : Int), (j : Int)]] := rfl
  rw [e4, List.mapM_cons]
  cases ravelMultiIndex (m :: k :: rest) [(i : Int), (j : Int)] <;> rfl

/-- `R[i, j] = x`: the shapes -/
theorem tgt_entry {shape : Shape} {i j : Nat} {idx : List Int} {shp : Shape} (h : tgtIndices shape (.tuple [.int i, .int j]) = .ok (idx, shp)) :
    ∃ m k, shape = [m, k] ∧ i < m ∧ j < k ∧ shp = [1, 1] := by
  match shape with
  | [] => simp [tgtIndices, setTuple] at h; cases h
  | [m] =>
    rw [tgtIndices] at h
    have e1 : sliceToList (some (i : Int)) (some ((i : Int) + 1)) none m = .ok [(i : Int)] := sliceToList_single (by omega)
    have e3 : setTuple [m] [.int i, .int j] = .error .index := by
      simp only [setTuple]
      rw [e1, ok_bind]
      rfl
    rw [e3] at h
    cases h
  | m :: k :: rest =>
    rw [tgt_two, ravelMultiIndex] at h
    by_cases hr : inRange (m :: k :: rest) [(i : Int), (j : Int)] = true
    · rw [if_pos hr] at h
      cases h
      cases rest with
      | cons _ _ => simp [inRange] at hr
      | nil => simp [inRange] at hr; exact ⟨m, k, rfl, hr.1, hr.2, rfl⟩
    · rw [if_neg hr] at h
      cases h

theorem entry_tgt {m k i j : Nat} (hi : i < m) (hj : j < k) : tgtIndices [m, k] (.tuple [.int i, .int j]) = .ok ([((ravel [m, k] [i, j] : Nat) : Int)], [1, 1]) := by
  rw [tgt_two, ravelMultiIndex, if_pos (by simp [inRange, hi, hj])]
  rfl


/-- the value of an expression; `v x` is the value of the variable `x` -/
noncomputable def Ex.eval (v : Nat → ℝ) : Ex → ℝ
  | .sin x => Real.sin (v x)
  | .cos x => Real.cos (v x)
  | .neg a => -a.eval v
  | .add a b => a.eval v + b.eval v
  | .sub a b => a.eval v - b.eval v
  | .mul a b => a.eval v * b.eval v

/-- all variables have numbers below `n` -/
def Ex.Below (n : Nat) : Ex → Prop
  | .sin x | .cos x => x < n
  | .neg a => a.Below n
  | .add a b | .sub a b | .mul a b => a.Below n ∧ b.Below n

theorem Ex.Below.mono {n n' : Nat} (h : n ≤ n') {e : Ex} (he : e.Below n) : e.Below n' := by
  induction e with
  | sin x => exact Nat.lt_of_lt_of_le he h
  | cos x => exact Nat.lt_of_lt_of_le he h
  | neg a ih => exact ih he
  | add a b iha ihb => exact ⟨iha he.1, ihb he.2⟩
  | sub a b iha ihb => exact ⟨iha he.1, ihb he.2⟩
  | mul a b iha ihb => exact ⟨iha he.1, ihb he.2⟩

section
variable {K : Type}

theorem numbered_append (n : Nat) (l l' : List (Stmt K Fn)) : numbered n (l ++ l') = numbered n l ++ numbered (n + (l.map Stmt.count).sum) l' := by
  induction l generalizing n with
  | nil => simp [numbered]
  | cons s l ih => simp [numbered, ih, Nat.add_assoc]

theorem Ex.counts (sh : Nat → Shape) (e : Ex) : ∀ n, ((e.stmts (K := K) sh n).map Stmt.count).sum = (e.stmts (K := K) sh n).length ∧ 0 < (e.stmts (K := K) sh n).length := by
  induction e with
  | sin x => intro n; simp [Ex.stmts, apply, Stmt.count]
  | cos x => intro n; simp [Ex.stmts, apply, Stmt.count]
  | neg a ih => intro n; simp [Ex.stmts, Stmt.count, (ih n).1]
  | add a b iha ihb => intro n; simp [Ex.stmts, Stmt.count, (iha n).1, (ihb _).1]
  | sub a b iha ihb => intro n; simp [Ex.stmts, Stmt.count, (iha n).1, (ihb _).1]
  | mul a b iha ihb => intro n; simp [Ex.stmts, Stmt.count, (iha n).1, (ihb _).1]

/-- the statements of an operator with two operands -/
theorem numbered_two (sh : Nat → Shape) (a b : Ex) (n : Nat) (s : Stmt K Fn) :
    numbered n (a.stmts sh n ++ b.stmts sh (n + (a.stmts (K := K) sh n).length) ++ [s]) =
      numbered n (a.stmts sh n) ++ (numbered (n + (a.stmts (K := K) sh n).length) (b.stmts sh (n + (a.stmts (K := K) sh n).length)) ++
        [(n + (a.stmts (K := K) sh n).length + (b.stmts (K := K) sh (n + (a.stmts (K := K) sh n).length)).length, s)]) := by
  rw [List.append_assoc, numbered_append, numbered_append, (a.counts sh n).1, (b.counts sh _).1]
  rfl
end

section
variable {b b' : Body ℝ Fn} {ρ : List Name → Nat → Val ℝ} {path : List Name}

theorem sol_call1 (h : Prog.Solution realPower meaning b ρ) (hp : BAt b path b') {n y : Nat} {f : Fn} {s : Shape} (hs : b'.Has n (apply f s y)) (hl : b'.Live n) (k : List Nat) :
    ρ path n k = f.meaning (ρ path y k) := by
  have := h.call path b' hp n f [y] [s] hs 0 (by simp) hl
  rw [Nat.add_zero] at this
  rw [this]
  rfl

/-- evaluating an expression gives its value -/
theorem ex_value (h : Prog.Solution realPower meaning b ρ) (hp : BAt b path b') (sh : Nat → Shape) (k : List Nat) (e : Ex) : ∀ n, e.Below n →
    (∀ x ∈ numbered n (e.stmts (K := ℝ) sh n), x ∈ b'.stmts 0) → b'.Live (n + (e.stmts (K := ℝ) sh n).length - 1) →
    ρ path (n + (e.stmts (K := ℝ) sh n).length - 1) k = e.eval fun x => ρ path x k := by
  induction e with
  | sin x =>
    intro n _ hm hl
    exact sol_call1 h hp (hm _ (List.mem_singleton.2 rfl)) hl k
  | cos x =>
    intro n _ hm hl
    exact sol_call1 h hp (hm _ (List.mem_singleton.2 rfl)) hl k
  | neg a ih =>
    intro n hb hm hl
    obtain ⟨c1, c2⟩ := a.counts (K := ℝ) sh n
    simp only [Ex.stmts, List.length_append, List.length_singleton] at hl ⊢
    have hs : b'.Has (n + (a.stmts (K := ℝ) sh n).length) (.expr (.neg (n + (a.stmts (K := ℝ) sh n).length - 1))) :=
      hm _ (by simp only [Ex.stmts, numbered_append, c1, numbered]; simp)
    rw [show n + ((a.stmts (K := ℝ) sh n).length + 1) - 1 = n + (a.stmts (K := ℝ) sh n).length by omega] at hl ⊢
    rw [sol_expr h hp hs hl]
    simp (disch := omega) only [Instr.meaning, getD_range]
    rw [ih n hb (fun x hx => hm x (by simp only [Ex.stmts, numbered_append]; exact List.mem_append_left _ hx)) (live_expr hl hs (by simp [Instr.first]))]
    rfl
  | add a c iha ihc =>
    intro n hb hm hl
    have c2 := (a.counts (K := ℝ) sh n).2
    have d2 := (c.counts (K := ℝ) sh (n + (a.stmts (K := ℝ) sh n).length)).2
    simp only [Ex.stmts, numbered_two, List.mem_append, List.length_append, List.length_singleton] at hm hl ⊢
    have hs := hm _ (Or.inr (Or.inr (List.mem_singleton.2 rfl)))
    have ia := iha n hb.1 fun x hx => hm x (Or.inl hx)
    have ic := ihc _ (hb.2.mono (Nat.le_add_right _ _)) fun x hx => hm x (Or.inr (Or.inl hx))
    generalize (a.stmts (K := ℝ) sh n).length = A at *
    generalize (c.stmts (K := ℝ) sh (n + A)).length = C at *
    rw [show n + (A + C + 1) - 1 = n + A + C by omega] at hl ⊢
    rw [sol_expr h hp hs hl]
    simp (disch := omega) only [Instr.meaning, getD_range]
    rw [ia (live_expr hl hs (by simp [Instr.first])), ic (live_expr hl hs (by simp [Instr.others]))]
    rfl
  | sub a c iha ihc =>
    intro n hb hm hl
    have c2 := (a.counts (K := ℝ) sh n).2
    have d2 := (c.counts (K := ℝ) sh (n + (a.stmts (K := ℝ) sh n).length)).2
    simp only [Ex.stmts, numbered_two, List.mem_append, List.length_append, List.length_singleton] at hm hl ⊢
    have hs := hm _ (Or.inr (Or.inr (List.mem_singleton.2 rfl)))
    have ia := iha n hb.1 fun x hx => hm x (Or.inl hx)
    have ic := ihc _ (hb.2.mono (Nat.le_add_right _ _)) fun x hx => hm x (Or.inr (Or.inl hx))
    generalize (a.stmts (K := ℝ) sh n).length = A at *
    generalize (c.stmts (K := ℝ) sh (n + A)).length = C at *
    rw [show n + (A + C + 1) - 1 = n + A + C by omega] at hl ⊢
    rw [sol_expr h hp hs hl]
    simp (disch := omega) only [Instr.meaning, getD_range]
    rw [ia (live_expr hl hs (by simp [Instr.first])), ic (live_expr hl hs (by simp [Instr.others]))]
    rfl
  | mul a c iha ihc =>
    intro n hb hm hl
    have c2 := (a.counts (K := ℝ) sh n).2
    have d2 := (c.counts (K := ℝ) sh (n + (a.stmts (K := ℝ) sh n).length)).2
    simp only [Ex.stmts, numbered_two, List.mem_append, List.length_append, List.length_singleton] at hm hl ⊢
    have hs := hm _ (Or.inr (Or.inr (List.mem_singleton.2 rfl)))
    have ia := iha n hb.1 fun x hx => hm x (Or.inl hx)
    have ic := ihc _ (hb.2.mono (Nat.le_add_right _ _)) fun x hx => hm x (Or.inr (Or.inl hx))
    generalize (a.stmts (K := ℝ) sh n).length = A at *
    generalize (c.stmts (K := ℝ) sh (n + A)).length = C at *
    rw [show n + (A + C + 1) - 1 = n + A + C by omega] at hl ⊢
    rw [sol_expr h hp hs hl]
    simp (disch := omega) only [Instr.meaning, getD_range]
    rw [ia (live_expr hl hs (by simp [Instr.first])), ic (live_expr hl hs (by simp [Instr.others]))]
    rfl

/-- filling a matrix gives each entry its value -/
theorem fill_value (h : Prog.Solution realPower meaning b ρ) (hp : BAt b path b') (sh : Nat → Shape) {R m k : Nat} {name : Name} {val : Val ℝ} (hR : b'.Has R (.output name [m, k] val)) (l : List ((Nat × Nat) × Ex)) :
    ∀ n, (∀ x ∈ l, x.2.Below n ∧ x.1.1 < m ∧ x.1.2 < k) → (∀ x ∈ numbered n (fill (K := ℝ) sh R n l), x ∈ b'.stmts 0) →
    ∀ x ∈ l, ρ path R [x.1.1, x.1.2] = x.2.eval fun x => ρ path x [0, 0] := by
  induction l with
  | nil => intro n _ _ x hx; cases hx
  | cons a l ih =>
    obtain ⟨ij, e⟩ := a
    intro n hb hm
    obtain ⟨c1, c2⟩ := e.counts (K := ℝ) sh n
    obtain ⟨hb1, hb2⟩ := List.forall_mem_cons.1 hb
    simp only [fill, numbered_append, c1, numbered, List.mem_append, List.mem_cons, Stmt.count, Nat.add_zero] at hm
    rw [List.forall_mem_cons]
    refine ⟨?_, ih _ (fun x hx => ⟨(hb2 x hx).1.mono (Nat.le_add_right _ _), (hb2 x hx).2⟩) fun x hx => hm x (Or.inr (Or.inr hx))⟩
    have ha := hm _ (Or.inr (Or.inl rfl))
    have hv := ex_value h hp sh [0, 0] e n hb1.1 (fun x hx => hm x (Or.inl hx)) (.assigned ha)
    simp only at hb1 ⊢
    rw [← hv]
    exact (h.output path b' hp R name _ _ hR).1 _ _ _ _ ⟨_, R, ha, .refl _⟩ (entry_tgt hb1.2.1 hb1.2.2) [ij.1, ij.2] 0 rfl

/-- **C79.** In every solution of a program that calls `body_313(R, p, q, r)`, where `R` is an output with at least three rows and columns, the first three rows and columns of `R` are the matrix of the coordinate
transformation to a frame that is rotated about axis 3 by `r`, then about its axis 1 by `q`, and then about its axis 3 by `p`.  (Partial: `C79_scalar_angles_rejected`.) -/
theorem C79_body_313_partial (h : Prog.Solution realPower meaning b ρ) (hp : BAt b path b') (sh : Nat → Shape) {n R p q r m k : Nat} {name : Name} {val : Val ℝ} (hR : b'.Has R (.output name [m, k] val))
    (hm : 3 ≤ m) (hk : 3 ≤ k) (hpn : p < n) (hqn : q < n) (hrn : r < n) (hc : Executes b' n (body313 sh n R p q r)) :
    (Matrix.of fun i j : Fin 3 => ρ path R [i, j]) = axis3 (ρ path p [0, 0]) * axis1 (ρ path q [0, 0]) * axis3 (ρ path r [0, 0]) := by
  obtain ⟨pre, post, hc⟩ := hc
  have hv := fill_value h hp sh hR (entries313 p q r) n (by simp [entries313, Ex.Below, *]; omega) (fun x hx => by rw [hc]; exact List.mem_append_left _ (List.mem_append_right _ hx))
  simp only [entries313, List.mem_cons, List.not_mem_nil, or_false, forall_eq_or_imp, forall_eq, Ex.eval] at hv
  obtain ⟨h00, h01, h02, h10, h11, h12, h20, h21, h22⟩ := hv
  ext i j
  fin_cases i <;> fin_cases j <;>
    simp [axis1, axis3, Matrix.mul_apply, Fin.sum_univ_three, h00, h01, h02, h10, h11, h12, h20, h21, h22] <;> ring

theorem axis3_rotation (t : ℝ) : axis3 t ∈ Matrix.specialOrthogonalGroup (Fin 3) ℝ := by
  rw [Matrix.mem_specialOrthogonalGroup_iff, Matrix.mem_orthogonalGroup_iff]
  have e := Real.sin_sq_add_cos_sq t
  constructor
  · ext i j
    fin_cases i <;> fin_cases j <;> simp [axis3, Matrix.mul_apply, Fin.sum_univ_three] <;> nlinarith
  · simp [axis3, Matrix.det_fin_three]; nlinarith

theorem axis1_rotation (t : ℝ) : axis1 t ∈ Matrix.specialOrthogonalGroup (Fin 3) ℝ := by
  rw [Matrix.mem_specialOrthogonalGroup_iff, Matrix.mem_orthogonalGroup_iff]
  have e := Real.sin_sq_add_cos_sq t
  constructor
  · ext i j
    fin_cases i <;> fin_cases j <;> simp [axis1, Matrix.mul_apply, Fin.sum_univ_three] <;> nlinarith
  · simp [axis1, Matrix.det_fin_three]; nlinarith

/-- **C79.** The matrix is a rotation: it is orthogonal and its determinant is 1.  (Partial: `C79_scalar_angles_rejected`.) -/
theorem C79_rotation_partial (h : Prog.Solution realPower meaning b ρ) (hp : BAt b path b') (sh : Nat → Shape) {n R p q r m k : Nat} {name : Name} {val : Val ℝ} (hR : b'.Has R (.output name [m, k] val))
    (hm : 3 ≤ m) (hk : 3 ≤ k) (hpn : p < n) (hqn : q < n) (hrn : r < n) (hc : Executes b' n (body313 sh n R p q r)) :
    (Matrix.of fun i j : Fin 3 => ρ path R [i, j]) ∈ Matrix.specialOrthogonalGroup (Fin 3) ℝ := by
  rw [C79_body_313_partial h hp sh hR hm hk hpn hqn hrn hc]
  exact mul_mem (mul_mem (axis3_rotation _) (axis1_rotation _)) (axis3_rotation _)
end

/-! ### which shapes are accepted -/

section
variable {K F : Type}

theorem step_append (ss : List Shape) (s : Stmt K F) : ∃ t, stepShapes ss s = ss ++ t ∧ t.length = s.count := by
  cases s <;> simp [stepShapes, Stmt.count]

theorem shapes_append (L1 L2 : List (Nat × Stmt K F)) : ∃ t, shapesOf (L1 ++ L2) = shapesOf L1 ++ t := by
  unfold shapesOf
  rw [List.foldl_append]
  generalize List.foldl (fun ss s => stepShapes ss s.2) [] L1 = ss
  induction L2 generalizing ss with
  | nil => exact ⟨[], by simp⟩
  | cons s L2 ih =>
    obtain ⟨t, ht, _⟩ := step_append ss s.2
    obtain ⟨t', ht'⟩ := ih (stepShapes ss s.2)
    exact ⟨t ++ t', by rw [List.foldl_cons, ht', ht, List.append_assoc]⟩

theorem shapes_length (L : List (Nat × Stmt K F)) : (shapesOf L).length = numVars L := by
  unfold shapesOf numVars
  have : ∀ ss : List Shape, (List.foldl (fun ss (s : Nat × Stmt K F) => stepShapes ss s.2) ss L).length = ss.length + (L.map fun s => s.2.count).sum := by
    induction L with
    | nil => simp
    | cons s L ih =>
      intro ss
      obtain ⟨t, ht, hl⟩ := step_append ss s.2
      rw [List.foldl_cons, ih, ht]
      simp [hl, Nat.add_assoc]
  simpa using this []

theorem stmts_number (b : Body K F) : ∀ (m : Nat) (L1 : List (Nat × Stmt K F)) (n : Nat) (s : Stmt K F) (L2 : List (Nat × Stmt K F)), b.stmts m = L1 ++ (n, s) :: L2 → n = m + numVars L1 := by
  induction b with
  | done => intro m L1 n s L2 h; simp [Body.stmts] at h
  | stmt s rest ih =>
    intro m L1 n s' L2 h
    cases L1 with
    | nil => simp only [Body.stmts, List.nil_append, List.cons.injEq, Prod.mk.injEq] at h; simp [numVars, h.1.1]
    | cons a L1 =>
      simp only [Body.stmts, List.cons_append, List.cons.injEq] at h
      rw [ih _ _ _ _ _ h.2, ← h.1]
      simp [numVars, Nat.add_assoc]
  | add _ _ _ _ rest _ ih =>
    intro m L1 n s L2 h
    exact ih m L1 n s L2 h

/-- the shape of a variable is the same at the end of the method -/
theorem shape_later {b : Body K F} {L L' : List (Nat × Stmt K F)} (h : b.stmts 0 = L ++ L') {x : Nat} (hx : x < numVars L) : (shapesOf L).getD x [] = b.shapes.getD x [] := by
  obtain ⟨t, ht⟩ := shapes_append L L'
  unfold Body.shapes
  rw [h, ht, List.getD_eq_getElem?_getD, List.getD_eq_getElem?_getD, List.getElem?_append_left (by rw [shapes_length]; exact hx)]

theorem shape_call {b : Body K F} {n : Nat} {f : F} {args : List Nat} {s : Shape} (h : b.Has n (.call f args [s])) : b.shapes.getD n [] = s := by
  obtain ⟨L1, L2, hL⟩ := List.append_of_mem h
  have hn := stmts_number b 0 L1 n _ L2 hL
  have hL' : b.stmts 0 = (L1 ++ [(n, .call f args [s])]) ++ L2 := by rw [hL]; simp
  rw [← shape_later hL' (by simp [numVars, Stmt.count] at hn ⊢; omega)]
  have e : shapesOf (L1 ++ [(n, .call f args [s])]) = shapesOf L1 ++ [s] := by simp [shapesOf, stepShapes]
  rw [e, List.getD_eq_getElem?_getD, List.getElem?_append_right (by rw [shapes_length]; omega), shapes_length, hn]
  simp

/-- an operator that is accepted: all operands have the shape of the result -/
theorem shape_expr [Zero K] {b : Body K F} (hm : MethodOk b) {n : Nat} {i : Instr K} (h : b.Has n (.expr i)) : ∀ x ∈ i.first :: i.others, b.shapes.getD x [] = b.shapes.getD n [] := by
  obtain ⟨L1, L2, hL⟩ := List.append_of_mem h
  have hn := stmts_number b 0 L1 n _ L2 hL
  obtain ⟨h1, h2, _⟩ := hm.stmts L1 _ L2 hL
  have hL' : b.stmts 0 = (L1 ++ [(n, .expr i)]) ++ L2 := by rw [hL]; simp
  have e : b.shapes.getD n [] = b.shapes.getD i.first [] := by
    rw [← shape_later hL' (by simp [numVars, Stmt.count] at hn ⊢; omega), ← shape_later hL (h1 _ (by simp))]
    have e : shapesOf (L1 ++ [(n, .expr i)]) = shapesOf L1 ++ [(shapesOf L1).getD i.first []] := by simp [shapesOf, stepShapes]
    rw [e, List.getD_eq_getElem?_getD, List.getElem?_append_right (by rw [shapes_length]; omega), shapes_length, hn]
    simp
  intro x hx
  rw [e]
  rcases List.mem_cons.1 hx with rfl | hx
  · rfl
  · have := h2 x hx
    rwa [shape_later hL (h1 _ (by simp [hx])), shape_later hL (h1 _ (by simp))] at this

/-- the variables of an expression -/
def Ex.vars : Ex → List Nat
  | .sin x | .cos x => [x]
  | .neg a => a.vars
  | .add a b | .sub a b | .mul a b => a.vars ++ b.vars

/-- all variables of an expression that is accepted have the shape of its value -/
theorem ex_shape [Zero K] {b : Body K Fn} (hm : MethodOk b) (sh : Nat → Shape) (e : Ex) : ∀ n, (∀ x ∈ numbered n (e.stmts (K := K) sh n), x ∈ b.stmts 0) →
    ∀ x ∈ e.vars, sh x = b.shapes.getD (n + (e.stmts (K := K) sh n).length - 1) [] := by
  have two : ∀ (a c : Ex) (n : Nat) (i : Instr K), (∀ n, (∀ x ∈ numbered n (a.stmts (K := K) sh n), x ∈ b.stmts 0) → ∀ x ∈ a.vars, sh x = b.shapes.getD (n + (a.stmts (K := K) sh n).length - 1) []) →
      (∀ n, (∀ x ∈ numbered n (c.stmts (K := K) sh n), x ∈ b.stmts 0) → ∀ x ∈ c.vars, sh x = b.shapes.getD (n + (c.stmts (K := K) sh n).length - 1) []) →
      (∀ x ∈ numbered n (a.stmts sh n ++ c.stmts sh (n + (a.stmts (K := K) sh n).length) ++ ([Stmt.expr i] : List (Stmt K Fn))), x ∈ b.stmts 0) →
      i.first :: i.others = [n + (a.stmts (K := K) sh n).length - 1, n + (a.stmts (K := K) sh n).length + (c.stmts (K := K) sh (n + (a.stmts (K := K) sh n).length)).length - 1] →
      ∀ x ∈ a.vars ++ c.vars, sh x = b.shapes.getD (n + (a.stmts sh n ++ c.stmts sh (n + (a.stmts (K := K) sh n).length) ++ ([Stmt.expr i] : List (Stmt K Fn))).length - 1) [] := by
    intro a c n i iha ihc hx hi x hxv
    have ha := (a.counts (K := K) sh n).2
    simp only [numbered_two, List.mem_append] at hx
    have hs := hx _ (Or.inr (Or.inr (List.mem_singleton.2 rfl)))
    have ia := iha n fun x h => hx x (Or.inl h)
    have ic := ihc _ fun x h => hx x (Or.inr (Or.inl h))
    have he := shape_expr hm hs
    rw [hi] at he
    simp only [List.length_append, List.length_singleton]
    generalize (a.stmts (K := K) sh n).length = A at *
    generalize (c.stmts (K := K) sh (n + A)).length = C at *
    rw [show n + (A + C + 1) - 1 = n + A + C by omega]
    rcases List.mem_append.1 hxv with h | h
    · rw [ia x h, he _ (by simp)]
    · rw [ic x h, he _ (by simp)]
  induction e with
  | sin x =>
    intro n hx y hy
    obtain rfl : y = x := by simpa [Ex.vars] using hy
    exact (shape_call (hx _ (List.mem_singleton.2 rfl))).symm
  | cos x =>
    intro n hx y hy
    obtain rfl : y = x := by simpa [Ex.vars] using hy
    exact (shape_call (hx _ (List.mem_singleton.2 rfl))).symm
  | neg a ih =>
    intro n hx x hxv
    obtain ⟨c1, c2⟩ := a.counts (K := K) sh n
    simp only [Ex.stmts, numbered_append, c1, numbered, List.mem_append] at hx
    have hs := hx _ (Or.inr (List.mem_singleton.2 rfl))
    have e := shape_expr hm hs (n + (a.stmts (K := K) sh n).length - 1) (List.mem_cons_self ..)
    rw [ih n (fun x h => hx x (Or.inl h)) x hxv, e]
    simp [Ex.stmts]
  | add a c iha ihc => exact fun n hx => two a c n _ iha ihc hx rfl
  | sub a c iha ihc => exact fun n hx => two a c n _ iha ihc hx rfl
  | mul a c iha ihc => exact fun n hx => two a c n _ iha ihc hx rfl

/-- every entry is assigned a variable of shape (1, 1) -/
theorem fill_shape [Zero K] {b : Body K Fn} (hm : MethodOk b) (sh : Nat → Shape) (R : Nat) (l : List ((Nat × Nat) × Ex)) : ∀ n, Executes b n (fill sh R n l) → ∀ a ∈ l,
    (∀ x ∈ a.2.vars, sh x = [1, 1]) ∧ ∃ L L' y name m k val, b.stmts 0 = L ++ L' ∧ Alias L R y ∧ (y, Stmt.output name [m, k] val) ∈ L ∧ a.1.1 < m ∧ a.1.2 < k := by
  induction l with
  | nil => intro n _ a ha; cases ha
  | cons a l ih =>
    obtain ⟨ij, e⟩ := a
    intro n hc
    obtain ⟨pre, post, hc⟩ := hc
    obtain ⟨c1, c2⟩ := e.counts (K := K) sh n
    simp only [fill, numbered_append, c1, numbered, Stmt.count, Nat.add_zero] at hc
    rw [List.forall_mem_cons]
    constructor
    · have hL : b.stmts 0 = (pre ++ numbered n (e.stmts sh n)) ++ (n + (e.stmts (K := K) sh n).length, Stmt.assign R (.tuple [.int ij.1, .int ij.2]) (n + (e.stmts (K := K) sh n).length - 1)) ::
          (numbered (n + (e.stmts (K := K) sh n).length) (fill sh R (n + (e.stmts (K := K) sh n).length) l) ++ post) := by
        rw [hc]; simp
      obtain ⟨_, hx, y, name, shape, val, idx, hy, hal, ht, _⟩ := hm.stmts _ _ _ hL
      obtain ⟨m, k, rfl, hi, hj, hs⟩ := tgt_entry ht
      rw [shape_later hL hx] at hs
      refine ⟨fun x hx => ?_, _, _, y, name, m, k, val, hL, hal, hy, hi, hj⟩
      rw [ex_shape hm sh e n (fun x hx => by rw [hL]; exact List.mem_append_left _ (List.mem_append_right _ hx)) x hx, hs]
    · refine ih (n + (e.stmts (K := K) sh n).length) ⟨pre ++ numbered n (e.stmts sh n) ++ [(n + (e.stmts (K := K) sh n).length, Stmt.assign R (.tuple [.int ij.1, .int ij.2]) (n + (e.stmts (K := K) sh n).length - 1))], post, ?_⟩
      rw [hc]
      simp

/-- **C79.** A method that calls `body_313(R, p, q, r)` is accepted only if all angles have the shape (1, 1) and `R` is an output with two axes of at least three elements. -/
theorem C79_accepted_shapes_partial [Zero K] {b : Body K Fn} (hm : MethodOk b) {n R p q r : Nat} (hc : Executes b n (body313 (fun x => b.shapes.getD x []) n R p q r)) :
    (∀ x ∈ [p, q, r], b.shapes.getD x [] = [1, 1]) ∧ ∃ L L' y name m k val, b.stmts 0 = L ++ L' ∧ Alias L R y ∧ (y, Stmt.output name [m, k] val) ∈ L ∧ 3 ≤ m ∧ 3 ≤ k := by
  have h := fill_shape hm _ R _ n hc
  refine ⟨fun x hx => (h ((0, 0), _) (List.mem_cons_self ..)).1 x ?_, ?_⟩
  · simp only [Ex.vars, List.mem_append, List.mem_cons, List.not_mem_nil, or_false] at hx ⊢
    tauto
  · obtain ⟨_, L, L', y, name, m, k, val, h1, h2, h3, h4, h5⟩ := h ((2, 2), .cos q) (by simp [entries313])
    exact ⟨L, L', y, name, m, k, val, h1, h2, h3, h4, h5⟩

/-- **C79.** A program that calls `body_313` with an angle of the default shape, (1,), is rejected: running its methods raises an error. -/
theorem C79_scalar_angles_rejected [Field K] [DecidableEq K] {b : Body K Fn} (hn : PlainNames b) {path : List Name} {b' : Body K Fn} (hp : BAt b path b') {n R p q r x : Nat}
    (hc : Executes b' n (body313 (fun x => b'.shapes.getD x []) n R p q r)) (hx : x ∈ [p, q, r]) (hs : b'.shapes.getD x [] = [1]) : ∀ objs root, runProgram b ≠ .ok (objs, root) := by
  intro objs root h
  have hm := (C74_programs_run_iff b hn).1 ⟨objs, root, h⟩ path b' hp
  rw [(C79_accepted_shapes_partial hm hc).1 x hx] at hs
  cases hs

end

/-! ### Example -/

/-- `p`, `q`, `r` are inputs of shape (1, 1), `R = create_output('R', shape=(3, 3))`, `body_313(R, p, q, r)` -/
noncomputable def exRot : Body ℝ Fn :=
  .stmt (.input "p".toList [1, 1] (fun _ => 1)) (.stmt (.input "q".toList [1, 1] (fun _ => 1)) (.stmt (.input "r".toList [1, 1] (fun _ => 1)) (.stmt (.output "R".toList [3, 3] fun _ => 0)
    ((body313 (fun _ => [1, 1]) 4 3 0 1 2).foldr Body.stmt .done))))

theorem exRot_at {path : List Name} {b' : Body ℝ Fn} (h : BAt exRot path b') : path = [] ∧ b' = exRot := by
  cases h with
  | here => exact ⟨rfl, rfl⟩
  | down h1 h2 =>
    have : exRot.subs = [] := rfl
    rw [this] at h1
    cases h1

theorem exRot_good : GoodNames exRot := by
  constructor <;> intro path b' h <;> obtain ⟨_, rfl⟩ := exRot_at h <;> decide +kernel

theorem exRot_noChain : NoChain exRot.toModel := by
  have hiss : issuedPost Local.connections exRot.toModel = [] := by decide +kernel
  constructor
  · intro i hi
    rw [hiss] at hi
    cases hi
  · rw [hiss]; exact .nil

theorem exRot_run : ∃ objs root rep, runProgram exRot = .ok (objs, root) ∧ objs.length = 109 ∧ compile (objects objs) 120 id root = .ok rep := by
  obtain ⟨⟨objs, root⟩, h1, h⟩ := ok_of_check (x := runProgram exRot) (P := fun q => decide (q.1.length = 109) && okCheck (compile (objects q.1) 120 id q.2) fun _ => true)
    (by decide +kernel)
  rw [Bool.and_eq_true] at h
  obtain ⟨rep, h2, h3⟩ := ok_of_check h.2
  exact ⟨objs, root, rep, h1, of_decide_eq_true h.1, h2⟩

theorem exRot_calls : Executes exRot 4 (body313 (fun _ => [1, 1]) 4 3 0 1 2) := ⟨(exRot.stmts 0).take 4, [], by rw [List.append_nil]; rfl⟩

/-- C73 and C79 apply: whatever the values of `p`, `q`, `r`, the compiled program computes the rotation -/
example : ∃ objs root rep, runProgram exRot = .ok (objs, root) ∧ compile (objects objs) 120 id root = .ok rep ∧
    ∃ (f : Nat → Nat) (node : List Name → Nat → Nat), ∀ σ0 : Env (Val ℝ),
      let σ := execAll rep.graph ⟨fun i => decide ((objects objs i).kind = .op), fun i => (objects objs i).deps.map f, opMeaning realPower meaning objs⟩ σ0 rep.sorted
      (Matrix.of fun i j : Fin 3 => σ (node [] 3) [i, j]) = axis3 (σ (node [] 0) [0, 0]) * axis1 (σ (node [] 1) [0, 0]) * axis3 (σ (node [] 2) [0, 0]) := by
  obtain ⟨objs, root, rep, hr, hl, hc⟩ := exRot_run
  have hf : ∀ path b', BAt exRot path b' → (b'.locals.outputs ++ b'.locals.declared).length + objs.length ≤ 120 := by
    intro path b' h
    obtain ⟨_, rfl⟩ := exRot_at h
    rw [hl]
    decide +kernel
  obtain ⟨f, node, _, h2, h3⟩ := C73_programs_mean_what_they_say exRot exRot_good exRot_noChain objs root hr (by rw [hl]; decide) 120 hf id (fun _ _ => Iff.rfl) rep hc
  refine ⟨objs, root, rep, hr, hc, f, node, fun σ0 => ?_⟩
  obtain ⟨sol, _, _⟩ := h3 realPower meaning σ0
  exact C79_body_313_partial sol (.here _) (fun _ => [1, 1]) (n := 4) (R := 3) (p := 0) (q := 1) (r := 2) (m := 3) (k := 3) (name := "R".toList) (val := fun _ => 0)
    (by rw [Body.Has]; exact List.mem_of_mem_take (i := 4) (by simp [exRot, Body.stmts, Stmt.count])) (Nat.le_refl 3) (Nat.le_refl 3) (by decide) (by decide) (by decide) exRot_calls

/-- the same program with angles of shape (1,) -/
noncomputable def exScalar : Body ℝ Fn :=
  .stmt (.input "p".toList [1] (fun _ => 1)) (.stmt (.input "q".toList [1] (fun _ => 1)) (.stmt (.input "r".toList [1] (fun _ => 1)) (.stmt (.output "R".toList [3, 3] fun _ => 0)
    ((body313 (fun _ => [1]) 4 3 0 1 2).foldr Body.stmt .done))))

/-- `C79_scalar_angles_rejected` applies -/
example : ∀ objs root, runProgram exScalar ≠ .ok (objs, root) := by
  have hat : ∀ {path : List Name} {b' : Body ℝ Fn}, BAt exScalar path b' → path = [] ∧ b' = exScalar := by
    intro path b' h
    cases h with
    | here => exact ⟨rfl, rfl⟩
    | down h1 h2 =>
      have : exScalar.subs = [] := rfl
      rw [this] at h1
      cases h1
  have hg : GoodNames exScalar := by
    constructor <;> intro path b' h <;> obtain ⟨_, rfl⟩ := hat h <;> decide +kernel
  refine C79_scalar_angles_rejected (plainNames hg fun _ => by decide +kernel) (.here _) (n := 4) (R := 3) (p := 0) (q := 1) (r := 2) (x := 0) ?_ (by simp) rfl
  have e : body313 (K := ℝ) (fun x => exScalar.shapes.getD x []) 4 3 0 1 2 = body313 (fun _ => [1]) 4 3 0 1 2 := by
    have e0 : exScalar.shapes.getD 0 [] = [1] := rfl
    have e1 : exScalar.shapes.getD 1 [] = [1] := rfl
    have e2 : exScalar.shapes.getD 2 [] = [1] := rfl
    simp only [body313, entries313, fill, Ex.stmts, e0, e1, e2]
  rw [e]
  exact ⟨(exScalar.stmts 0).take 4, [], by rw [List.append_nil]; rfl⟩

end Csdl.Elem
