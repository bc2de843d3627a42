import Verif.Spec.Elementwise
import Mathlib.Tactic.Linarith
import Mathlib.Tactic.FieldSimp
import Mathlib.Tactic.Ring
/-!
# C76 (inverse hyperbolic functions), C77 (elementwise functions)
-/
namespace Csdl.Elem
open Csdl Csdl.Arith Csdl.Prog

section
variable {F : Type} {name : Fn → F} {den : F → List (Val ℝ) → Nat → Val ℝ} {b b' : Body ℝ F} {ρ : List Name → Nat → Val ℝ} {path : List Name}

/-- the value of an operator's result -/
theorem sol_expr (h : Solution realPower den b ρ) (hp : BAt b path b') {n : Nat} {i : Instr ℝ} (hs : b'.Has n (.expr i)) (hl : b'.Live n) :
    ρ path n = i.meaning realPower ((List.range n).map (ρ path)) := h.expr path b' hp n i hs hl

theorem getD_range (ρ : Nat → Val ℝ) {n x : Nat} (hx : x < n) (d : Val ℝ) : ((List.range n).map ρ).getD x d = ρ x := by
  rw [List.getD_eq_getElem?_getD, List.getElem?_map, List.getElem?_range hx]; rfl

theorem sol_log (hd : Means name den) (h : Solution realPower den b ρ) (hp : BAt b path b') {n y : Nat} {s : Shape} (hs : b'.Has n ((apply .log s y).mapFn name)) (hl : b'.Live n) (k : List Nat) :
    ρ path n k = Real.log (ρ path y k) := by
  have := h.call path b' hp n (name .log) [y] [s] hs 0 (by simp) hl
  rw [Nat.add_zero, hd] at this
  rw [this]
  rfl

theorem live_expr {n x : Nat} {i : Instr ℝ} (hl : b'.Live n) (hs : b'.Has n (.expr i)) (hx : x ∈ i.first :: i.others) : b'.Live x :=
  .operand hl hs (Nat.le_refl n) (Nat.lt_succ_self n) hx

theorem live_call {n x : Nat} {f : Fn} {s : Shape} (hl : b'.Live n) (hs : b'.Has n ((apply f s x).mapFn name)) : b'.Live x :=
  .operand hl hs (Nat.le_refl n) (Nat.lt_succ_self n) (by simp [apply, Stmt.operands, Stmt.mapFn])

/-- the value computed by the statements of an inverse hyperbolic function -/
noncomputable def Inv.formula : Inv → ℝ → ℝ
  | .arsinh, x => Real.log (x + √(x ^ 2 + 1))
  | .arcosh, x => Real.log (x + √(x ^ 2 - 1))
  | .artanh, x => 1 / 2 * Real.log ((1 + x) / (1 - x))
  | .arcoth, x => 1 / 2 * Real.log ((x + 1) / (x - 1))
  | .arsech, x => Real.log (1 + √(1 - x ^ 2) / x)
  | .arcsch, x => Real.log (1 / x + √(1 / x ^ 2 + 1))

theorem half_pow (x : ℝ) : realPower.pow x (1 / 2) = √x := (Real.sqrt_eq_rpow x).symm
theorem two_pow (x : ℝ) : realPower.pow x 2 = x ^ 2 := Real.rpow_two x

/-- what the result is -/
theorem inv_formula (hd : Means name den) (h : Solution realPower den b ρ) (hp : BAt b path b') {f : Inv} {s : Shape} {n x r : Nat} (hx : x < n) (hc : Contains name b' n (f.stmts s n x)) (hr : f.result n = some r)
    (hl : b'.Live r) (k : List Nat) : ρ path r k = f.formula (ρ path x k) := by
  cases f with
  | arcsch => cases hr
  | arsinh =>
    cases hr
    have h0 := hc 0 _ rfl
    have h1 := hc 1 _ rfl
    have h2 := hc 2 _ rfl
    have h3 := hc 3 _ rfl
    have h4 := hc 4 _ rfl
    have l3 := live_call hl h4
    have l2 : b'.Live (n + 2) := live_expr l3 h3 (by simp [Instr.first, Instr.others])
    have l1 : b'.Live (n + 1) := live_expr l2 h2 (by simp [Instr.first, Instr.others])
    have l0 : b'.Live (n + 0) := live_expr l1 h1 (by simp [Instr.first, Instr.others])
    have e4 := sol_log hd h hp h4 hl k
    have e3 := congrFun (sol_expr h hp h3 l3) k
    have e2 := congrFun (sol_expr h hp h2 l2) k
    have e1 := congrFun (sol_expr h hp h1 l1) k
    have e0 := congrFun (sol_expr h hp h0 l0) k
    simp (disch := omega) only [Instr.meaning, getD_range, Const.val, half_pow, two_pow, Nat.add_zero] at e0 e1 e2 e3
    rw [e4, e3, e2, e1, e0]; rfl
  | arcosh =>
    cases hr
    have h0 := hc 0 _ rfl
    have h1 := hc 1 _ rfl
    have h2 := hc 2 _ rfl
    have h3 := hc 3 _ rfl
    have h4 := hc 4 _ rfl
    have l3 := live_call hl h4
    have l2 : b'.Live (n + 2) := live_expr l3 h3 (by simp [Instr.first, Instr.others])
    have l1 : b'.Live (n + 1) := live_expr l2 h2 (by simp [Instr.first, Instr.others])
    have l0 : b'.Live (n + 0) := live_expr l1 h1 (by simp [Instr.first, Instr.others])
    have e4 := sol_log hd h hp h4 hl k
    have e3 := congrFun (sol_expr h hp h3 l3) k
    have e2 := congrFun (sol_expr h hp h2 l2) k
    have e1 := congrFun (sol_expr h hp h1 l1) k
    have e0 := congrFun (sol_expr h hp h0 l0) k
    simp (disch := omega) only [Instr.meaning, getD_range, Const.val, half_pow, two_pow, Nat.add_zero] at e0 e1 e2 e3
    rw [e4, e3, e2, e1, e0]; rfl
  | artanh =>
    cases hr
    have h0 := hc 0 _ rfl
    have h1 := hc 1 _ rfl
    have h2 := hc 2 _ rfl
    have h3 := hc 3 _ rfl
    have h4 := hc 4 _ rfl
    have l3 : b'.Live (n + 3) := live_expr hl h4 (by simp [Instr.first, Instr.others])
    have l2 := live_call l3 h3
    have l1 : b'.Live (n + 1) := live_expr l2 h2 (by simp [Instr.first, Instr.others])
    have l0 : b'.Live (n + 0) := live_expr l2 h2 (by simp [Instr.first, Instr.others])
    have e4 := congrFun (sol_expr h hp h4 hl) k
    have e3 := sol_log hd h hp h3 l3 k
    have e2 := congrFun (sol_expr h hp h2 l2) k
    have e1 := congrFun (sol_expr h hp h1 l1) k
    have e0 := congrFun (sol_expr h hp h0 l0) k
    simp (disch := omega) only [Instr.meaning, getD_range, Const.val, half_pow, two_pow, Nat.add_zero] at e0 e1 e2 e4
    rw [e4, e3, e2, e1, e0, add_comm, mul_comm]; rfl
  | arcoth =>
    cases hr
    have h0 := hc 0 _ rfl
    have h1 := hc 1 _ rfl
    have h2 := hc 2 _ rfl
    have h3 := hc 3 _ rfl
    have h4 := hc 4 _ rfl
    have l3 : b'.Live (n + 3) := live_expr hl h4 (by simp [Instr.first, Instr.others])
    have l2 := live_call l3 h3
    have l1 : b'.Live (n + 1) := live_expr l2 h2 (by simp [Instr.first, Instr.others])
    have l0 : b'.Live (n + 0) := live_expr l2 h2 (by simp [Instr.first, Instr.others])
    have e4 := congrFun (sol_expr h hp h4 hl) k
    have e3 := sol_log hd h hp h3 l3 k
    have e2 := congrFun (sol_expr h hp h2 l2) k
    have e1 := congrFun (sol_expr h hp h1 l1) k
    have e0 := congrFun (sol_expr h hp h0 l0) k
    simp (disch := omega) only [Instr.meaning, getD_range, Const.val, half_pow, two_pow, Nat.add_zero] at e0 e1 e2 e4
    rw [e4, e3, e2, e1, e0, mul_comm]; rfl
  | arsech =>
    cases hr
    have h0 := hc 0 _ rfl
    have h1 := hc 1 _ rfl
    have h2 := hc 2 _ rfl
    have h3 := hc 3 _ rfl
    have h4 := hc 4 _ rfl
    have h5 := hc 5 _ rfl
    have l4 := live_call hl h5
    have l3 : b'.Live (n + 3) := live_expr l4 h4 (by simp [Instr.first, Instr.others])
    have l2 : b'.Live (n + 2) := live_expr l3 h3 (by simp [Instr.first, Instr.others])
    have l1 : b'.Live (n + 1) := live_expr l2 h2 (by simp [Instr.first, Instr.others])
    have l0 : b'.Live (n + 0) := live_expr l1 h1 (by simp [Instr.first, Instr.others])
    have e5 := sol_log hd h hp h5 hl k
    have e4 := congrFun (sol_expr h hp h4 l4) k
    have e3 := congrFun (sol_expr h hp h3 l3) k
    have e2 := congrFun (sol_expr h hp h2 l2) k
    have e1 := congrFun (sol_expr h hp h1 l1) k
    have e0 := congrFun (sol_expr h hp h0 l0) k
    simp (disch := omega) only [Instr.meaning, getD_range, Const.val, half_pow, two_pow, Nat.add_zero] at e0 e1 e2 e3 e4
    rw [e5, e4, e3, e2, e1, e0, add_comm]; rfl

/-! ### C76 -/

/-- C76, arsinh: the result of `csdl.arsinh(x)` is, element by element, the number whose hyperbolic sine is `x`. -/
theorem C76_arsinh_partial (hd : Means name den) (h : Solution realPower den b ρ) (hp : BAt b path b') {s : Shape} {n x r : Nat} (hx : x < n) (hc : Contains name b' n (Inv.arsinh.stmts s n x)) (hr : Inv.arsinh.result n = some r)
    (hl : b'.Live r) (k : List Nat) : Real.sinh (ρ path r k) = ρ path x k := by
  rw [inv_formula hd h hp hx hc hr hl k]
  have : Inv.arsinh.formula (ρ path x k) = Real.arsinh (ρ path x k) := by
    unfold Inv.formula Real.arsinh
    rw [add_comm 1]
  rw [this, Real.sinh_arsinh]

/-- C76, arcosh: for elements not below 1, the result is the number not below 0 whose hyperbolic cosine is `x`. -/
theorem C76_arcosh_partial (hd : Means name den) (h : Solution realPower den b ρ) (hp : BAt b path b') {s : Shape} {n x r : Nat} (hx : x < n) (hc : Contains name b' n (Inv.arcosh.stmts s n x)) (hr : Inv.arcosh.result n = some r)
    (hl : b'.Live r) (k : List Nat) (hk : 1 ≤ ρ path x k) : Real.cosh (ρ path r k) = ρ path x k ∧ 0 ≤ ρ path r k := by
  rw [inv_formula hd h hp hx hc hr hl k]
  exact ⟨Real.cosh_arcosh hk, Real.arcosh_nonneg hk⟩

/-- C76, artanh: for elements between -1 and 1, the result is the number whose hyperbolic tangent is `x`. -/
theorem C76_artanh_partial (hd : Means name den) (h : Solution realPower den b ρ) (hp : BAt b path b') {s : Shape} {n x r : Nat} (hx : x < n) (hc : Contains name b' n (Inv.artanh.stmts s n x)) (hr : Inv.artanh.result n = some r)
    (hl : b'.Live r) (k : List Nat) (hk : -1 < ρ path x k ∧ ρ path x k < 1) : Real.tanh (ρ path r k) = ρ path x k := by
  rw [inv_formula hd h hp hx hc hr hl k]
  have : Inv.artanh.formula (ρ path x k) = Real.artanh (ρ path x k) := (Real.artanh_eq_half_log ⟨hk.1.le, hk.2.le⟩).symm
  rw [this, Real.tanh_artanh hk]

/-- C76, arcoth: for elements above 1 or below -1, the result is the number whose hyperbolic cotangent is `x`. -/
theorem C76_arcoth_partial (hd : Means name den) (h : Solution realPower den b ρ) (hp : BAt b path b') {s : Shape} {n x r : Nat} (hx : x < n) (hc : Contains name b' n (Inv.arcoth.stmts s n x)) (hr : Inv.arcoth.result n = some r)
    (hl : b'.Live r) (k : List Nat) (hk : 1 < ρ path x k ∨ ρ path x k < -1) : Real.cosh (ρ path r k) / Real.sinh (ρ path r k) = ρ path x k := by
  rw [inv_formula hd h hp hx hc hr hl k]
  set y := ρ path x k
  have hy : y ≠ 0 := by rcases hk with hk | hk <;> intro h0 <;> rw [h0] at hk <;> linarith
  have hin : -1 < 1 / y ∧ 1 / y < 1 := by
    rcases hk with hk | hk
    · have : 0 < y := by linarith
      exact ⟨by have := one_div_pos.2 this; linarith, by rw [div_lt_one this]; exact hk⟩
    · have : y < 0 := by linarith
      exact ⟨by rw [lt_div_iff_of_neg this]; linarith, by have := one_div_neg.2 this; linarith⟩
  have : Inv.arcoth.formula y = Real.artanh (1 / y) := by
    rw [Real.artanh_eq_half_log ⟨hin.1.le, hin.2.le⟩]
    unfold Inv.formula
    congr 2
    rw [show (1 + 1 / y) = (y + 1) / y by field_simp, show (1 - 1 / y) = (y - 1) / y by field_simp, div_div_div_cancel_right₀ hy]
  have ht := Real.tanh_artanh hin
  rw [Real.tanh_eq_sinh_div_cosh] at ht
  rw [this, ← inv_div, ht, one_div, inv_inv]

/-- C76 is false for arsech: for every element above 0 and below 1, the hyperbolic secant of the result is not `x`.  (It is right only at 1.) -/
theorem C76_arsech_refuted (hd : Means name den) (h : Solution realPower den b ρ) (hp : BAt b path b') {s : Shape} {n x r : Nat} (hx : x < n) (hc : Contains name b' n (Inv.arsech.stmts s n x)) (hr : Inv.arsech.result n = some r)
    (hl : b'.Live r) (k : List Nat) (hk : 0 < ρ path x k ∧ ρ path x k ≤ 1) : 1 / Real.cosh (ρ path r k) = ρ path x k ↔ ρ path x k = 1 := by
  rw [inv_formula hd h hp hx hc hr hl k]
  set y := ρ path x k
  obtain ⟨hy0, hy1⟩ := hk
  have hs0 : 0 ≤ √(1 - y ^ 2) := Real.sqrt_nonneg _
  have hsq : √(1 - y ^ 2) ^ 2 = 1 - y ^ 2 := Real.sq_sqrt (by nlinarith)
  set q := √(1 - y ^ 2)
  have hpos : 0 < 1 + q / y := by positivity
  have hcosh : Real.cosh (Inv.arsech.formula y) = ((1 + q / y) + (1 + q / y)⁻¹) / 2 := by
    show Real.cosh (Real.log (1 + q / y)) = _
    rw [Real.cosh_eq, Real.exp_neg, Real.exp_log hpos]
  rw [hcosh]
  have hyq : 0 < y + q := by positivity
  have hform : ((1 + q / y) + (1 + q / y)⁻¹) / 2 = ((y + q) ^ 2 + y ^ 2) / (2 * y * (y + q)) := by
    rw [show 1 + q / y = (y + q) / y by field_simp]
    field_simp
  rw [hform, one_div_div]
  constructor
  · intro he
    rw [div_eq_iff (by positivity)] at he
    have h2 : 2 * (y + q) = (y + q) ^ 2 + y ^ 2 := by
      have : y * (2 * (y + q)) = y * ((y + q) ^ 2 + y ^ 2) := by linarith
      exact mul_left_cancel₀ hy0.ne' this
    have h3 : (1 - y) * (2 * q - (1 - y)) = 0 := by nlinarith
    rcases mul_eq_zero.1 h3 with h3 | h3
    · linarith
    · have hq : q = (1 - y) / 2 := by linarith
      rw [hq] at hsq
      have : (1 - y) * (5 * y + 3) = 0 := by nlinarith
      rcases mul_eq_zero.1 this with h4 | h4 <;> linarith
  · intro he
    have : q = 0 := by
      have : q ^ 2 = 0 := by rw [hsq, he]; ring
      exact pow_eq_zero_iff (two_ne_zero) |>.1 this
    rw [this, he]; norm_num

/-- C76 is false for arcsch: it returns None. -/
theorem C76_arcsch_refuted (n : Nat) : Inv.arcsch.result n = none := rfl

/-- C76, shapes: the statements of each function are accepted where `x` exists and have the shape of `x`: after them, all new variables have shape `s` if `x` has. -/
theorem C76_shapes_partial (f : Inv) (ss : List Shape) (s : Shape) (x : Nat) (hx : x < ss.length) (hs : ss.getD x [] = s) :
    (f.stmts (K := ℝ) s ss.length x).foldl stepShapes ss = ss ++ List.replicate (f.stmts (K := ℝ) s ss.length x).length s := by
  have g : ∀ j, j < ss.length → ∀ t : List Shape, (ss ++ t).getD j [] = ss.getD j [] := by
    intro j hj t
    simp only [List.getD_eq_getElem?_getD, List.getElem?_append_left hj]
  have g' : ∀ (t : List Shape) (j : Nat), (ss ++ t).getD (ss.length + j) [] = t.getD j [] := by
    intro t j
    simp only [List.getD_eq_getElem?_getD, List.getElem?_append_right (Nat.le_add_right _ _), Nat.add_sub_cancel_left]
  have g0 : ∀ (t : List Shape), (ss ++ t).getD ss.length [] = t.getD 0 [] := fun t => g' t 0
  cases f <;> simp [Inv.stmts, apply, stepShapes, Instr.first, g x hx, g', g0, hs, List.replicate, -List.getD_eq_getElem?_getD] <;> simp_all
end

/-! ### C77 -/

/-- C77: the text of every elementwise operation is an assignment to its result of an expression whose value is the function of the argument. -/
theorem C77_text_denotes (f : Fn) (out inp : Name) (env : Name → ℝ) : Assigns env out (text out inp f) (f.meaning (env inp)) := by
  have h : ∀ (g : String) (φ ψ : ℝ → ℝ), numpy g = some φ → φ (env inp) = ψ (env inp) → Assigns env out (plain g out inp) (ψ (env inp)) := by
    intro g φ ψ h1 h2
    exact ⟨_, rfl, by simp only [evalText, h1, Option.map_some, h2]⟩
  have h' : ∀ (g : String) (φ ψ : ℝ → ℝ), numpy g = some φ → 1 / φ (env inp) = ψ (env inp) → Assigns env out (recipr g out inp) (ψ (env inp)) := by
    intro g φ ψ h1 h2
    exact ⟨_, rfl, by simp only [evalText, h1, Option.map_some, h2]⟩
  cases f
  · exact h _ _ _ rfl rfl
  · exact h _ _ _ rfl rfl
  · exact h _ _ (Fn.meaning .tan) rfl (Real.tan_eq_sin_div_cos _)
  · exact h' _ _ (Fn.meaning .sec) rfl rfl
  · exact h' _ _ (Fn.meaning .cosec) rfl rfl
  · exact h' _ _ (Fn.meaning .cotan) rfl (by rw [Real.tan_eq_sin_div_cos, one_div_div]; rfl)
  · exact h _ _ _ rfl rfl
  · exact h _ _ _ rfl rfl
  · exact h _ _ (Fn.meaning .tanh) rfl (Real.tanh_eq_sinh_div_cosh _)
  · exact h' _ _ (Fn.meaning .sech) rfl rfl
  · exact h' _ _ (Fn.meaning .cosech) rfl rfl
  · exact h' _ _ (Fn.meaning .cotanh) rfl (by rw [Real.tanh_eq_sinh_div_cosh, one_div_div]; rfl)
  · exact h _ _ _ rfl rfl
  · exact h _ _ _ rfl rfl
  · exact h _ _ _ rfl rfl
  · exact h _ _ _ rfl rfl
  · exact h _ _ _ rfl rfl
  · exact h _ _ _ rfl rfl
  · exact h _ _ _ rfl rfl
  · exact h _ _ _ rfl rfl
  · exact h _ _ (Fn.meaning .log10) rfl rfl

/-! ### C78 -/

/-- C78, `exp_a`: it is accepted exactly if the exponent is a variable and the base is a number, or an array or a variable of shape (1,) or of the shape of the exponent; the result has the shape of the exponent. -/
theorem C78_exp_a_accepted_iff {K : Type} (a : Base K) (x : Option Shape) (r : Shape) :
    expA a x = .ok r ↔ x = some r ∧ ((∃ c, a = .num c) ∨ ∃ t, (a = .arr t ∨ a = .var t) ∧ (t = [1] ∨ t = r)) := by
  cases x with
  | none => simp [expA]
  | some s =>
    cases a with
    | num c => simp [expA]
    | other => simp [expA]
    | arr t =>
      unfold expA
      dsimp only
      split
      · rename_i h
        constructor
        · intro e; cases e
        · rintro ⟨e, ⟨c, hc⟩ | ⟨t', h1, h2⟩⟩
          · cases hc
          · cases e
            rcases h1 with h1 | h1 <;> cases h1
            rcases h2 with h2 | h2
            · exact absurd h2 h.1
            · exact absurd h2 h.2
      · rename_i h
        have h2 : t = [1] ∨ t = s := by
          by_contra hc; rw [not_or] at hc; exact h hc
        rw [Except.ok.injEq, Option.some.injEq]
        exact ⟨fun e => ⟨e, Or.inr ⟨t, Or.inl rfl, e ▸ h2⟩⟩, fun e => e.1⟩
    | var t =>
      unfold expA
      dsimp only
      split
      · rename_i h
        constructor
        · intro e; cases e
        · rintro ⟨e, ⟨c, hc⟩ | ⟨t', h1, h2⟩⟩
          · cases hc
          · cases e
            rcases h1 with h1 | h1 <;> cases h1
            rcases h2 with h2 | h2
            · exact absurd h2 h.1
            · exact absurd h2 h.2
      · rename_i h
        have h2 : t = [1] ∨ t = s := by
          by_contra hc; rw [not_or] at hc; exact h hc
        rw [Except.ok.injEq, Option.some.injEq]
        exact ⟨fun e => ⟨e, Or.inr ⟨t, Or.inr rfl, e ▸ h2⟩⟩, fun e => e.1⟩

/-- C78, `exp_a` (partial): for a base that is a number not below zero, the text is an assignment of the power. -/
theorem C78_exp_a_text_partial (c : ℝ) (hc : 0 ≤ c) (out inp : Name) (env : Name → ℝ) : Assigns env out (expAText out inp (.num c)) (c ^ env inp) := by
  refine ⟨_, rfl, ?_⟩
  rw [if_neg (not_lt.2 hc)]
  rfl

/-- C78 is false for negative bases: `exp_a(-2, x)` at `x = 2` gives 4, the text -4; -/
theorem C78_exp_a_text_negative : ∃ (c : ℝ) (env : Name → ℝ), c = -2 ∧ env "x".toList = 2 ∧ c ^ env "x".toList = 4 ∧ ∀ v, Assigns env "y".toList (expAText "y".toList "x".toList (.num c)) v → v = -4 := by
  refine ⟨-2, fun _ => 2, rfl, rfl, by norm_num [Real.rpow_two], ?_⟩
  rintro v ⟨r, h1, h2⟩
  simp only [expAText, List.cons_append, List.nil_append, List.cons.injEq, true_and] at h1
  rw [← h1] at h2
  rw [if_pos (by norm_num)] at h2
  simp only [List.cons_append, List.nil_append, evalText, Option.some.injEq] at h2
  rw [← h2]
  norm_num [Real.rpow_two]

/-- and for a base that is an array or a variable the text is no expression. -/
theorem C78_exp_a_text_objects (t : Shape) (a : Base ℝ) (ha : a = .arr t ∨ a = .var t) (out inp : Name) (env : Name → ℝ) (v : ℝ) : ¬ Assigns env out (expAText out inp a) v := by
  rintro ⟨r, h1, h2⟩
  rcases ha with rfl | rfl <;> simp only [expAText, List.cons.injEq, true_and] at h1 <;> rw [← h1] at h2 <;> simp [evalText] at h2

/-- C78, `bessel`: it is accepted exactly if the argument is a variable, the kind is 1 or 2, and the order is a number or an array of the shape of the argument; the result has this shape. -/
theorem C78_bessel_accepted_iff (x : Option Shape) (kind : Option Int) (order : Order) (r : Shape) :
    bessel x kind order = .ok r ↔ x = some r ∧ (kind = some 1 ∨ kind = some 2) ∧ (order = .num ∨ order = .arr r) := by
  unfold bessel
  cases x with
  | none => simp
  | some s =>
    dsimp only
    by_cases hk : kind = some 1 ∨ kind = some 2
    · rw [if_pos hk]
      cases order with
      | num => simp [hk]
      | other => simp
      | arr t =>
        by_cases h : s ≠ t
        · simp only [h, if_true, not_false_eq_true, ne_eq]
          simp only [reduceCtorEq, Option.some.injEq, Order.arr.injEq, false_or, false_iff, not_and]
          rintro rfl _ rfl; exact h rfl
        · have : s = t := not_not.1 h
          subst this
          simp only [ne_eq, not_true, if_false, Except.ok.injEq, Option.some.injEq, Order.arr.injEq, reduceCtorEq, false_or, hk, true_and]
          exact ⟨fun e => ⟨e, e⟩, fun e => e.1⟩
    · rw [if_neg hk]; simp [hk]

/-! ### examples -/

/-- `x = self.create_input('x', shape=(3,)); y = csdl.arsinh(x); self.register_output('y', y)` -/
noncomputable def exProg : Body ℝ Fn :=
  .stmt (.input "x".toList [3] (fun _ => 1)) ((Inv.arsinh.stmts [3] 1 0).foldr Body.stmt (.stmt (.register "y".toList 5) .done))

theorem exProg_at {path : List Name} {b' : Body ℝ Fn} (h : BAt exProg path b') : b' = exProg := by
  cases h with
  | here => rfl
  | down h1 h2 => simp [exProg, Inv.stmts, Body.subs] at h1

/-- the hypotheses of `C76_arsinh_partial` hold, with the solution where `x` is 0 -/
example : Means id meaning ∧ ∃ ρ, Solution realPower meaning exProg ρ ∧ BAt exProg [] exProg ∧ Contains id exProg 1 (Inv.arsinh.stmts [3] 1 0) ∧ Inv.arsinh.result 1 = some 5 ∧ exProg.Live 5 := by
  refine ⟨fun _ _ => rfl, ?_⟩
  let ρ : List Name → Nat → Val ℝ := fun _ n _ => if n = 2 ∨ n = 3 ∨ n = 4 then 1 else 0
  have hn : ∀ x name, exProg.Named x name → x = 0 ∨ x = 5 := by
    intro x name h
    simp [Body.Named, exProg, Inv.stmts, apply, Body.stmts, Stmt.count, inputOf, declaredOf, outputOf] at h
    tauto
  have hz : ∀ path x p, HasName exProg path x p → ∀ k, ρ path x k = 0 := by
    rintro path x p ⟨b', name, _, _, hb, _, hx, _⟩ k
    rw [exProg_at hb] at hx
    rcases hn x name hx with rfl | rfl <;> simp [ρ]
  refine ⟨ρ, ?_, .here _, ?_, rfl, ?_⟩
  · refine ⟨fun path b' hb n i hi _ => ?_, fun path b' hb n f args outs hi j hj _ => ?_, fun path b' hb n x key hi _ => ?_, fun path b' hb y name shape val hi => ?_, fun path x path' y p h1 h2 => ?_, fun path b' hb s t p q hc _ _ path1 x path2 y h1 h2 => ?_⟩
    · rw [exProg_at hb] at hi
      funext k
      simp [Body.Has, exProg, Inv.stmts, apply, Body.stmts, Stmt.count] at hi
      rcases hi with ⟨rfl, rfl⟩ | ⟨rfl, rfl⟩ | ⟨rfl, rfl⟩ | ⟨rfl, rfl⟩ <;>
        simp (disch := omega) only [Instr.meaning, getD_range] <;> simp [Const.val, realPower, ρ]
    · rw [exProg_at hb] at hi
      funext k
      simp [Body.Has, exProg, Inv.stmts, apply, Body.stmts, Stmt.count] at hi
      obtain ⟨rfl, rfl, rfl, rfl⟩ := hi
      simp at hj
      subst hj
      simp [meaning, Fn.meaning, ρ]
    · rw [exProg_at hb] at hi
      simp [Body.Has, exProg, Inv.stmts, apply, Body.stmts, Stmt.count] at hi
    · rw [exProg_at hb] at hi
      simp [Body.Has, exProg, Inv.stmts, apply, Body.stmts, Stmt.count] at hi
    · funext k; rw [hz path x p h1 k, hz path' y p h2 k]
    · funext k; rw [hz path1 x p h1 k, hz path2 y q h2 k]
  · intro j s hj
    rcases j with _ | _ | _ | _ | _ | j <;> simp [Inv.stmts] at hj <;> subst hj <;> simp [Body.Has, exProg, Inv.stmts, apply, Body.stmts, Stmt.count, Stmt.mapFn]
  · exact .output (name := "y".toList) (by simp [exProg, Inv.stmts, apply, Body.stmts, Stmt.count, outputOf])

end Csdl.Elem
