import Verif.Props.Embed
import Mathlib.Analysis.SpecialFunctions.Pow.Real
/-
C117: real programs with complex numbers.
-/
namespace Csdl.Prog
open Csdl Csdl.Arith
variable {F : Type}

/-- powers of real numbers, as in NumPy where it returns a number -/
noncomputable def realPower : Power ℝ := ⟨fun a c => a ^ c, Real.rpow_one, Real.rpow_neg_one⟩

/-- powers of complex numbers, as in NumPy -/
noncomputable def complexPower : Power ℂ := ⟨fun a c => a ^ c, Complex.cpow_one, Complex.cpow_neg_one⟩

/-- **C117, complex numbers.** A real program whose exponents are integers satisfies the hypothesis of C117 with the usual powers of real and complex numbers, if its functions on complex numbers extend those on real numbers. -/
theorem C117_complex_powers (b : Body ℝ F) (h : ∀ c, Exponent c b → ∃ n : ℤ, c = n) (den : F → List (Val ℝ) → Nat → Val ℝ) (den' : F → List (Val ℂ) → Nat → Val ℂ)
    (hd : ∀ f args j, den' f (args.map fun v i => (v i : ℂ)) j = fun i => (den f args j i : ℂ)) : Extends Complex.ofRealHom b realPower complexPower den den' := by
  refine ⟨fun a c hc => ?_, fun f args j => hd f args j⟩
  obtain ⟨n, rfl⟩ := h c hc
  show (a : ℂ) ^ ((n : ℝ) : ℂ) = ((a ^ (n : ℝ) : ℝ) : ℂ)
  rw [Real.rpow_intCast, Complex.ofReal_zpow, Complex.ofReal_intCast, Complex.cpow_intCast]

/-- `x = create_input('x', val=3); y = x ** 2 * 0.5; register_output('y', y)` -/
noncomputable def exReal : Body ℝ Empty :=
  .stmt (.input "x".toList [1] fun _ => 3) (.stmt (.expr (.powc 0 (.num 2))) (.stmt (.expr (.mulc 1 (.num 0.5))) (.stmt (.register "y".toList 2) .done)))

/-- the exponent of `exReal` is an integer -/
example : Extends Complex.ofRealHom exReal realPower complexPower (fun f => f.elim) (fun f => f.elim) :=
  C117_complex_powers exReal (fun c h => by
    simp only [exReal, Exponent, exponentOf, Const.val, false_or, or_false] at h
    exact ⟨2, by rw [← h.choose_spec]; norm_num⟩) _ _ fun f => f.elim

end Csdl.Prog
