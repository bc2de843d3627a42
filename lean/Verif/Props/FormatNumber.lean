import Verif.Proofs.FormatNumber
/-
C106: the values shown in the analytics report.
-/
namespace Csdl.FormatNumber

/-- **C106 (numbers).** For every number `x`, the text that `format_number` makes of it is the decimal text of exactly one number, and that number differs from `x` by at most half a percent of `x`. -/
theorem C106_format_number (x : ℚ) : ∃ y, (∀ z, Stands (formatNumber x) z ↔ z = y) ∧ |y - x| ≤ |x| / 200 := by
  have : ∃ y, Stands (formatNumber x) y ∧ |y - x| ≤ |x| / 200 := by
    rw [formatNumber_eq]
    by_cases h0 : x = 0
    · rw [if_pos h0]
      have k := Stands.pos (Unsigned.plain (Plain.intro (i := ['0']) (f := ['0']) (by simp [IsDigits, Char.isDigit]) (by simp [IsDigits, Char.isDigit])))
      refine ⟨_, k, ?_⟩
      subst h0
      norm_num [digitsValue]
    · have hpos : 0 < |x| := abs_pos.2 h0
      have sci : ∃ z, Stands (shorten (signed x scientific2)) z ∧ |z - x| ≤ |x| / 200 := by
        obtain ⟨y, h1, h2⟩ := scientific2_close hpos
        exact shorten_signed h1 h2
      rw [if_neg h0]
      by_cases h1 : |x| < 1
      · rw [if_pos h1]; exact sci
      · rw [if_neg h1]
        by_cases h2 : |x| < 10
        · rw [if_pos h2]
          obtain ⟨y, k1, k2⟩ := fixed3_close (not_lt.1 h1)
          exact shorten_signed k1 (k2.trans (by linarith))
        · rw [if_neg h2]; exact sci
  obtain ⟨y, h1, h2⟩ := this
  exact ⟨y, fun z => ⟨fun hz => hz.unique h1, fun e => e ▸ h1⟩, h2⟩

/-- **C106 (zero and sign).** The text stands for zero only if the number is zero, and it has a minus sign only if the number is negative. -/
theorem C106_sign (x y : ℚ) (h : Stands (formatNumber x) y) : (y = 0 ↔ x = 0) ∧ (y < 0 ↔ x < 0) := by
  obtain ⟨z, h1, h2⟩ := C106_format_number x
  obtain rfl := (h1 y).1 h
  rw [abs_le] at h2
  rcases lt_trichotomy x 0 with hx | rfl | hx
  · rw [abs_of_neg hx] at h2
    have : y < 0 := by linarith [h2.2]
    exact ⟨⟨fun e => absurd e this.ne, fun e => absurd e hx.ne⟩, ⟨fun _ => hx, fun _ => this⟩⟩
  · norm_num at h2
    obtain rfl : y = 0 := le_antisymm h2.2 h2.1
    simp
  · rw [abs_of_pos hx] at h2
    have : 0 < y := by linarith [h2.1]
    exact ⟨⟨fun e => absurd e this.ne', fun e => absurd e hx.ne'⟩, ⟨fun e => absurd e this.not_gt, fun e => absurd e hx.not_gt⟩⟩

/-- **C106 (value column).** The value column shows, for an input and for a declared variable with a value of its own, the decimal text of a number that differs from the average of its elements by at most half a percent; for a
declared variable without one the word `default`, which is no number; for every other variable nothing. -/
theorem C106_value_column :
    (∀ val : List ℚ, ∃ y, Stands (valueText (.input val)) y ∧ |y - val.sum / val.length| ≤ |val.sum / val.length| / 200) ∧
    (∀ val : List ℚ, valueText (.declared (some val)) = valueText (.input val)) ∧
    (valueText (.declared none) = "default".toList ∧ ∀ y, ¬ Stands "default".toList y) ∧ valueText .other = [] := by
  refine ⟨fun val => ?_, fun _ => rfl, ⟨rfl, fun y h => ?_⟩, rfl⟩
  · obtain ⟨y, h1, h2⟩ := C106_format_number (average val)
    exact ⟨y, (h1 y).2 rfl, h2⟩
  have key : ∀ {s q}, Plain s q → ∀ t : List Char, s ++ t ≠ "default".toList := by
    intro s q p t h
    cases p with
    | intro i f =>
      rename_i a b
      cases a with
      | nil => exact i.1 rfl
      | cons c a =>
        have h1 := i.2 c (by simp)
        have h2 : c = 'd' := (List.cons.inj h).1
        rw [h2] at h1
        exact absurd h1 (by decide)
  generalize hs : "default".toList = s at h
  cases h with
  | pos u => cases u with
    | plain p => exact key p [] (by simpa using hs.symm)
    | exp p _ => exact key p _ hs.symm
    | negExp p _ => exact key p _ hs.symm
  | neg u => exact absurd (List.cons.inj hs).1 (by decide)

/-- 0.00012345 is written `1.23e-4`, 9.9996 as `10.000`, 123456 as `1.23e5`, -0.9999 as `-1.00e0`. -/
example : formatNumber (12345 / 100000000) = "1.23e-4".toList ∧ formatNumber (99996 / 10000) = "10.000".toList ∧ formatNumber 123456 = "1.23e5".toList ∧
    formatNumber (-9999 / 10000) = "-1.00e0".toList ∧ formatNumber 0 = "0.0".toList := by decide +kernel

/-- `1.23e-4` stands for 0.000123. -/
example : Stands "1.23e-4".toList (123 / 1000000) := by
  have := Stands.pos (Unsigned.negExp (Plain.intro (i := ['1']) (f := ['2', '3']) (by simp [IsDigits, Char.isDigit]) (by simp [IsDigits, Char.isDigit]))
    (e := ['4']) (by simp [IsDigits, Char.isDigit]))
  rw [show digitsValue ['1'] = 1 from rfl, show digitsValue ['2', '3'] = 23 from rfl, show digitsValue ['4'] = 4 from rfl] at this
  norm_num at this
  exact this

end Csdl.FormatNumber
