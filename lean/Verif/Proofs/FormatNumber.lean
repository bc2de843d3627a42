import Verif.Model.FormatNumber
import Verif.Spec.FormatNumber
import Mathlib.Tactic.Linarith
import Mathlib.Tactic.FieldSimp
import Mathlib.Tactic.Ring
import Mathlib.Tactic.NormNum
/-
Lemmas for C106.
-/
namespace Csdl.FormatNumber

theorem round_close (q : ℚ) : |(roundHalfEven q : ℚ) - q| ≤ 1 / 2 := by
  have h1 := Int.floor_le q
  have h2 := Int.lt_floor_add_one q
  unfold roundHalfEven
  dsimp only
  split_ifs with a b c <;> rw [abs_le] <;> push_cast <;> constructor <;> linarith

theorem round_mono_int {q : ℚ} {n : ℤ} (h : (n : ℚ) ≤ q) : n ≤ roundHalfEven q := by
  have h1 : n ≤ ⌊q⌋ := Int.le_floor.2 h
  unfold roundHalfEven
  dsimp only
  split_ifs <;> omega

theorem round_le_int {q : ℚ} {n : ℤ} (h : q < n) : roundHalfEven q ≤ n := by
  have h1 : ⌊q⌋ < n := Int.floor_lt.2 h
  unfold roundHalfEven
  dsimp only
  split_ifs <;> omega

/-! ### Digits -/

theorem isDigits_toDigits (n : Nat) : IsDigits (Nat.toDigits 10 n) :=
  ⟨Nat.toDigits_ne_nil, fun _ hc => Nat.isDigit_of_mem_toDigits (by decide) (by decide) hc⟩

theorem isDigits_padded (w n : Nat) : IsDigits (padded w n) := by
  refine ⟨fun h => Nat.toDigits_ne_nil (List.append_eq_nil_iff.1 h).2, fun c hc => ?_⟩
  rcases List.mem_append.1 hc with h | h
  · obtain rfl := List.eq_of_mem_replicate h; decide
  · exact (isDigits_toDigits n).2 c h

theorem digitsValue_toDigits (n : Nat) : digitsValue (Nat.toDigits 10 n) = n := by
  have := Nat.ofDigitChars_ten_toDigits (n := n)
  rw [Nat.ofDigitChars_eq_foldl] at this
  exact this

theorem digitsValue_zero_cons (s : List Char) : digitsValue ('0' :: s) = digitsValue s := rfl

theorem digitsValue_zeros (k : Nat) (s : List Char) : digitsValue (List.replicate k '0' ++ s) = digitsValue s := by
  induction k with
  | zero => rfl
  | succ k ih => rw [List.replicate_succ, List.cons_append, digitsValue_zero_cons, ih]

theorem digitsValue_padded (w n : Nat) : digitsValue (padded w n) = n := by rw [padded, digitsValue_zeros, digitsValue_toDigits]

theorem length_padded {w n : Nat} (hw : 0 < w) (h : n < 10 ^ w) : (padded w n).length = w := by
  have := (Nat.length_toDigits_le_iff (b := 10) (n := n) (by decide) hw).2 h
  simp [padded]; omega

theorem le_length_padded (w n : Nat) : w ≤ (padded w n).length := by simp [padded]; omega

theorem no_e {s : List Char} (h : ∀ c ∈ s, c.isDigit = true) : ∀ c ∈ s, c ≠ 'e' := by
  rintro c hc rfl
  exact absurd (h _ hc) (by decide)

theorem no_dot {s : List Char} (h : ∀ c ∈ s, c.isDigit = true) : ∀ c ∈ s, c ≠ '.' := by
  rintro c hc rfl
  exact absurd (h _ hc) (by decide)

theorem no_minus {s : List Char} (h : ∀ c ∈ s, c.isDigit = true) : ∀ c ∈ s, c ≠ '-' := by
  rintro c hc rfl
  exact absurd (h _ hc) (by decide)

/-! ### Replacing -/

theorem replace_prefix (o new a s : List Char) (h : ∀ c ∈ a, c ≠ 'e') : replace (a ++ s) ('e' :: o) new = a ++ replace s ('e' :: o) new := by
  induction a with
  | nil => rfl
  | cons c a ih =>
    have hc : ¬ ('e' = c) := fun h' => h c (List.mem_cons_self ..) h'.symm
    rw [List.cons_append, replace, replaceFrom, if_neg (by simp [List.isPrefixOf, hc])]
    exact congrArg (c :: ·) (ih fun d hd => h d (List.mem_cons_of_mem _ hd))

theorem replace_none (o new a : List Char) (h : ∀ c ∈ a, c ≠ 'e') : replace a ('e' :: o) new = a := by
  have := replace_prefix o new a [] h
  simpa [replace, replaceFrom] using this

/-- an occurrence at the start -/
theorem replace_here (o new s : List Char) (h : ∀ c ∈ s, c ≠ 'e') : replace (('e' :: o) ++ s) ('e' :: o) new = new ++ s := by
  have hp : ('e' :: o).isPrefixOf ('e' :: (o ++ s)) = true := by simp [List.isPrefixOf_iff_prefix]
  have hskip : ∀ (k : Nat) (t : List Char), replaceFrom ('e' :: o) new k t = replaceFrom ('e' :: o) new 0 (t.drop k) := by
    intro k
    induction k with
    | zero => intro t; rfl
    | succ k ih => intro t; cases t with
      | nil => simp [replaceFrom]
      | cons c t => rw [replaceFrom, ih]; rfl
  rw [List.cons_append, replace, replaceFrom, if_pos hp, hskip]
  have : (o ++ s).drop (('e' :: o).length - 1) = s := by simp
  rw [this]
  exact congrArg (new ++ ·) (replace_none o new s h)

/-- no occurrence -/
theorem replace_not (o new s : List Char) (h : ∀ c ∈ s, c ≠ 'e') (hn : ¬ o <+: s) : replace ('e' :: s) ('e' :: o) new = 'e' :: s := by
  rw [replace, replaceFrom, if_neg (by simpa [List.isPrefixOf_iff_prefix] using hn)]
  exact congrArg ('e' :: ·) (replace_none o new s h)

/-- lines 10-13: the text without the plus sign and one leading zero of the exponent -/
def shorten (s : List Char) : List Char :=
  replace (replace (replace (replace s "e-0".toList "e-".toList) "e-".toList "e-".toList) "e+0".toList "e".toList) "e+".toList "e".toList

theorem shorten_plain (a : List Char) (h : ∀ c ∈ a, c ≠ 'e') : shorten a = a := by
  have k := fun o new => replace_none o new a h
  show replace (replace (replace (replace a ('e' :: _) _) ('e' :: _) _) ('e' :: _) _) ('e' :: _) _ = a
  rw [k, k, k, k]

theorem shorten_prefix (a s : List Char) (h : ∀ c ∈ a, c ≠ 'e') : shorten (a ++ s) = a ++ shorten s := by
  have k := fun o new s => replace_prefix o new a s h
  show replace (replace (replace (replace (a ++ s) ('e' :: _) _) ('e' :: _) _) ('e' :: _) _) ('e' :: _) _ = _
  rw [k, k, k, k]; rfl

/-- the exponent after shortening -/
theorem shorten_exp (c : Char) (E : List Char) (hE : ∀ d ∈ E, d.isDigit = true) :
    shorten ('e' :: '-' :: '0' :: E) = 'e' :: '-' :: E ∧ shorten ('e' :: '+' :: '0' :: E) = 'e' :: E ∧
      (c.isDigit = true → c ≠ '0' → shorten ('e' :: '-' :: c :: E) = 'e' :: '-' :: c :: E ∧ shorten ('e' :: '+' :: c :: E) = 'e' :: c :: E) := by
  have n0 := no_e hE
  have cons_e : ∀ (d : Char) (l : List Char), d ≠ 'e' → (∀ x ∈ l, x ≠ 'e') → ∀ x ∈ d :: l, x ≠ 'e' := by
    intro d l hd hl x hx
    rcases List.mem_cons.1 hx with rfl | hx
    · exact hd
    · exact hl x hx
  have m0 := cons_e '-' E (by decide) n0
  have digits_minus : ∀ (o l : List Char), (∀ d ∈ l, d.isDigit = true) → ¬ ('-' :: o <+: l) := by
    intro o l hl hp
    exact no_minus hl '-' (hp.subset (List.mem_cons_self ..)) rfl
  have digits_plus : ∀ (o l : List Char), (∀ d ∈ l, d.isDigit = true) → ¬ ('+' :: o <+: l) := by
    intro o l hl hp
    exact absurd (hl '+' (hp.subset (List.mem_cons_self ..))) (by decide)
  have plus_minus : ∀ (o l : List Char), ¬ ('-' :: o <+: '+' :: l) := fun o l hp => by simp at hp
  have minus_plus : ∀ (o l : List Char), ¬ ('+' :: o <+: '-' :: l) := fun o l hp => by simp at hp
  have rest : ∀ l : List Char, (∀ d ∈ l, d.isDigit = true) → shorten ('e' :: l) = 'e' :: l := by
    intro l hl
    have k1 := replace_not ['-', '0'] ['e', '-'] l (no_e hl) (digits_minus _ _ hl)
    have k2 := replace_not ['-'] ['e', '-'] l (no_e hl) (digits_minus _ _ hl)
    have k3 := replace_not ['+', '0'] ['e'] l (no_e hl) (digits_plus _ _ hl)
    have k4 := replace_not ['+'] ['e'] l (no_e hl) (digits_plus _ _ hl)
    show replace (replace (replace (replace ('e' :: l) ['e', '-', '0'] ['e', '-']) ['e', '-'] ['e', '-']) ['e', '+', '0'] ['e']) ['e', '+'] ['e'] = _
    rw [k1, k2, k3, k4]
  have step : ∀ s : List Char, shorten s = replace (replace (replace (replace s ['e', '-', '0'] ['e', '-']) ['e', '-'] ['e', '-']) ['e', '+', '0'] ['e']) ['e', '+'] ['e'] := fun _ => rfl
  have minusD : ∀ l : List Char, (∀ d ∈ l, d.isDigit = true) →
      replace (replace (replace ('e' :: '-' :: l) ['e', '-'] ['e', '-']) ['e', '+', '0'] ['e']) ['e', '+'] ['e'] = 'e' :: '-' :: l := by
    intro l hl
    have k2 := replace_here ['-'] ['e', '-'] l (no_e hl)
    have hm := cons_e '-' l (by decide) (no_e hl)
    have k3 := replace_not ['+', '0'] ['e'] ('-' :: l) hm (minus_plus _ _)
    have k4 := replace_not ['+'] ['e'] ('-' :: l) hm (minus_plus _ _)
    simp only [List.cons_append, List.nil_append] at k2
    rw [k2, k3, k4]
  have plusD : ∀ (new l : List Char), (∀ d ∈ l, d.isDigit = true) → ∀ o, replace ('e' :: '+' :: l) ('e' :: '-' :: o) new = 'e' :: '+' :: l := by
    intro new l hl o
    exact replace_not ('-' :: o) new ('+' :: l) (cons_e '+' l (by decide) (no_e hl)) (plus_minus _ _)
  have zE : ∀ d ∈ '0' :: E, d.isDigit = true := by
    intro d hd
    rcases List.mem_cons.1 hd with rfl | hd
    · decide
    · exact hE d hd
  refine ⟨?_, ?_, fun hc hc0 => ?_⟩
  · have k1 := replace_here ['-', '0'] ['e', '-'] E n0
    simp only [List.cons_append, List.nil_append] at k1
    rw [step, k1, minusD E hE]
  · have k3 := replace_here ['+', '0'] ['e'] E n0
    have k4 := replace_not ['+'] ['e'] E n0 (digits_plus _ _ hE)
    simp only [List.cons_append, List.nil_append] at k3
    rw [step, plusD _ _ zE, plusD _ _ zE, k3, k4]
  · have cE : ∀ d ∈ c :: E, d.isDigit = true := by
      intro d hd
      rcases List.mem_cons.1 hd with rfl | hd
      · exact hc
      · exact hE d hd
    constructor
    · have k1 := replace_not ['-', '0'] ['e', '-'] ('-' :: c :: E) (cons_e '-' _ (by decide) (no_e cE)) (by simpa using fun h => hc0 h.symm)
      rw [step, k1, minusD _ cE]
    · have k3 := replace_not ['+', '0'] ['e'] ('+' :: c :: E) (cons_e '+' _ (by decide) (no_e cE)) (by simpa using fun h => hc0 h.symm)
      have k4 := replace_here ['+'] ['e'] (c :: E) (no_e cE)
      simp only [List.cons_append, List.nil_append] at k4
      rw [step, plusD _ _ cE, plusD _ _ cE, k3, k4]

/-- a text with an exponent, shortened, stands for the same number -/
theorem shorten_sci {a : List Char} {q : ℚ} (ha : ∀ c ∈ a, c ≠ 'e') (hp : Plain a q) (e : ℤ) :
    Unsigned (shorten (a ++ 'e' :: (if e < 0 then '-' else '+') :: padded 2 e.natAbs)) (q * 10 ^ e) := by
  obtain ⟨hne, hd⟩ := isDigits_padded 2 e.natAbs
  have hv := digitsValue_padded 2 e.natAbs
  have hl := le_length_padded 2 e.natAbs
  rcases hE : padded 2 e.natAbs with _ | ⟨c, E⟩
  · exact absurd hE hne
  rw [hE] at hd hv hl
  have hEd : ∀ d ∈ E, d.isDigit = true := fun d h => hd d (List.mem_cons_of_mem _ h)
  have hEne : E ≠ [] := by rintro rfl; simp at hl
  obtain ⟨s1, s2, s3⟩ := shorten_exp c E hEd
  rw [shorten_prefix a _ ha]
  by_cases h0 : c = '0'
  · subst h0
    rw [digitsValue_zero_cons] at hv
    by_cases he : e < 0
    · rw [if_pos he, s1]
      have : q * (10 : ℚ) ^ e = q / 10 ^ digitsValue E := by
        rw [hv, div_eq_mul_inv, ← zpow_natCast, ← zpow_neg]
        congr 2; omega
      rw [this]
      exact .negExp hp ⟨hEne, hEd⟩
    · rw [if_neg he, s2]
      have : q * (10 : ℚ) ^ e = q * 10 ^ digitsValue E := by
        rw [hv, ← zpow_natCast]
        congr 2; omega
      rw [this]
      exact .exp hp ⟨hEne, hEd⟩
  · obtain ⟨s4, s5⟩ := s3 (hd c (List.mem_cons_self ..)) h0
    by_cases he : e < 0
    · rw [if_pos he, s4]
      have : q * (10 : ℚ) ^ e = q / 10 ^ digitsValue (c :: E) := by
        rw [hv, div_eq_mul_inv, ← zpow_natCast, ← zpow_neg]
        congr 2; omega
      rw [this]
      exact .negExp hp ⟨by simp, hd⟩
    · rw [if_neg he, s5]
      have : q * (10 : ℚ) ^ e = q * 10 ^ digitsValue (c :: E) := by
        rw [hv, ← zpow_natCast]
        congr 2; omega
      rw [this]
      exact .exp hp ⟨by simp, hd⟩

/-! ### The two formats -/

/-- `m` with a point before its last `w` digits -/
theorem plain_point (w m : Nat) (hw : 0 < w) : Plain (Nat.toDigits 10 (m / 10 ^ w) ++ '.' :: padded w (m % 10 ^ w)) ((m : ℚ) / 10 ^ w) := by
  have hlt : m % 10 ^ w < 10 ^ w := Nat.mod_lt _ (by positivity)
  have := Plain.intro (isDigits_toDigits (m / 10 ^ w)) (isDigits_padded w (m % 10 ^ w))
  rw [digitsValue_toDigits, digitsValue_padded, length_padded hw hlt] at this
  have e : ((m / 10 ^ w : ℕ) : ℚ) + ((m % 10 ^ w : ℕ) : ℚ) / 10 ^ w = (m : ℚ) / 10 ^ w := by
    have h2 : ((10 ^ w * (m / 10 ^ w) + m % 10 ^ w : ℕ) : ℚ) = m := by rw [Nat.div_add_mod]
    push_cast at h2
    have h3 : (10 : ℚ) ^ w ≠ 0 := by positivity
    rw [← h2]; field_simp
  rwa [e] at this

theorem point_no_e (w m : Nat) : ∀ c ∈ Nat.toDigits 10 (m / 10 ^ w) ++ '.' :: padded w (m % 10 ^ w), c ≠ 'e' := by
  intro c hc
  rcases List.mem_append.1 hc with h | h
  · exact no_e (isDigits_toDigits _).2 c h
  · rcases List.mem_cons.1 h with rfl | h
    · decide
    · exact no_e (isDigits_padded _ _).2 c h

theorem fixed3_close {q : ℚ} (h1 : 1 ≤ q) : ∃ y, Unsigned (shorten (fixed3 q)) y ∧ |y - q| ≤ q / 2000 := by
  have hr := round_close (q * 1000)
  have h0 : 0 ≤ roundHalfEven (q * 1000) := round_mono_int (n := 0) (by push_cast; linarith)
  have hp := plain_point 3 (roundHalfEven (q * 1000)).toNat (by decide)
  have hn := point_no_e 3 (roundHalfEven (q * 1000)).toNat
  have hc : (((roundHalfEven (q * 1000)).toNat : ℕ) : ℚ) = (roundHalfEven (q * 1000) : ℚ) := by
    exact_mod_cast Int.toNat_of_nonneg h0
  rw [hc] at hp
  refine ⟨(roundHalfEven (q * 1000) : ℚ) / 10 ^ 3, ?_, ?_⟩
  · show Unsigned (shorten (Nat.toDigits 10 (_ / 10 ^ 3) ++ '.' :: padded 3 (_ % 10 ^ 3))) _
    rw [shorten_plain _ hn]
    exact .plain hp
  · rw [abs_le] at hr ⊢
    norm_num
    constructor <;> linarith [hr.1, hr.2]

theorem scientific2_close {q : ℚ} (h0 : 0 < q) : ∃ y, Unsigned (shorten (scientific2 q)) y ∧ |y - q| ≤ q / 200 := by
  set e := Int.log 10 q with he
  have hb : ((10 : ℕ) : ℚ) ^ e ≤ q := Int.zpow_log_le_self (by decide) h0
  have hu : q < ((10 : ℕ) : ℚ) ^ (e + 1) := Int.lt_zpow_succ_log_self (by decide) q
  push_cast at hb hu
  set t : ℚ := (10 : ℚ) ^ (e - 2) with ht
  have tpos : 0 < t := zpow_pos (by norm_num) _
  have e1 : (10 : ℚ) ^ e = 100 * t := by
    rw [ht, zpow_sub₀ (by norm_num)]; norm_num; ring
  have e2 : (10 : ℚ) ^ (e + 1) = 1000 * t := by
    rw [zpow_add₀ (by norm_num), e1]; norm_num; ring
  rw [e1] at hb
  rw [e2] at hu
  set r := roundHalfEven (q / t) with hrdef
  have hr := round_close (q / t)
  have r1 : 100 ≤ r := round_mono_int (by push_cast; rw [le_div_iff₀ tpos]; exact hb)
  have r2 : r ≤ 1000 := round_le_int (by push_cast; rw [div_lt_iff₀ tpos]; exact hu)
  have hy : |(r : ℚ) * t - q| ≤ q / 200 := by
    have hq : q / t * t = q := by field_simp
    have h3 : (r : ℚ) * t - q = ((r : ℚ) - q / t) * t := by rw [sub_mul, hq]
    rw [h3, abs_mul, abs_of_pos tpos]
    calc |(r : ℚ) - q / t| * t ≤ 1 / 2 * t := mul_le_mul_of_nonneg_right hr tpos.le
      _ ≤ q / 200 := by linarith
  refine ⟨r * t, ?_, hy⟩
  have hc : ((r.toNat : ℕ) : ℚ) = (r : ℚ) := by exact_mod_cast Int.toNat_of_nonneg (by omega)
  by_cases hm : r.toNat = 1000
  · have hv : (r : ℚ) * t = ((100 : ℕ) : ℚ) / 10 ^ 2 * (10 : ℚ) ^ (e + 1) := by
      rw [← hc, hm, e2]; push_cast; ring
    have k := shorten_sci (point_no_e 2 100) (plain_point 2 100 (by decide)) (e + 1)
    rw [hv]
    have k2 : scientific2 q = (Nat.toDigits 10 (100 / 10 ^ 2) ++ '.' :: padded 2 (100 % 10 ^ 2)) ++ 'e' :: (if e + 1 < 0 then '-' else '+') :: padded 2 (e + 1).natAbs := by
      simp only [scientific2, ← he, ← ht, ← hrdef, hm, if_true, List.append_assoc, List.cons_append]
      rfl
    rw [k2]
    exact k
  · have hv : (r : ℚ) * t = ((r.toNat : ℕ) : ℚ) / 10 ^ 2 * (10 : ℚ) ^ e := by
      rw [← hc, e1]; ring
    have k := shorten_sci (point_no_e 2 r.toNat) (plain_point 2 r.toNat (by decide)) e
    rw [hv]
    have k2 : scientific2 q = (Nat.toDigits 10 (r.toNat / 10 ^ 2) ++ '.' :: padded 2 (r.toNat % 10 ^ 2)) ++ 'e' :: (if e < 0 then '-' else '+') :: padded 2 e.natAbs := by
      simp only [scientific2, ← he, ← ht, ← hrdef, hm, if_false, List.append_assoc, List.cons_append]
      rfl
    rw [k2]
    exact k

theorem shorten_signed {x : ℚ} {text : ℚ → List Char} {y d : ℚ} (h : Unsigned (shorten (text |x|)) y) (hc : |y - abs x| ≤ d) :
    ∃ z, Stands (shorten (signed x text)) z ∧ |z - x| ≤ d := by
  unfold signed
  by_cases hx : x < 0
  · refine ⟨-y, ?_, ?_⟩
    · rw [if_pos hx, shorten_prefix ['-'] _ (by simp)]
      exact .neg h
    · rw [abs_of_neg hx] at hc
      rwa [show -y - x = -(y - -x) by ring, abs_neg]
  · refine ⟨y, ?_, ?_⟩
    · rw [if_neg hx]
      exact .pos h
    · rwa [abs_of_nonneg (not_lt.1 hx)] at hc

theorem formatNumber_eq (x : ℚ) : formatNumber x =
    shorten (if x = 0 then "0.0".toList else if |x| < 1 then signed x scientific2 else if |x| < 10 then signed x fixed3 else signed x scientific2) := rfl

/-! ### A text stands for one number -/

theorem append_cons_inj {c : Char} {a a' s s' : List Char} (ha : ∀ d ∈ a, d ≠ c) (ha' : ∀ d ∈ a', d ≠ c) (h : a ++ c :: s = a' ++ c :: s') : a = a' ∧ s = s' := by
  induction a generalizing a' with
  | nil =>
    cases a' with
    | nil => exact ⟨rfl, (List.cons.inj h).2⟩
    | cons d a' => exact absurd (List.cons.inj h).1.symm (ha' d (List.mem_cons_self ..))
  | cons d a ih =>
    cases a' with
    | nil => exact absurd (List.cons.inj h).1 (ha d (List.mem_cons_self ..))
    | cons d' a' =>
      obtain ⟨h1, h2⟩ := List.cons.inj h
      obtain ⟨rfl, rfl⟩ := ih (fun x hx => ha x (List.mem_cons_of_mem _ hx)) (fun x hx => ha' x (List.mem_cons_of_mem _ hx)) h2
      exact ⟨by rw [h1], rfl⟩

theorem Plain.unique {s : List Char} {q r : ℚ} (h : Plain s q) (h' : Plain s r) : q = r := by
  generalize hs : s = s' at h'
  obtain ⟨i1, f1⟩ := h
  obtain ⟨i2, f2⟩ := h'
  obtain ⟨rfl, rfl⟩ := append_cons_inj (no_dot i1.2) (no_dot i2.2) hs
  rfl

theorem Plain.chars {s : List Char} {q : ℚ} (h : Plain s q) : (∀ c ∈ s, c ≠ 'e') ∧ ∀ c ∈ s, c ≠ '-' := by
  obtain ⟨i, f⟩ := h
  constructor <;> intro c hc <;> rcases List.mem_append.1 hc with h | h
  · exact no_e i.2 c h
  · rcases List.mem_cons.1 h with rfl | h
    · decide
    · exact no_e f.2 c h
  · exact no_minus i.2 c h
  · rcases List.mem_cons.1 h with rfl | h
    · decide
    · exact no_minus f.2 c h

theorem Unsigned.unique {s : List Char} {q r : ℚ} (h : Unsigned s q) (h' : Unsigned s r) : q = r := by
  generalize hs : s = s' at h'
  cases h with
  | plain p => cases h' with
    | plain p' => subst hs; exact p.unique p'
    | exp p' e' => exact absurd rfl (p.chars.1 'e' (by rw [hs]; simp))
    | negExp p' e' => exact absurd rfl (p.chars.1 'e' (by rw [hs]; simp))
  | exp p e => cases h' with
    | plain p' => exact absurd rfl (p'.chars.1 'e' (by rw [← hs]; simp))
    | exp p' e' =>
      obtain ⟨rfl, rfl⟩ := append_cons_inj p.chars.1 p'.chars.1 hs
      rw [p.unique p']
    | negExp p' e' =>
      obtain ⟨rfl, h2⟩ := append_cons_inj p.chars.1 p'.chars.1 hs
      exact absurd rfl (no_minus e.2 '-' (by rw [h2]; simp))
  | negExp p e => cases h' with
    | plain p' => exact absurd rfl (p'.chars.1 'e' (by rw [← hs]; simp))
    | exp p' e' =>
      obtain ⟨rfl, h2⟩ := append_cons_inj p.chars.1 p'.chars.1 hs
      exact absurd rfl (no_minus e'.2 '-' (by rw [← h2]; simp))
    | negExp p' e' =>
      obtain ⟨rfl, h2⟩ := append_cons_inj p.chars.1 p'.chars.1 hs
      obtain rfl := (List.cons.inj h2).2
      rw [p.unique p']

theorem Unsigned.head {s : List Char} {q : ℚ} (h : Unsigned s q) : ∀ t, s ≠ '-' :: t := by
  have key : ∀ {s q}, Plain s q → ∀ (t u : List Char), s ++ t ≠ '-' :: u := by
    intro s q p t u h
    have h2 := p.chars.2
    cases p with
    | intro i f =>
      rename_i a b
      cases a with
      | nil => exact i.1 rfl
      | cons c a => exact h2 c (by simp) (List.cons.inj h).1
  intro t
  cases h with
  | plain p => have := key p [] t; simpa using this
  | exp p e => exact key p _ t
  | negExp p e => exact key p _ t

theorem Stands.unique {s : List Char} {q r : ℚ} (h : Stands s q) (h' : Stands s r) : q = r := by
  generalize hs : s = s' at h'
  cases h with
  | pos p => cases h' with
    | pos p' => subst hs; exact p.unique p'
    | neg p' => exact absurd hs (p.head _)
  | neg p => cases h' with
    | pos p' => exact absurd hs.symm (p'.head _)
    | neg p' =>
      obtain rfl := (List.cons.inj hs).2
      rw [p.unique p']

end Csdl.FormatNumber
