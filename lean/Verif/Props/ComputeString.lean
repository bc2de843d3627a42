import Verif.Spec.ComputeString
import Mathlib.Tactic.Ring
import Mathlib.Tactic.Linarith
import Mathlib.Algebra.Order.Ring.Rat
/-
C50 (compute strings denote the operation).
-/
namespace Csdl.CString
open Csdl
variable {K : Type} [Field K] [LinearOrder K]

/-- the coefficient that is written -/
def rnd (c : K) : K := if c > 1 then c else if c > 0 then 1 else if c < -1 then c else if c < 0 then -1 else 0

/-- the sum that is written -/
def wsum (env : Name → K) (l : List (K × Name)) : K := (l.map fun p => rnd p.1 * env p.2).sum

theorem wsum_cons (env : Name → K) (c : K) (x : Name) (l : List (K × Name)) : wsum env ((c, x) :: l) = rnd c * env x + wsum env l := by simp [wsum]

variable [IsStrictOrderedRing K]

theorem rest_plain (env : Name → K) (z first : Bool) (hz : (first && z) = false) (l : List (K × Name)) :
    ∀ acc, evalRest env acc (linLoop z first l) = some (acc + wsum env l) := by
  induction l with
  | nil => intro acc; simp [linLoop, evalRest, wsum]
  | cons p r ih =>
    intro acc
    obtain ⟨c, x⟩ := p
    rw [linLoop, wsum_cons]
    simp only [hz]
    by_cases h1 : c > 1
    · simp only [h1, if_true, Bool.false_eq_true, if_false, evalRest, ih, rnd]; congr 1; ring
    · by_cases h2 : c > 0
      · simp only [h1, h2, if_true, Bool.false_eq_true, if_false, evalRest, ih, rnd]; congr 1; ring
      · by_cases h3 : c < -1
        · have hc : c < 0 := lt_of_lt_of_le h3 (by linarith [zero_lt_one (α := K)])
          simp only [h1, h2, h3, hc, if_true, if_false, evalRest, ih, rnd]; congr 1; ring
        · by_cases h4 : c < 0
          · simp only [h1, h2, h3, h4, if_true, if_false, evalRest, ih, rnd]; congr 1; ring
          · simp only [h1, h2, h3, h4, if_false, ih, rnd]; congr 1; ring

theorem rest_first (env : Name → K) (l : List (K × Name)) :
    ∀ acc, evalRest env acc (linLoop true true l) = if ∃ p ∈ l, 0 < p.1 then none else some (acc + wsum env l) := by
  induction l with
  | nil => intro acc; simp [linLoop, evalRest, wsum]
  | cons p r ih =>
    intro acc
    obtain ⟨c, x⟩ := p
    rw [linLoop, wsum_cons]
    by_cases h1 : c > 1
    · have hc : 0 < c := lt_trans zero_lt_one h1
      rw [if_pos h1, if_pos (by simp), if_pos ⟨(c, x), by simp, hc⟩, evalRest, if_neg (not_lt.2 hc.le)]
    · by_cases h2 : c > 0
      · rw [if_neg h1, if_pos h2, if_pos (by simp), if_pos ⟨(c, x), by simp, h2⟩]
        rfl
      · have hex : (∃ p ∈ (c, x) :: r, 0 < p.1) ↔ ∃ p ∈ r, 0 < p.1 := by
          constructor
          · rintro ⟨p, hp, h⟩
            rcases List.mem_cons.1 hp with rfl | hp
            · exact absurd h h2
            · exact ⟨p, hp, h⟩
          · rintro ⟨p, hp, h⟩; exact ⟨p, List.mem_cons_of_mem _ hp, h⟩
        rw [if_neg h1, if_neg h2]
        simp only [hex]
        by_cases h3 : c < -1
        · have hc : c < 0 := lt_of_lt_of_le h3 (by linarith [zero_lt_one (α := K)])
          rw [if_pos h3, evalRest, if_pos hc, ih]
          congr 1
          simp only [rnd, h1, h2, h3, if_true, if_false]; congr 1; ring
        · by_cases h4 : c < 0
          · rw [if_neg h3, if_pos h4, evalRest, ih]
            congr 1
            simp only [rnd, h1, h2, h3, h4, if_true, if_false]; congr 1; ring
          · rw [if_neg h3, if_neg h4, ih]
            congr 1
            simp only [rnd, h1, h2, h3, h4, if_false]; congr 1; ring

theorem signsOk_cons_pos {c : K} (hc : 0 < c) (l : List K) : SignsOk (c :: l) := ⟨[], c, l, rfl, by simp, hc.ne', Or.inl hc⟩

theorem signsOk_cons_zero (l : List K) : SignsOk (0 :: l) ↔ SignsOk l := by
  constructor
  · rintro ⟨a, c, b, h, ha, hc, hs⟩
    cases a with
    | nil => rw [List.nil_append, List.cons.injEq] at h; exact absurd h.1.symm hc
    | cons y a => rw [List.cons_append, List.cons.injEq] at h; exact ⟨a, c, b, h.2, fun z hz => ha z (List.mem_cons_of_mem _ hz), hc, hs⟩
  · rintro ⟨a, c, b, h, ha, hc, hs⟩
    exact ⟨0 :: a, c, b, by rw [h]; rfl, by simpa using ha, hc, hs⟩

theorem signsOk_cons_neg {c : K} (hc : c < 0) (l : List K) : SignsOk (c :: l) ↔ ∀ d ∈ l, d ≤ 0 := by
  constructor
  · rintro ⟨a, c', b, h, ha, hc', hs⟩
    cases a with
    | nil =>
      rw [List.nil_append, List.cons.injEq] at h
      obtain ⟨rfl, rfl⟩ := h
      rcases hs with hs | hs
      · exact absurd hs (not_lt.2 hc.le)
      · exact hs
    | cons y a => rw [List.cons_append, List.cons.injEq] at h; exact absurd (h.1.trans (ha y (by simp))) hc.ne
  · intro h; exact ⟨[], c, l, rfl, by simp, hc.ne, Or.inr h⟩

open Classical in
theorem sum_first (env : Name → K) (l : List (K × Name)) :
    evalSum env (linLoop true true l) = if SignsOk (l.map (·.1)) then some (wsum env l) else none := by
  induction l with
  | nil =>
    rw [if_neg]
    · rfl
    · rintro ⟨a, c, b, h, _⟩; simp at h
  | cons p r ih =>
    obtain ⟨c, x⟩ := p
    rw [linLoop, wsum_cons, List.map_cons]
    by_cases h1 : c > 1
    · have hc : 0 < c := lt_trans zero_lt_one h1
      rw [if_pos h1, if_pos (by simp), if_pos (signsOk_cons_pos hc _), evalSum, rest_plain env _ _ (by simp)]
      simp only [rnd, h1, if_true]
    · by_cases h2 : c > 0
      · rw [if_neg h1, if_pos h2, if_pos (by simp), if_pos (signsOk_cons_pos h2 _), evalSum, rest_plain env _ _ (by simp)]
        simp only [rnd, h1, h2, if_true, if_false, one_mul]
      · rw [if_neg h1, if_neg h2]
        have hneg : c < 0 → (SignsOk (c :: r.map (·.1)) ↔ ¬∃ p ∈ r, 0 < p.1) := by
          intro hc
          rw [signsOk_cons_neg hc]
          simp only [List.mem_map, not_exists, not_and, not_lt]
          exact ⟨fun h p hp => h _ ⟨p, hp, rfl⟩, by rintro h _ ⟨p, hp, rfl⟩; exact h p hp⟩
        by_cases h3 : c < -1
        · have hc : c < 0 := lt_of_lt_of_le h3 (by linarith [zero_lt_one (α := K)])
          rw [if_pos h3, evalSum, rest_first]
          simp only [hneg hc, rnd, h1, h2, h3, if_true, if_false]
          split <;> simp_all
        · by_cases h4 : c < 0
          · rw [if_neg h3, if_pos h4, evalSum, rest_first]
            simp only [hneg h4, rnd, h1, h2, h3, h4, if_true, if_false, neg_mul, one_mul]
            split <;> simp_all
          · have hc : c = 0 := le_antisymm (not_lt.1 h2) (not_lt.1 h4)
            subst hc
            rw [if_neg h3, if_neg h4, ih]
            simp only [signsOk_cons_zero]
            simp [rnd]

theorem sum_const (env : Name → K) (k : K) (l : List (K × Name)) : evalSum env (.num k :: linLoop false true l) = some (k + wsum env l) := by
  rw [← rest_plain env false true rfl l k]
  induction l with
  | nil => rfl
  | cons p r ih =>
    obtain ⟨c, x⟩ := p
    rw [linLoop]
    simp only [Bool.and_false, Bool.false_eq_true, if_false]
    split
    · rfl
    · split
      · rfl
      · split
        · rfl
        · split
          · rfl
          · exact ih

open Classical in
/-- what the text of a linear combination evaluates to -/
theorem linString_eval (env : Name → K) (out : Name) (k : K) (coeffs : Lit K) (args : List Name) (v : K) :
    AssignsSum env out (linString out k coeffs args) v ↔
    (k ≠ 0 ∨ SignsOk (((coeffs.expand args.length).zip args).map (·.1))) ∧ v = k + wsum env ((coeffs.expand args.length).zip args) := by
  simp only [AssignsSum, linString, List.cons.injEq, true_and, exists_eq_left']
  by_cases hk : k = 0
  · rw [if_pos hk, List.nil_append, show decide (k = 0) = true by simp [hk], sum_first]
    split
    · rename_i hs
      simp only [hs, or_true, true_and, hk, zero_add, Option.some.injEq]
      exact eq_comm
    · rename_i hs
      simp [hs, hk]
  · rw [if_neg hk, List.singleton_append, show decide (k = 0) = false by simp [hk], sum_const]
    simp only [Option.some.injEq, ne_eq, hk, not_false_eq_true, true_or, true_and]
    exact eq_comm

theorem rnd_simple {c : K} (h : Simple c) : rnd c = c := by
  have h01 : (0 : K) < 1 := zero_lt_one
  rcases h with rfl | rfl | rfl | h | h
  · simp [rnd]
  · simp [rnd]
  · have : ¬(-1 : K) > 1 := by intro h; linarith
    have h2 : ¬(-1 : K) > 0 := by intro h; linarith
    have h4 : (-1 : K) < 0 := by linarith
    simp [rnd, this, h2, h4]
  · simp [rnd, h]
  · have : ¬c > 1 := by intro h; linarith
    have h2 : ¬c > 0 := by intro h; linarith
    simp [rnd, this, h2, h]

theorem simple_of_rnd {c : K} (h : rnd c = c) : Simple c := by
  unfold rnd at h
  split at h
  · rename_i h'; exact Or.inr (Or.inr (Or.inr (Or.inl h')))
  · split at h
    · exact Or.inr (Or.inl h.symm)
    · split at h
      · rename_i h'; exact Or.inr (Or.inr (Or.inr (Or.inr h')))
      · split at h
        · exact Or.inr (Or.inr (Or.inl h.symm))
        · exact Or.inl h.symm

theorem zipWith_eq_map_zip {α β γ : Type} (f : α → β → γ) (l : List α) (m : List β) : List.zipWith f l m = (l.zip m).map fun p => f p.1 p.2 := by
  induction l generalizing m with
  | nil => simp
  | cons a l ih => cases m with
    | nil => simp
    | cons b m => simp [ih]

omit [LinearOrder K] [IsStrictOrderedRing K] in
theorem sum_indicator (f : K → K) (l : List (K × Name)) (hn : (l.map (·.2)).Nodup) (c : K) (x : Name) (h : (c, x) ∈ l) :
    (l.map fun p => f p.1 * (if p.2 = x then 1 else 0)).sum = f c := by
  induction l with
  | nil => simp at h
  | cons p r ih =>
    rw [List.map_cons, List.nodup_cons] at hn
    rw [List.map_cons, List.sum_cons]
    rcases List.mem_cons.1 h with h | h
    · subst h
      have : (r.map fun p => f p.1 * (if p.2 = x then 1 else 0)).sum = 0 := by
        apply List.sum_eq_zero
        intro y hy
        obtain ⟨q, hq, rfl⟩ := List.mem_map.1 hy
        have : q.2 ≠ x := fun hh => hn.1 (hh ▸ List.mem_map_of_mem (f := (·.2)) hq)
        simp [this]
      rw [this]; simp
    · have : p.2 ≠ x := fun hh => hn.1 (hh ▸ List.mem_map_of_mem (f := (·.2)) h)
      rw [ih hn.2 h]; simp [this]

/-- **C50 (as far as it holds).** For a linear combination with scalar coefficients, one for each of its (distinct) arguments, the text denotes the operation for all values of the arguments exactly when every coefficient is 0, 1, -1 or greater than one
in absolute value and, if the constant is zero, some coefficient is not zero and either the first such is positive or none is positive. -/
theorem C50_linear_iff_partial (out : Name) (k : K) (coeffs : Lit K) (args : List Name) (hl : (coeffs.expand args.length).length = args.length) (hn : args.Nodup) :
    (∀ env, AssignsSum env out (linString out k coeffs args) (linMeaning env k coeffs args)) ↔
    (∀ c ∈ coeffs.expand args.length, Simple c) ∧ (k ≠ 0 ∨ SignsOk (coeffs.expand args.length)) := by
  have hfst : ((coeffs.expand args.length).zip args).map (·.1) = coeffs.expand args.length := List.map_fst_zip (by omega)
  have hsnd : ((coeffs.expand args.length).zip args).map (·.2) = args := List.map_snd_zip (by omega)
  simp only [linString_eval, hfst, linMeaning, zipWith_eq_map_zip]
  constructor
  · intro h
    refine ⟨?_, (h fun _ => 0).1⟩
    intro c hc
    rw [← hfst] at hc
    obtain ⟨⟨c', x⟩, hm, rfl⟩ := List.mem_map.1 hc
    have h2 := (h fun y => if y = x then 1 else 0).2
    have a := sum_indicator (fun c => c) _ (by rw [hsnd]; exact hn) c' x hm
    have b := sum_indicator rnd _ (by rw [hsnd]; exact hn) c' x hm
    rw [wsum, a, b] at h2
    exact simple_of_rnd (add_left_cancel h2).symm
  · rintro ⟨hs, hk⟩ env
    refine ⟨hk, ?_⟩
    congr 1
    rw [wsum]
    congr 1
    apply List.map_congr_left
    intro p hp
    rw [rnd_simple (hs p.1 (by rw [← hfst]; exact List.mem_map_of_mem hp))]

/-- **C50 (as far as it holds).** The text of every linear combination made by the operators `+`, `-` and unary `-` (with numbers and distinct variables) denotes it. -/
theorem C50_operators_partial (env : Name → K) (out : Name) (k : K) (x y : Name) :
    AssignsSum env out (linString out 0 (.one (-1)) [x]) (-env x) ∧
    AssignsSum env out (linString out 0 (.one 1) [x, y]) (env x + env y) ∧
    AssignsSum env out (linString out k (.one 1) [x]) (env x + k) ∧
    AssignsSum env out (linString out 0 (.list [1, -1]) [x, y]) (env x - env y) ∧
    AssignsSum env out (linString out k (.one (-1)) [x]) (k - env x) := by
  have h01 : (0 : K) < 1 := zero_lt_one
  have r1 : rnd (1 : K) = 1 := rnd_simple (by simp [Simple])
  have rm : rnd (-1 : K) = -1 := rnd_simple (by simp [Simple])
  have sm : ∀ l : List K, (∀ d ∈ l, d ≤ 0) → SignsOk (-1 :: l) := fun l h => (signsOk_cons_neg (by linarith) l).2 h
  simp only [linString_eval]
  refine ⟨⟨Or.inr ?_, ?_⟩, ⟨Or.inr ?_, ?_⟩, ⟨Or.inr ?_, ?_⟩, ⟨Or.inr ?_, ?_⟩, ⟨Or.inr ?_, ?_⟩⟩
  · exact sm [] (by simp)
  · simp [wsum, Lit.expand, rm]
  · exact signsOk_cons_pos h01 _
  · simp [wsum, Lit.expand, r1, List.replicate]
  · exact signsOk_cons_pos h01 _
  · simp [wsum, Lit.expand, r1]; ring
  · exact signsOk_cons_pos h01 _
  · simp [wsum, Lit.expand, r1, rm]; ring
  · exact sm [] (by simp)
  · simp [wsum, Lit.expand, rm]; ring

/-- **C50 is false as stated**: coefficient 1/2 is lost; `[-1, 1]` with constant 0 runs two names together; all coefficients and the constant zero give no expression. -/
theorem C50_linear_refuted : ∃ (coeffs : List (List ℚ)) (out x y : Name), out ≠ x ∧ x ≠ y ∧ coeffs = [[1/2, 1], [-1, 1], [0, 0]] ∧
    ∀ cs ∈ coeffs, ¬∀ env, AssignsSum env out (linString out 0 (.list cs) [x, y]) (linMeaning env 0 (.list cs) [x, y]) := by
  refine ⟨_, "o".toList, "x".toList, "y".toList, by decide, by decide, rfl, ?_⟩
  intro cs hcs h
  have hlen : cs.length = 2 := by
    simp only [List.mem_cons, List.not_mem_nil, or_false] at hcs
    rcases hcs with rfl | rfl | rfl <;> rfl
  have := (C50_linear_iff_partial "o".toList (0 : ℚ) (.list cs) ["x".toList, "y".toList] (by simpa [Lit.expand] using hlen) (by decide)).1 h
  simp only [List.mem_cons, List.not_mem_nil, or_false] at hcs
  rcases hcs with rfl | rfl | rfl
  · have h1 := this.1 (1/2) (by simp [Lit.expand])
    unfold Simple at h1
    norm_num at h1
  · rcases this.2 with h2 | h2
    · exact h2 rfl
    · have := (signsOk_cons_neg (by norm_num) _).1 h2 1 (by simp)
      norm_num at this
  · rcases this.2 with h2 | h2
    · exact h2 rfl
    · obtain ⟨a, c, b, h, _, hc, _⟩ := h2
      have : c ∈ (Lit.list [(0:ℚ), 0]).expand 2 := by
        have h' : (Lit.list [(0:ℚ), 0]).expand 2 = a ++ c :: b := h
        rw [h']; simp
      simp [Lit.expand] at this
      exact hc this

/-- non-vacuity: `3 + 2*x - y`. -/
example : (∀ c ∈ (Lit.list [(2 : ℚ), -1]).expand 2, Simple c) ∧ ((3 : ℚ) ≠ 0) := by
  constructor
  · intro c hc
    simp only [Lit.expand, List.mem_cons, List.not_mem_nil, or_false] at hc
    rcases hc with rfl | rfl
    · right; right; right; left; norm_num
    · right; right; left; rfl
  · norm_num

/-! ### power combinations -/

omit [IsStrictOrderedRing K] in
theorem powLoop_eval (coeff : K) (hc : coeff ≠ 0) (l : List (Name × K)) : ∀ s,
    powLoop coeff s l = s ++ l.flatMap fun p => [.star, .name p.1, .pow, .num p.2] := by
  induction l with
  | nil => intro s; simp [powLoop]
  | cons p r ih => intro s; obtain ⟨x, q⟩ := p; rw [powLoop, if_pos hc, ih]; simp

omit [LinearOrder K] [IsStrictOrderedRing K] in
theorem evalProd_flat (pow : K → K → K) (env : Name → K) (l : List (Name × K)) : ∀ acc,
    evalProd pow env acc (l.flatMap fun p => [.star, .name p.1, .pow, .num p.2]) = some (acc * (l.map fun p => pow (env p.1) p.2).prod) := by
  induction l with
  | nil => intro acc; simp [evalProd]
  | cons p r ih => intro acc; simp only [List.flatMap_cons, List.cons_append, List.nil_append, evalProd, ih, List.map_cons, List.prod_cons]; congr 1; ring

omit [IsStrictOrderedRing K] in
/-- **C50 (as far as it holds).** The text of a power combination with a scalar coefficient other than zero denotes it. -/
theorem C50_power_partial (pow : K → K → K) (env : Name → K) (out : Name) (coeff : K) (hc : coeff ≠ 0) (powers : Lit K) (args : List Name) :
    AssignsProd pow env out (powString out coeff powers args) (powMeaning pow env coeff powers args) := by
  refine ⟨coeff, (args.zip (powers.expand args.length)).flatMap fun p => [.star, .name p.1, .pow, .num p.2], ?_, ?_⟩
  · rw [powString, powLoop_eval coeff hc]; rfl
  · rw [evalProd_flat, powMeaning, zipWith_eq_map_zip]

/-- **C50 is false as stated**: with coefficient zero the text is `0` and assigns nothing. -/
theorem C50_power_refuted (pow : ℚ → ℚ → ℚ) (env : Name → ℚ) (out x : Name) (v : ℚ) : ¬AssignsProd pow env out (powString out 0 (.one 1) [x]) v := by
  rintro ⟨c, r, h, _⟩
  simp [powString, powLoop, Lit.expand] at h

end Csdl.CString
