import Verif.Model.BSpline
import Verif.Spec.BSpline
import Mathlib.Algebra.Order.Field.Basic
import Mathlib.Algebra.Order.Field.Rat
import Mathlib.Algebra.BigOperators.Group.Finset.Basic
import Mathlib.Algebra.BigOperators.Intervals
import Mathlib.Tactic.Ring
import Mathlib.Tactic.Linarith
import Mathlib.Tactic.FieldSimp
import Mathlib.Tactic.Positivity
/-
C62 (the B-spline matrix is the matrix of the B-spline basis functions).
-/
namespace Csdl.BSpline

variable {K : Type} [Field K] [LinearOrder K] [IsStrictOrderedRing K]

section Lists

theorem pyGet_map {α : Type} {m : Nat} (f : Nat → α) {i : Nat} (h : i < m) {j : Int} (hj : j = i) : pyGet ((List.range m).map f) j = some (f i) := by
  subst hj
  simp [pyGet, h]

theorem pyGet_map_neg {α : Type} {m : Nat} (f : Nat → α) (h : 0 < m) : pyGet ((List.range m).map f) (-1) = some (f (m - 1)) := by
  have h1 : ((-1 : Int) + m).toNat = m - 1 := by omega
  have h2 : (0 : Int) ≤ -1 + m := by omega
  simp [pyGet, h1, h2, h]

theorem set_map {α : Type} {m : Nat} (f : Nat → α) (i : Nat) (v : α) : ((List.range m).map f).set i v = (List.range m).map (Function.update f i v) := by
  apply List.ext_getElem?
  intro j
  rw [List.getElem?_set]
  by_cases hj : j < m
  · by_cases hij : i = j
    · subst hij; simp [hj]
    · simp [hij, hj, Function.update_of_ne (Ne.symm hij)]
  · by_cases hij : i = j
    · subst hij; simp [hj]
    · simp [hij, hj]

theorem pySet_map {α : Type} {m : Nat} (f : Nat → α) {i : Nat} (h : i < m) (v : α) {j : Int} (hj : j = i) :
    pySet ((List.range m).map f) j v = some ((List.range m).map (Function.update f i v)) := by
  subst hj
  simp [pySet, h, set_map]

theorem pySet_map_neg {α : Type} {m : Nat} (f : Nat → α) (h : 0 < m) (v : α) :
    pySet ((List.range m).map f) (-1) v = some ((List.range m).map (Function.update f (m - 1) v)) := by
  have h1 : ((-1 : Int) + m).toNat = m - 1 := by omega
  have h2 : (0 : Int) ≤ -1 + m := by omega
  simp [pySet, h1, h2, set_map]

theorem map_range_congr {α : Type} {m : Nat} {f g : Nat → α} (h : ∀ x < m, f x = g x) : (List.range m).map f = (List.range m).map g := by
  apply List.map_congr_left
  intro a ha
  exact h a (List.mem_range.mp ha)

end Lists

section Knots

theorem knots_eq {n k : Nat} (hk : 1 ≤ k) (hkn : k ≤ n) : (knots n k : List K) = (List.range (n + k)).map (knot n k) := by
  apply map_range_congr
  intro x hx
  unfold knot
  by_cases h1 : x < k - 1
  · rw [if_pos h1, if_pos (by omega)]
  · rw [if_neg h1]
    by_cases h2 : x < n + 1
    · rw [if_pos h2]
      have h3 : x - (k - 1) < n - k + 2 := by omega
      rw [linspace01, List.getD_eq_getElem?_getD, List.getElem?_map, List.getElem?_range h3]
      simp only [Option.map_some, Option.getD_some]
      have e : n - k + 2 - 1 = n - k + 1 := by omega
      rw [e]
      by_cases h4 : x < k
      · rw [if_pos h4]
        have : x - (k - 1) = 0 := by omega
        rw [this]; simp
      · rw [if_neg h4]
        by_cases h5 : x < n
        · rw [if_pos h5]
        · rw [if_neg h5]
          have : x - (k - 1) = n - k + 1 := by omega
          rw [this]
          exact div_self (Nat.cast_ne_zero.mpr (by omega))
    · rw [if_neg h2, if_neg (by omega), if_neg (by omega)]

theorem knot_zero {n k i : Nat} (h : i < k) : (knot n k i : K) = 0 := by simp [knot, h]

theorem knot_one {n k i : Nat} (hkn : k ≤ n) (h : n ≤ i) : (knot n k i : K) = 1 := by
  simp [knot, show ¬ i < k by omega, show ¬ i < n by omega]

/-- on the middle part the knots are equally spaced -/
theorem knot_mid {n k i : Nat} (hk : 1 ≤ k) (hkn : k ≤ n) (h1 : k - 1 ≤ i) (h2 : i ≤ n) : (knot n k i : K) = ((i - (k - 1) : Nat) : K) / ((n - k + 1 : Nat) : K) := by
  unfold knot
  split
  · have : i - (k - 1) = 0 := by omega
    simp [this]
  · split
    · rfl
    · have : i - (k - 1) = n - k + 1 := by omega
      rw [this]
      exact (div_self (Nat.cast_ne_zero.mpr (by omega))).symm

theorem knot_lt {n k i : Nat} (hk : 1 ≤ k) (hkn : k ≤ n) (h1 : k - 1 ≤ i) (h2 : i < n) : (knot n k i : K) < knot n k (i + 1) := by
  rw [knot_mid hk hkn h1 (by omega), knot_mid hk hkn (by omega) (by omega)]
  apply div_lt_div_of_pos_right
  · exact_mod_cast (by omega : i - (k - 1) < i + 1 - (k - 1))
  · exact Nat.cast_pos.mpr (by omega)

theorem knot_le_succ {n k : Nat} (hk : 1 ≤ k) (hkn : k ≤ n) (i : Nat) : (knot n k i : K) ≤ knot n k (i + 1) := by
  by_cases h1 : i < k - 1
  · rw [knot_zero (by omega), knot_zero (by omega)]
  · by_cases h2 : i < n
    · exact (knot_lt hk hkn (by omega) h2).le
    · rw [knot_one hkn (by omega), knot_one hkn (by omega)]

theorem knot_mono {n k : Nat} (hk : 1 ≤ k) (hkn : k ≤ n) : Monotone (knot n k : Nat → K) := monotone_nat_of_le_succ (knot_le_succ hk hkn)

/-- the interval number `μ` holds `t` -/
def Holds (n : Nat) (κ : Nat → K) (t : K) (μ : Nat) : Prop := (κ μ ≤ t ∧ t < κ (μ + 1)) ∨ (t = 1 ∧ μ + 1 = n)

theorem holds_le {n k μ : Nat} (hkn : k ≤ n) {t : K} (hk : 1 ≤ k) (h : Holds n (knot n k) t μ) : (knot n k μ : K) ≤ t ∧ t ≤ knot n k (μ + 1) := by
  rcases h with ⟨h1, h2⟩ | ⟨h1, h2⟩
  · exact ⟨h1, h2.le⟩
  · subst h1
    rw [knot_one hkn (i := μ + 1) (by omega)]
    refine ⟨?_, le_rfl⟩
    rw [← knot_one (K := K) hkn (i := μ + 1) (by omega)]
    exact knot_le_succ hk hkn μ

theorem base_eq {n k μ : Nat} (hk : 1 ≤ k) (hkn : k ≤ n) {t : K} (h : Holds n (knot n k) t μ) (i : Nat) :
    coxDeBoor (knot n k) t 0 i = if i = μ then 1 else 0 := by
  have hm := knot_mono (K := K) hk hkn
  unfold coxDeBoor
  by_cases hi : i = μ
  · subst hi
    rw [if_pos rfl, if_pos]
    rcases h with h | ⟨h1, h2⟩
    · exact Or.inl h
    · refine Or.inr ⟨h1, knot_lt hk hkn (by omega) (by omega), knot_one hkn (by omega)⟩
  · rw [if_neg hi, if_neg]
    rintro (⟨a, b⟩ | ⟨a, b, c⟩)
    · rcases h with ⟨h1, h2⟩ | ⟨h1, h2⟩
      · rcases Nat.lt_or_gt_of_ne hi with hlt | hlt
        · exact absurd (lt_of_lt_of_le b (hm (show i + 1 ≤ μ by omega))) (not_lt.mpr h1)
        · exact absurd (lt_of_le_of_lt a h2) (not_lt.mpr (hm (show μ + 1 ≤ i by omega)))
      · subst h1
        have : (knot n k (i + 1) : K) ≤ 1 := by
          rw [← knot_one (K := K) hkn (i := max n (i + 1)) (le_max_left _ _)]
          exact hm (le_max_right _ _)
        exact absurd b (not_lt.mpr this)
    · rcases h with ⟨h1, h2⟩ | ⟨h1, h2⟩
      · subst a
        have : (knot n k (μ + 1) : K) ≤ 1 := by
          rw [← knot_one (K := K) hkn (i := max n (μ + 1)) (le_max_left _ _)]
          exact hm (le_max_right _ _)
        exact absurd h2 (not_lt.mpr this)
      · rcases Nat.lt_or_gt_of_ne hi with hlt | hlt
        · have h3 : (knot n k (i + 1) : K) ≤ knot n k μ := hm (by omega)
          have h4 : (knot n k μ : K) < knot n k (μ + 1) := knot_lt hk hkn (by omega) (by omega)
          rw [knot_one hkn (i := μ + 1) (by omega)] at h4
          rw [c] at h3
          exact absurd h4 (not_lt.mpr h3)
        · rw [knot_one hkn (i := i) (by omega), c] at b
          exact absurd b (lt_irrefl _)

/-- a basis function is zero outside its support -/
theorem support {n k μ : Nat} (hk : 1 ≤ k) (hkn : k ≤ n) {t : K} (h : Holds n (knot n k) t μ) (p i : Nat) (hi : i + p < μ ∨ μ < i) : coxDeBoor (knot n k) t p i = 0 := by
  induction p generalizing i with
  | zero => rw [base_eq hk hkn h, if_neg (by omega)]
  | succ p ih =>
    rw [coxDeBoor, ih i (by omega), ih (i + 1) (by omega)]
    simp

theorem nonneg_basis {n k μ : Nat} (hk : 1 ≤ k) (hkn : k ≤ n) {t : K} (h : Holds n (knot n k) t μ) (p i : Nat) : 0 ≤ coxDeBoor (knot n k) t p i := by
  have hm := knot_mono (K := K) hk hkn
  have hle := holds_le hkn hk h
  induction p generalizing i with
  | zero => rw [base_eq hk hkn h]; split <;> simp
  | succ p ih =>
    rw [coxDeBoor]
    apply add_nonneg
    · by_cases hi : i + p < μ ∨ μ < i
      · rw [support hk hkn h p i hi]; simp
      · apply mul_nonneg _ (ih i)
        apply div_nonneg
        · exact sub_nonneg.mpr (le_trans (hm (by omega)) hle.1)
        · exact sub_nonneg.mpr (hm (by omega))
    · by_cases hi : i + 1 + p < μ ∨ μ < i + 1
      · rw [support hk hkn h p (i + 1) hi]; simp
      · apply mul_nonneg _ (ih (i + 1))
        apply div_nonneg
        · exact sub_nonneg.mpr (le_trans hle.2 (hm (by omega)))
        · exact sub_nonneg.mpr (hm (by omega))

end Knots

section Search

theorem foldlM_some {α β : Type} (f : β → α → Option β) (g : β → α → β) (l : List α) (h : ∀ b, ∀ a ∈ l, f b a = some (g b a)) (b : β) :
    l.foldlM f b = some (l.foldl g b) := by
  induction l generalizing b with
  | nil => rfl
  | cons a l ih =>
    rw [List.foldlM_cons, h b a (by simp)]
    simp only [Option.bind_eq_bind, Option.bind_some, List.foldl_cons]
    exact ih (fun b a ha => h b a (by simp [ha])) _

theorem fold_last (P : Nat → Prop) [DecidablePred P] (k : Nat) (l : List Nat) (b : Int) :
    (l.foldl (fun (i0 : Int) ind => if P ind then (ind : Int) - k else i0) b = b ∧ ∀ a ∈ l, ¬ P a) ∨
    ∃ a ∈ l, P a ∧ l.foldl (fun (i0 : Int) ind => if P ind then (ind : Int) - k else i0) b = (a : Int) - k := by
  induction l generalizing b with
  | nil => left; simp
  | cons a l ih =>
    rw [List.foldl_cons]
    rcases ih (if P a then (a : Int) - k else b) with ⟨h1, h2⟩ | ⟨x, hx, hp, he⟩
    · by_cases ha : P a
      · right
        exact ⟨a, by simp, ha, by rw [h1, if_pos ha]⟩
      · left
        refine ⟨by rw [h1, if_neg ha], ?_⟩
        intro y hy
        rcases List.mem_cons.mp hy with rfl | hy
        · exact ha
        · exact h2 y hy
    · right
      exact ⟨x, by simp [hx], hp, he⟩

theorem exists_interval (κ : Nat → K) (t : K) (a d : Nat) (h1 : κ a ≤ t) (h2 : t < κ (a + d)) : ∃ μ, a ≤ μ ∧ μ < a + d ∧ κ μ ≤ t ∧ t < κ (μ + 1) := by
  induction d with
  | zero => exact absurd h1 (not_le.mpr h2)
  | succ d ih =>
    by_cases h : t < κ (a + d)
    · obtain ⟨μ, x, y, z⟩ := ih h
      exact ⟨μ, x, by omega, z⟩
    · exact ⟨a + d, by omega, by omega, not_lt.mp h, h2⟩

theorem findInterval_ok {n k : Nat} (hk : 1 ≤ k) (hkn : k ≤ n) {t : K} (h0 : 0 ≤ t) (h1 : t ≤ 1) :
    ∃ m, m + k ≤ n ∧ findInterval (knots n k) t n k = some (m : Int) ∧ Holds n (knot n k) t (m + k - 1) := by
  have hs : ∀ b : Int, ∀ a ∈ List.range' k (n + 1 - k), searchStep (knots n k) t k b a =
      some (if (knot n k (a - 1) : K) ≤ t ∧ t < knot n k a then (a : Int) - k else b) := by
    intro b a ha
    have ha' := List.mem_range'_1.mp ha
    rw [searchStep, knots_eq hk hkn, pyGet_map (knot n k) (i := a - 1) (by omega) (by omega), pyGet_map (knot n k) (i := a) (by omega) rfl]
    rfl
  have hlast : pyGet (knots n k : List K) (-1) = some 1 := by
    rw [knots_eq hk hkn, pyGet_map_neg _ (by omega), knot_one hkn (by omega)]
  have hf : findInterval (knots n k) t n k = some (if t = 1 then (n : Int) - k else
      (List.range' k (n + 1 - k)).foldl (fun (i0 : Int) ind => if (knot n k (ind - 1) : K) ≤ t ∧ t < knot n k ind then (ind : Int) - k else i0) (-1)) := by
    rw [findInterval, foldlM_some _ _ _ hs, hlast]
    rfl
  rw [hf]
  by_cases ht : t = 1
  · refine ⟨n - k, by omega, ?_, Or.inr ⟨ht, by omega⟩⟩
    rw [if_pos ht]
    congr 1
    omega
  · rw [if_neg ht]
    have hlt : t < 1 := lt_of_le_of_ne h1 ht
    obtain ⟨μ, x1, x2, x3, x4⟩ := exists_interval (knot n k) t (k - 1) (n - k + 1) (by rw [knot_zero (by omega)]; exact h0)
      (by rw [knot_one hkn (by omega)]; exact hlt)
    rcases fold_last (fun ind => (knot n k (ind - 1) : K) ≤ t ∧ t < knot n k ind) k (List.range' k (n + 1 - k)) (-1) with ⟨_, h⟩ | ⟨a, ha, hp, he⟩
    · exact absurd ⟨by simpa using x3, x4⟩ (h (μ + 1) (List.mem_range'_1.mpr ⟨by omega, by omega⟩))
    · have ha' := List.mem_range'_1.mp ha
      refine ⟨a - k, by omega, ?_, Or.inl ?_⟩
      · rw [he]; congr 1; omega
      · have e1 : a - k + k - 1 = a - 1 := by omega
        have e2 : a - 1 + 1 = a := by omega
        rw [e1, e2]
        exact hp

end Search

section Levels

theorem div_mul_ite (a b t x : K) : (if a ≠ b then (a - t) / (a - b) * x else 0) = (a - t) / (a - b) * x := by
  by_cases h : a = b <;> simp [h]

theorem div_mul_ite' (a b t x : K) : (if a ≠ b then (t - b) / (a - b) * x else 0) = (t - b) / (a - b) * x := by
  by_cases h : a = b <;> simp [h]

variable {n k : Nat} (hk : 1 ≤ k) (hkn : k ≤ n) (t : K) {m : Nat} (hm : m + k ≤ n)
include hk hkn hm

theorem firstEntry_eq (f : Nat → K) {l : Nat} (h1 : 1 ≤ l) (h2 : l < k) :
    firstEntry (knots n k) t (m : Int) l (k - l) ((List.range k).map f) = some ((List.range k).map (Function.update f (k - l - 1)
      ((knot n k (m + k) - t) / (knot n k (m + k) - knot n k (m + (k - l))) * f (k - l)))) := by
  rw [firstEntry, knots_eq hk hkn]
  rw [pyGet_map (knot n k) (i := m + k) (by omega) (by omega), pyGet_map (knot n k) (i := m + (k - l)) (by omega) (by omega),
    pyGet_map f (i := k - l) (by omega) rfl]
  simp only [Option.bind_eq_bind, Option.bind_some]
  rw [pySet_map f (i := k - l - 1) (by omega) _ (by omega), pySet_map f (i := k - l - 1) (by omega) _ (by omega), ← div_mul_ite]
  split <;> rfl

theorem lastEntry_eq (f : Nat → K) {l : Nat} (h1 : 1 ≤ l) (h2 : l < k) :
    lastEntry (knots n k) t (m : Int) l k ((List.range k).map f) = some ((List.range k).map (Function.update f (k - 1)
      ((t - knot n k (m + k - 1)) / (knot n k (m + k + l - 1) - knot n k (m + k - 1)) * f (k - 1)))) := by
  rw [lastEntry, knots_eq hk hkn]
  rw [pyGet_map (knot n k) (i := m + k + l - 1) (by omega) (by omega), pyGet_map (knot n k) (i := m + k - 1) (by omega) (by omega),
    pyGet_map f (i := k - 1) (by omega) (by omega)]
  simp only [Option.bind_eq_bind, Option.bind_some]
  rw [pySet_map f (i := k - 1) (by omega) _ (by omega), pySet_map f (i := k - 1) (by omega) _ (by omega), ← div_mul_ite']
  split <;> rfl

theorem middleEntry_eq (f : Nat → K) {l j : Nat} (h1 : 1 ≤ l) (h2 : l < k) (h3 : 1 ≤ j) (h4 : j < k) :
    middleEntry (knots n k) t (m : Int) l ((List.range k).map f) j = some ((List.range k).map (Function.update f (j - 1)
      ((t - knot n k (m + j - 1)) / (knot n k (m + j + l - 1) - knot n k (m + j - 1)) * f (j - 1)
        + (knot n k (m + j + l) - t) / (knot n k (m + j + l) - knot n k (m + j)) * f j))) := by
  rw [middleEntry, knots_eq hk hkn]
  rw [pyGet_map (knot n k) (i := m + j + l - 1) (by omega) (by omega), pyGet_map (knot n k) (i := m + j - 1) (by omega) (by omega),
    pyGet_map f (i := j - 1) (by omega) (by omega), pyGet_map (knot n k) (i := m + j + l) (by omega) (by omega),
    pyGet_map (knot n k) (i := m + j) (by omega) (by omega)]
  simp only [Option.bind_eq_bind, Option.bind_some]
  have key : leftTerm (knot n k (m + j + l - 1)) (knot n k (m + j - 1)) t (f (j - 1)) ((List.range k).map f) j =
      some ((List.range k).map (Function.update f (j - 1) ((t - knot n k (m + j - 1)) / (knot n k (m + j + l - 1) - knot n k (m + j - 1)) * f (j - 1)))) := by
    rw [leftTerm, pySet_map f (i := j - 1) (by omega) _ (by omega), pySet_map f (i := j - 1) (by omega) _ (by omega), ← div_mul_ite']
    split <;> rfl
  rw [key]
  simp only [Option.bind_some]
  rw [pyGet_map _ (i := j - 1) (by omega) (by omega), pyGet_map _ (i := j) (by omega) rfl]
  simp only [Option.bind_some, Function.update_self]
  rw [Function.update_of_ne (by omega), pySet_map _ (i := j - 1) (by omega) _ (by omega), Function.update_idem]
  by_cases h : (knot n k (m + j + l) : K) = knot n k (m + j)
  · simp [h]
  · simp [h]

/-- after `c` middle entries the entries up to the last one changed belong to the new level -/
theorem middle_fold {l : Nat} (h1 : 1 ≤ l) (h2 : l < k) (f g : Nat → K)
    (hg : ∀ j, k - l < j → j < k → g (j - 1) = (t - knot n k (m + j - 1)) / (knot n k (m + j + l - 1) - knot n k (m + j - 1)) * f (j - 1)
        + (knot n k (m + j + l) - t) / (knot n k (m + j + l) - knot n k (m + j)) * f j) (c : Nat) (hc : c ≤ l - 1) :
    (List.range' (k - l + 1) c).foldlM (middleEntry (knots n k) t (m : Int) l) ((List.range k).map fun x => if x < k - l then g x else f x) =
      some ((List.range k).map fun x => if x < k - l + c then g x else f x) := by
  induction c with
  | zero => rfl
  | succ c ih =>
    rw [List.range'_concat, List.foldlM_append, ih (by omega)]
    simp only [Option.bind_eq_bind, Option.bind_some, one_mul, List.foldlM_cons, List.foldlM_nil]
    rw [middleEntry_eq hk hkn t hm _ h1 h2 (by omega) (by omega)]
    simp only [Option.bind_some]
    change some _ = some _
    congr 1
    apply map_range_congr
    intro x hx
    by_cases hxc : x = k - l + 1 + c - 1
    · subst hxc
      rw [Function.update_self, if_neg (by omega), if_neg (by omega), if_pos (by omega), hg _ (by omega) (by omega)]
    · rw [Function.update_of_ne hxc]
      by_cases h : x < k - l + c
      · rw [if_pos h, if_pos (by omega)]
      · rw [if_neg h, if_neg (by omega)]

theorem level_eq {l : Nat} (h1 : 1 ≤ l) (h2 : l < k) (h : Holds n (knot n k) t (m + k - 1)) :
    level (knots n k) t k (m : Int) ((List.range k).map fun x => coxDeBoor (knot n k) t (l - 1) (m + x)) (l + 1) =
      some ((List.range k).map fun x => coxDeBoor (knot n k) t l (m + x)) := by
  obtain ⟨p, rfl⟩ : ∃ p, l = p + 1 := ⟨l - 1, by omega⟩
  simp only [Nat.add_sub_cancel]
  rw [level]
  simp only [Nat.add_sub_cancel]
  rw [firstEntry_eq hk hkn t hm _ h1 h2]
  simp only [Option.bind_eq_bind, Option.bind_some]
  have e : (List.range k).map (Function.update (fun x => coxDeBoor (knot n k) t p (m + x)) (k - (p + 1) - 1)
      ((knot n k (m + k) - t) / (knot n k (m + k) - knot n k (m + (k - (p + 1)))) * coxDeBoor (knot n k) t p (m + (k - (p + 1))))) =
      (List.range k).map fun x => if x < k - (p + 1) then coxDeBoor (knot n k) t (p + 1) (m + x) else coxDeBoor (knot n k) t p (m + x) := by
    apply map_range_congr
    intro x hx
    by_cases hx1 : x = k - (p + 1) - 1
    · rw [hx1, Function.update_self, if_pos (by omega), coxDeBoor, support hk hkn h p (m + (k - (p + 1) - 1)) (by omega)]
      have e1 : m + (k - (p + 1) - 1) + p + 2 = m + k := by omega
      have e2 : m + (k - (p + 1) - 1) + 1 = m + (k - (p + 1)) := by omega
      rw [e1, e2]
      simp
    · rw [Function.update_of_ne hx1]
      by_cases hx2 : x < k - (p + 1)
      · rw [if_pos hx2, support hk hkn h p (m + x) (by omega), support hk hkn h (p + 1) (m + x) (by omega)]
      · rw [if_neg hx2]
  rw [e, show p + 1 + 1 - 2 = p by omega,
    middle_fold hk hkn t hm h1 h2 (fun x => coxDeBoor (knot n k) t p (m + x)) (fun x => coxDeBoor (knot n k) t (p + 1) (m + x)) ?_ p (by omega)]
  · simp only [Option.bind_some]
    rw [lastEntry_eq hk hkn t hm _ h1 h2]
    congr 1
    apply map_range_congr
    intro x hx
    by_cases hx1 : x = k - 1
    · rw [hx1, Function.update_self, if_neg (by omega), coxDeBoor, support hk hkn h p (m + (k - 1) + 1) (by omega)]
      have e1 : m + k + (p + 1) - 1 = m + (k - 1) + p + 1 := by omega
      have e2 : m + k - 1 = m + (k - 1) := by omega
      rw [e1, e2]
      simp
    · rw [Function.update_of_ne hx1, if_pos (by omega)]
  · intro j hj1 hj2
    rw [coxDeBoor]
    have e1 : m + (j - 1) = m + j - 1 := by omega
    have e2 : m + (j - 1) + p + 1 = m + j + (p + 1) - 1 := by omega
    have e3 : m + (j - 1) + p + 2 = m + j + (p + 1) := by omega
    have e4 : m + (j - 1) + 1 = m + j := by omega
    rw [e2, e3, e4, e1]

theorem levels_eq (h : Holds n (knot n k) t (m + k - 1)) (c : Nat) (hc : c ≤ k - 1) :
    (List.range' 2 c).foldlM (level (knots n k) t k (m : Int)) ((List.range k).map fun x => coxDeBoor (knot n k) t 0 (m + x)) =
      some ((List.range k).map fun x => coxDeBoor (knot n k) t c (m + x)) := by
  induction c with
  | zero => rfl
  | succ c ih =>
    rw [List.range'_concat, List.foldlM_append, ih (by omega)]
    simp only [Option.bind_eq_bind, Option.bind_some, one_mul, List.foldlM_cons, List.foldlM_nil]
    have := level_eq hk hkn t hm (l := c + 1) (by omega) (by omega) h
    rw [show c + 1 + 1 = 2 + c by omega, Nat.add_sub_cancel] at this
    rw [this]
    rfl

end Levels

theorem basisAt_ok {n k : Nat} (hk : 1 ≤ k) (hkn : k ≤ n) {t : K} (h0 : 0 ≤ t) (h1 : t ≤ 1) :
    ∃ m, m + k ≤ n ∧ Holds n (knot n k) t (m + k - 1) ∧
      basisAt (knots n k) t n k = some ((m : Int), (List.range k).map fun x => coxDeBoor (knot n k) t (k - 1) (m + x)) := by
  obtain ⟨m, hm, hf, hh⟩ := findInterval_ok hk hkn h0 h1
  refine ⟨m, hm, hh, ?_⟩
  rw [basisAt, hf]
  have e0 : (List.replicate k (0 : K)) = (List.range k).map fun _ => 0 := by
    simp
  rw [e0]
  simp only [Option.bind_eq_bind, Option.bind_some]
  rw [pySet_map_neg _ hk]
  simp only [Option.bind_some]
  have e : (List.range k).map (Function.update (fun _ => (0 : K)) (k - 1) 1) = (List.range k).map fun x => coxDeBoor (knot n k) t 0 (m + x) := by
    apply map_range_congr
    intro x hx
    rw [base_eq hk hkn hh]
    by_cases hx1 : x = k - 1
    · rw [hx1, Function.update_self, if_pos (by omega)]
    · rw [Function.update_of_ne hx1, if_neg (by omega)]
  rw [e, levels_eq hk hkn t hm hh (k - 1) le_rfl]
  rfl


section Matrix

theorem point_mem {m r : Nat} (h : r < m) : (0 : K) ≤ point m r ∧ (point m r : K) ≤ 1 := by
  unfold point
  refine ⟨div_nonneg (Nat.cast_nonneg _) (Nat.cast_nonneg _), ?_⟩
  apply div_le_one_of_le₀ _ (Nat.cast_nonneg _)
  exact Nat.cast_le.mpr (by omega)

theorem dense_eq (es : List (K × Nat × Int)) (r c : Nat) : dense es r c = (es.map fun e => if e.2.1 = r ∧ e.2.2 = (c : Int) then e.1 else 0).sum := by
  induction es with
  | nil => rfl
  | cons e es ih =>
    unfold dense at ih ⊢
    rw [List.map_cons, List.sum_cons, ← ih]
    by_cases h : e.2.1 = r ∧ e.2.2 = (c : Int)
    · rw [if_pos h, List.filter_cons_of_pos (by simpa using h)]; simp
    · rw [if_neg h, List.filter_cons_of_neg (by simpa using h)]; simp

theorem sum_range_single {f : Nat → K} {m i : Nat} (h : ∀ x < m, x ≠ i → f x = 0) : ((List.range m).map f).sum = if i < m then f i else 0 := by
  induction m with
  | zero => simp
  | succ m ih =>
    rw [List.range_succ, List.map_append, List.sum_append, ih (fun x hx => h x (by omega))]
    simp only [List.map_cons, List.map_nil, List.sum_cons, List.sum_nil, add_zero]
    by_cases him : i < m
    · rw [if_pos him, if_pos (by omega), h m (by omega) (by omega), add_zero]
    · rw [if_neg him, zero_add]
      by_cases e : i = m
      · subst e; rw [if_pos (by omega)]
      · rw [if_neg (by omega), h m (by omega) (Ne.symm e)]

/-- the entries of one row -/
theorem rowAt_ok {n m k r : Nat} (hk : 1 ≤ k) (hkn : k ≤ n) (hr : r < m) :
    ∃ row, rowAt (knots n k) (linspace01 m : List K) n k r = some row ∧
      (∀ e ∈ row, e.2.1 = r ∧ 0 ≤ e.2.2 ∧ e.2.2 < n) ∧
      ∀ c, dense row r c = coxDeBoor (knot n k) (point m r) (k - 1) c := by
  obtain ⟨h0, h1⟩ := point_mem (K := K) hr
  obtain ⟨i0, hi, hh, hb⟩ := basisAt_ok hk hkn h0 h1
  refine ⟨(List.range k).map fun (j : Nat) => (coxDeBoor (knot n k) (point m r) (k - 1) (i0 + j), r, (i0 : Int) + (j : Int)), ?_, ?_, ?_⟩
  · have ht : pyGet (linspace01 m : List K) (r : Int) = some (point m r) := pyGet_map _ hr rfl
    rw [rowAt, ht]
    simp only [Option.bind_eq_bind, Option.bind_some]
    rw [hb]
    simp only [Option.bind_some]
    congr 1
    apply map_range_congr
    intro x hx
    simp [hx]
  · intro e he
    obtain ⟨j, hj, rfl⟩ := List.mem_map.mp he
    have := List.mem_range.mp hj
    exact ⟨rfl, by simp only; omega, by simp only; omega⟩
  · intro c
    rw [dense_eq, List.map_map]
    by_cases hc : i0 ≤ c
    · rw [sum_range_single (i := c - i0)]
      · simp only [Function.comp_apply, true_and]
        have e : i0 + (c - i0) = c := by omega
        rw [if_pos (c := (i0 : Int) + ((c - i0 : Nat) : Int) = (c : Int)) (by omega), e]
        by_cases hck : c - i0 < k
        · rw [if_pos hck]
        · rw [if_neg hck, support hk hkn hh (k - 1) c (by omega)]
      · intro x _ hx
        simp only [Function.comp_apply, true_and]
        rw [if_neg (by omega)]
    · rw [support hk hkn hh (k - 1) c (by omega), sum_range_single (i := k)]
      · simp
      · intro x _ hx
        simp only [Function.comp_apply, true_and]
        rw [if_neg (by omega)]

theorem dense_append (a b : List (K × Nat × Int)) (r c : Nat) : dense (a ++ b) r c = dense a r c + dense b r c := by
  simp [dense]

theorem dense_other {es : List (K × Nat × Int)} {r c : Nat} (h : ∀ e ∈ es, e.2.1 ≠ r) : dense es r c = 0 := by
  unfold dense
  rw [List.filter_eq_nil_iff.mpr]
  · rfl
  · intro e he
    simp [h e he]

theorem rows_ok {n m k : Nat} (hk : 1 ≤ k) (hkn : k ≤ n) (q : Nat) (hq : q ≤ m) :
    ∃ rows, (List.range q).mapM (rowAt (knots n k) (linspace01 m : List K) n k) = some rows ∧
      (∀ e ∈ rows.flatten, e.2.1 < q ∧ 0 ≤ e.2.2 ∧ e.2.2 < n) ∧
      ∀ r < q, ∀ c, dense rows.flatten r c = coxDeBoor (knot n k) (point m r) (k - 1) c := by
  induction q with
  | zero => exact ⟨[], rfl, by simp, by simp⟩
  | succ q ih =>
    obtain ⟨rows, he, hb, hd⟩ := ih (by omega)
    obtain ⟨row, hre, hrb, hrd⟩ := rowAt_ok (K := K) (r := q) (m := m) hk hkn (by omega)
    refine ⟨rows ++ [row], ?_, ?_, ?_⟩
    · rw [List.range_succ, List.mapM_append, he]
      simp [hre]
    · intro e hem
      rw [List.flatten_append, List.mem_append] at hem
      rcases hem with hem | hem
      · obtain ⟨x, y⟩ := hb e hem; exact ⟨by omega, y⟩
      · obtain ⟨x, y⟩ := hrb e (by simpa using hem); exact ⟨by omega, y⟩
    · intro r hr c
      rw [List.flatten_append, dense_append, show [row].flatten = row by simp]
      by_cases hrq : r = q
      · subst hrq
        rw [dense_other (fun e he => by have := (hb e he).1; omega), hrd, zero_add]
      · rw [hd r (by omega), dense_other (fun e he => by have := (hrb e he).1; omega), add_zero]

/-- **C62**: for any positive numbers of control points and orders and any number of points, `get_bspline_mtx` does not fail, its entries are inside the matrix, and the matrix is
that of the B-spline basis functions of that order (at most the number of control points) at equally spaced points. -/
theorem C62_bspline_matrix (num_cp num_pt order : Nat) (hn : 1 ≤ num_cp) (ho : 1 ≤ order) :
    ∃ es : List (K × Nat × Int), getBsplineMtx num_cp num_pt order = some es ∧
      (∀ e ∈ es, e.2.1 < num_pt ∧ 0 ≤ e.2.2 ∧ e.2.2 < num_cp) ∧
      ∀ r < num_pt, ∀ c, dense es r c = coxDeBoor (knot num_cp (min order num_cp)) (point num_pt r) (min order num_cp - 1) c := by
  obtain ⟨rows, he, hb, hd⟩ := rows_ok (K := K) (n := num_cp) (m := num_pt) (k := min order num_cp) (by omega) (by omega) num_pt le_rfl
  refine ⟨rows.flatten, ?_, hb, hd⟩
  rw [getBsplineMtx, he]
  rfl

/-- partition of unity -/
theorem sum_basis {n k μ : Nat} (hk : 1 ≤ k) (hkn : k ≤ n) {t : K} (h : Holds n (knot n k) t μ) (h1 : k - 1 ≤ μ) (h2 : μ < n) (p : Nat) (hp : p < k) :
    ∑ i ∈ Finset.range (μ + 1), coxDeBoor (knot n k) t p i = 1 := by
  induction p with
  | zero =>
    rw [Finset.sum_congr rfl (fun i _ => base_eq hk hkn h i)]
    simp
  | succ p ih =>
    rw [← ih (by omega), Finset.sum_congr rfl (fun i _ => show coxDeBoor (knot n k) t (p + 1) i = _ from coxDeBoor.eq_2 _ _ _ _), Finset.sum_add_distrib]
    have hm := knot_mono (K := K) hk hkn
    have e0 : coxDeBoor (knot n k) t p 0 = 0 := support hk hkn h p 0 (by omega)
    have eμ : coxDeBoor (knot n k) t p (μ + 1) = 0 := support hk hkn h p (μ + 1) (by omega)
    have shift : ∑ i ∈ Finset.range (μ + 1), (knot n k (i + p + 2) - t) / (knot n k (i + p + 2) - knot n k (i + 1)) * coxDeBoor (knot n k) t p (i + 1) =
        ∑ i ∈ Finset.range (μ + 1), (knot n k (i + p + 1) - t) / (knot n k (i + p + 1) - knot n k i) * coxDeBoor (knot n k) t p i := by
      have a := Finset.sum_range_succ' (fun i => (knot n k (i + p + 1) - t) / (knot n k (i + p + 1) - knot n k i) * coxDeBoor (knot n k) t p i) (μ + 1)
      have b := Finset.sum_range_succ (fun i => (knot n k (i + p + 1) - t) / (knot n k (i + p + 1) - knot n k i) * coxDeBoor (knot n k) t p i) (μ + 1)
      rw [b] at a
      simp only [eμ, e0, mul_zero, add_zero] at a
      rw [a]
      apply Finset.sum_congr rfl
      intro i _
      rw [show i + 1 + p + 1 = i + p + 2 by omega]
    rw [shift, ← Finset.sum_add_distrib]
    apply Finset.sum_congr rfl
    intro i hi
    by_cases his : i + p < μ
    · rw [support hk hkn h p i (by omega)]; simp
    · have him := Finset.mem_range.mp hi
      have : (knot n k i : K) < knot n k (i + p + 1) :=
        lt_of_le_of_lt (hm (show i ≤ μ by omega)) (lt_of_lt_of_le (knot_lt hk hkn h1 h2) (hm (by omega)))
      have hne : (knot n k (i + p + 1) - knot n k i : K) ≠ 0 := sub_ne_zero.mpr this.ne'
      rw [← add_mul, ← add_div, show t - knot n k i + (knot n k (i + p + 1) - t) = knot n k (i + p + 1) - knot n k i by ring, div_self hne, one_mul]

theorem sum_all {n k μ : Nat} (hk : 1 ≤ k) (hkn : k ≤ n) {t : K} (h : Holds n (knot n k) t μ) (h1 : k - 1 ≤ μ) (h2 : μ < n) :
    ∑ i ∈ Finset.range n, coxDeBoor (knot n k) t (k - 1) i = 1 := by
  rw [← sum_basis hk hkn h h1 h2 (k - 1) (by omega)]
  symm
  apply Finset.sum_subset
  · intro x hx
    have := Finset.mem_range.mp hx
    exact Finset.mem_range.mpr (by omega)
  · intro x _ hx
    exact support hk hkn h (k - 1) x (Or.inr (by have := mt Finset.mem_range.mpr hx; omega))

/-- **C62**: the entries are nonnegative and every row sums to one, so each point of the curve is a weighted average of the control points. -/
theorem C62_rows_are_weights (num_cp num_pt order : Nat) (hn : 1 ≤ num_cp) (ho : 1 ≤ order) (es : List (K × Nat × Int))
    (he : getBsplineMtx num_cp num_pt order = some es) (r : Nat) (hr : r < num_pt) :
    (∀ c, 0 ≤ dense es r c) ∧ ∑ c ∈ Finset.range num_cp, dense es r c = 1 := by
  obtain ⟨es', he', _, hd⟩ := C62_bspline_matrix (K := K) num_cp num_pt order hn ho
  rw [he] at he'
  cases he'
  obtain ⟨h0, h1⟩ := point_mem (K := K) hr
  obtain ⟨i0, hi, _, hh⟩ := findInterval_ok (n := num_cp) (k := min order num_cp) (by omega) (by omega) h0 h1
  constructor
  · intro c
    rw [hd r hr]
    exact nonneg_basis (by omega) (by omega) hh _ _
  · rw [Finset.sum_congr rfl (fun c _ => hd r hr c)]
    exact sum_all (by omega) (by omega) hh (by omega) (by omega)

theorem start_basis {n k : Nat} (hk : 1 ≤ k) (hkn : k ≤ n) (p i : Nat) (hp : p < k) : coxDeBoor (knot n k) (0 : K) p i = if i + p = k - 1 then 1 else 0 := by
  have hlt : (knot n k (k - 1) : K) < knot n k (k - 1 + 1) := knot_lt hk hkn le_rfl (by omega)
  have hz : (knot n k (k - 1) : K) = 0 := knot_zero (by omega)
  have hh : Holds n (knot n k) (0 : K) (k - 1) := Or.inl ⟨hz.le, by rw [← hz]; exact hlt⟩
  induction p generalizing i with
  | zero => rw [base_eq hk hkn hh]; rfl
  | succ p ih =>
    rw [coxDeBoor, ih i (by omega), ih (i + 1) (by omega)]
    have a : (0 - knot n k i : K) / (knot n k (i + p + 1) - knot n k i) * (if i + p = k - 1 then 1 else 0) = 0 := by
      by_cases h : i + p = k - 1
      · rw [knot_zero (i := i) (by omega)]; simp
      · rw [if_neg h, mul_zero]
    rw [a, zero_add]
    by_cases h : i + (p + 1) = k - 1
    · rw [if_pos h, if_pos (by omega), knot_zero (i := i + 1) (by omega), sub_zero, mul_one]
      apply div_self
      rw [show i + p + 2 = k - 1 + 1 by omega]
      rw [hz] at hlt
      exact hlt.ne'
    · rw [if_neg h, if_neg (by omega), mul_zero]

theorem end_basis {n k : Nat} (hk : 1 ≤ k) (hkn : k ≤ n) (p i : Nat) : coxDeBoor (knot n k) (1 : K) p i = if i + 1 = n then 1 else 0 := by
  have hh : Holds n (knot n k) (1 : K) (n - 1) := Or.inr ⟨rfl, by omega⟩
  induction p generalizing i with
  | zero =>
    rw [base_eq hk hkn hh]
    by_cases h : i + 1 = n
    · rw [if_pos h, if_pos (by omega)]
    · rw [if_neg h, if_neg (by omega)]
  | succ p ih =>
    rw [coxDeBoor, ih i, ih (i + 1)]
    have b : (knot n k (i + p + 2) - 1 : K) / (knot n k (i + p + 2) - knot n k (i + 1)) * (if i + 1 + 1 = n then 1 else 0) = 0 := by
      by_cases h : i + 1 + 1 = n
      · rw [knot_one hkn (i := i + p + 2) (by omega)]; simp
      · rw [if_neg h, mul_zero]
    rw [b, add_zero]
    by_cases h : i + 1 = n
    · have hlt : (knot n k i : K) < knot n k (i + 1) := knot_lt hk hkn (by omega) (by omega)
      rw [knot_one hkn (i := i + 1) (by omega)] at hlt
      rw [if_pos h, mul_one, knot_one hkn (i := i + p + 1) (by omega)]
      exact div_self (sub_ne_zero.mpr hlt.ne')
    · rw [if_neg h, mul_zero]

/-- **C62**: with two or more points, the curve begins at the first control point and ends at the last. -/
theorem C62_interpolates_ends (num_cp num_pt order : Nat) (hn : 1 ≤ num_cp) (ho : 1 ≤ order) (hp : 2 ≤ num_pt) (es : List (K × Nat × Int))
    (he : getBsplineMtx num_cp num_pt order = some es) (c : Nat) :
    dense es 0 c = (if c = 0 then 1 else 0) ∧ dense es (num_pt - 1) c = (if c + 1 = num_cp then 1 else 0) := by
  obtain ⟨es', he', _, hd⟩ := C62_bspline_matrix (K := K) num_cp num_pt order hn ho
  rw [he] at he'
  cases he'
  rw [hd 0 (by omega), hd (num_pt - 1) (by omega)]
  have e0 : (point num_pt 0 : K) = 0 := by simp [point]
  have e1 : (point num_pt (num_pt - 1) : K) = 1 := div_self (Nat.cast_ne_zero.mpr (by omega))
  rw [e0, e1, end_basis (by omega) (by omega), start_basis (by omega) (by omega) _ _ (by omega)]
  refine ⟨?_, rfl⟩
  by_cases h : c = 0
  · rw [if_pos h, if_pos (by omega)]
  · rw [if_neg h, if_neg (by omega)]

end Matrix

/-- five control points, order 3, four points: the second row of the matrix -/
example : ((getBsplineMtx 5 4 3 : Option (List (ℚ × Nat × Int))).map fun es => (List.range 5).map (dense es 1)) = some [0, 1 / 2, 1 / 2, 0, 0] := by decide +kernel

/-- the spline matrix of order 1: every point is one of the control points -/
example : ((getBsplineMtx 2 3 1 : Option (List (ℚ × Nat × Int))).map fun es => (List.range 3).map fun r => (List.range 2).map (dense es r)) =
    some [[1, 0], [0, 1], [0, 1]] := by decide +kernel

end Csdl.BSpline
