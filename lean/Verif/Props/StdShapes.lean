import Verif.Spec.StdShapes
import Verif.Props.Axes
import Verif.Props.Indexing
import Mathlib.Data.List.Perm.Subperm
/-
C46 (products), C47 (reductions), C52 (diff), C59 (linear algebra functions).
-/
namespace Csdl.StdShapes
open Csdl Csdl.Axes

theorem pyPos_axis {n : Nat} {i : Int} {k : Nat} (h : AxisIs n i k) : pyPos n i = some k := by
  obtain ⟨hk, rfl | rfl⟩ := h
  · rw [pyPos, if_pos (by omega), if_pos (by omega)]; simp
  · rw [pyPos, if_neg (by omega), if_pos (by omega)]; simp

theorem axis_of_pyPos {n : Nat} {i : Int} {k : Nat} (h : pyPos n i = some k) : AxisIs n i k := by
  unfold pyPos at h
  split at h
  · split at h
    · cases h; exact ⟨by omega, Or.inl (by omega)⟩
    · cases h
  · split at h
    · cases h; exact ⟨by omega, Or.inr (by omega)⟩
    · cases h

theorem pyPos_none {n : Nat} {i : Int} : pyPos n i = none ↔ NoAxis n i := by
  unfold pyPos NoAxis
  split
  · split
    · constructor
      · intro h; cases h
      · intro h; omega
    · constructor
      · intro _; omega
      · intro _; rfl
  · split
    · constructor
      · intro h; cases h
      · intro h; omega
    · constructor
      · intro _; omega
      · intro _; rfl

theorem npDelete_ok {s : Shape} {l : List Int} {ks : List Nat} (h : AxesAre s.length l ks) : npDelete s l = .ok (reduced s ks) := by
  have hm : (l.mapM (axisPos s.length)) = .ok ks := by
    have : ∀ (l : List Int) (ks : List Nat), List.Forall₂ (AxisIs s.length) l ks →
        (l.mapM (axisPos s.length)) = .ok ks := by
      intro l ks h
      induction h with
      | nil => rfl
      | cons h _ ih => rw [List.mapM_cons, axisPos, pyPos_axis h, ih]; rfl
    exact this l ks h
  unfold npDelete
  rw [hm]
  change Except.ok _ = _
  congr 1
  have h1 : s.zipIdx = (List.range s.length).map fun i => (s.getD i 0, i) := by
    apply List.ext_getElem
    · simp
    · intro i h1 h2
      have : i < s.length := by simpa using h1
      simp [List.getD_eq_getElem?_getD, this]
  rw [h1, List.filter_map, List.map_map]
  rfl

theorem npDelete_err {s : Shape} {l : List Int} (h : ∃ i ∈ l, NoAxis s.length i) : npDelete s l = .error .index := by
  have : (l.mapM (axisPos s.length)) = .error .index := by
    induction l with
    | nil => obtain ⟨i, hi, _⟩ := h; cases hi
    | cons j l ih =>
      rw [List.mapM_cons]
      cases hp : pyPos s.length j with
      | none => rw [axisPos, hp]; rfl
      | some k =>
        rw [axisPos, hp]
        have h' : ∃ i ∈ l, NoAxis s.length i := by
          obtain ⟨i, hi, hn⟩ := h
          rcases List.mem_cons.1 hi with rfl | hi
          · rw [pyPos_none.2 hn] at hp; cases hp
          · exact ⟨i, hi, hn⟩
        rw [ih h']; rfl
  unfold npDelete
  rw [this]
  rfl

theorem axes_or (n : Nat) (l : List Int) : (∃ ks, AxesAre n l ks) ∨ ∃ i ∈ l, NoAxis n i := by
  induction l with
  | nil => left; exact ⟨[], .nil⟩
  | cons i l ih =>
    cases hp : pyPos n i with
    | none => right; exact ⟨i, by simp, pyPos_none.1 hp⟩
    | some k =>
      rcases ih with ⟨ks, h⟩ | ⟨j, hj, h⟩
      · left; exact ⟨k :: ks, .cons (axis_of_pyPos hp) h⟩
      · right; exact ⟨j, by simp [hj], h⟩

theorem pyGet_ok {s : Shape} {i : Int} {k : Nat} (h : AxisIs s.length i k) : pyGet s i = .ok (s.getD k 0) := by
  rw [pyGet, pyPos_axis h]
  exact tupleGet_ok (by simp [List.getD_eq_getElem?_getD, h.1])

/-! ### C46 -/

/-- **C46 (as far as it holds).** `matmat` of conformable matrices gives the shape of the product; arguments with a number of axes other than two are refused. -/
theorem C46_matmat_partial (a b : Shape) :
    (∀ s, npMatmul a b = some s → matmat a b = .ok s) ∧ (a.length ≠ 2 ∨ b.length ≠ 2 → matmat a b = .error .value) := by
  constructor
  · intro s h
    unfold npMatmul at h
    split at h
    · split at h
      · cases h; rfl
      · cases h
    · cases h
  · intro h
    unfold matmat
    split
    · simp at h
    · rfl

/-- **C46 is false as stated**: `(2, 3)` times `(4, 5)` is accepted by `matmat`; a tensor `(2, 3, 4)` times a vector `(3,)` by `matvec`; vectors of lengths 2 and 3, and axes of sizes 3 and 4, by `inner`; and vectors of length 2 with
any axis by `dot`, while matrices of shape `(2, 2)` are refused by it. -/
theorem C46_refuted :
    (npMatmul [2, 3] [4, 5] = none ∧ matmat [2, 3] [4, 5] = .ok [2, 5]) ∧ (npMatvec [2, 3, 4] [3] = none ∧ matvec [2, 3, 4] [3] = .ok [2]) ∧
    inner [2] [3] none = .ok [1] ∧ (inner [2, 3] [4, 5] (some [[1], [0]]) = .ok [2, 5] ∧ ¬Contractible [2, 3] [4, 5] [1] [0]) ∧
    (dot [2] [2] (some 7) = .ok [1] ∧ dot [2, 2] [2, 2] (some 0) = .error .value) := by
  refine ⟨⟨by decide, by decide⟩, ⟨by decide, by decide⟩, by decide, ⟨by decide, ?_⟩, by decide, by decide⟩
  intro h
  cases h with
  | cons h _ => exact absurd h.1 (by decide)

/-- **C46 (as far as it holds).** `matvec` with a matrix that has two axes is accepted exactly when matrix and vector are conformable, with the shape of the product. -/
theorem C46_matvec_partial (n m : Nat) (v : Shape) (s : Shape) : matvec [n, m] v = .ok s ↔ npMatvec [n, m] v = some s := by
  unfold matvec
  change (do let v' ← tupleGet v 0; if m = v' ∧ v.length = 1 then (do let n ← tupleGet [n, m] 0; pure [n]) else Except.error XErr.value) = _ ↔ _
  cases v with
  | nil =>
    constructor
    · intro h; cases h
    · intro h; cases h
  | cons x r =>
    change (if m = x ∧ (x :: r).length = 1 then Except.ok [n] else Except.error XErr.value) = _ ↔ _
    cases r with
    | nil =>
      simp only [npMatvec, List.length_singleton, and_true]
      split
      · simp
      · simp
    | cons y r => simp [npMatvec]

/-- **C46.** `dot`: different shapes are refused; vectors give `(1,)`; otherwise it is accepted exactly with an axis of the array that has size 3, and that axis is removed. -/
theorem C46_dot (a b : Shape) (axis : Option Int) (s : Shape) :
    dot a b axis = .ok s ↔ a = b ∧ ((a.length = 1 ∧ s = [1]) ∨ (a.length ≠ 1 ∧ ∃ i k, axis = some i ∧ AxisIs a.length i k ∧ a[k]? = some 3 ∧ s = reduced a [k])) := by
  unfold dot
  by_cases hab : a = b
  · subst hab
    simp only [ne_eq, not_true_eq_false, if_false, true_and]
    by_cases h1 : a.length = 1
    · simp only [h1, if_true, Except.ok.injEq, true_and, not_true_eq_false, false_and, or_false]
      exact eq_comm
    · simp only [h1, if_false, false_and, not_false_eq_true, true_and, false_or]
      cases axis with
      | none => constructor
                · intro h; cases h
                · rintro ⟨i, k, h, _⟩; cases h
      | some i =>
        simp only
        cases hp : pyPos a.length i with
        | none =>
          have : pyGet a i = .error .index := by rw [pyGet, hp]
          rw [this]
          constructor
          · intro h; cases h
          · rintro ⟨i', k, h, hk, _⟩
            cases h
            rw [pyPos_axis hk] at hp; cases hp
        | some k =>
          have hk := axis_of_pyPos hp
          rw [pyGet_ok hk]
          change (if ¬a.getD k 0 = 3 then Except.error XErr.value else npDelete a [i]) = _ ↔ _
          have hget : a[k]? = some (a.getD k 0) := by simp [List.getD_eq_getElem?_getD, hk.1]
          rw [npDelete_ok (ks := [k]) (.cons hk .nil)]
          by_cases h3 : a.getD k 0 = 3
          · rw [if_neg (by simpa using h3)]
            constructor
            · intro h; cases h; exact ⟨i, k, rfl, hk, by rw [hget, h3], rfl⟩
            · rintro ⟨i', k', h, hk', _, rfl⟩
              cases h
              have : k' = k := by rw [pyPos_axis hk'] at hp; cases hp; rfl
              rw [this]
          · rw [if_pos h3]
            constructor
            · intro h; cases h
            · rintro ⟨i', k', h, hk', hh, _⟩
              cases h
              have : k' = k := by rw [pyPos_axis hk'] at hp; cases hp; rfl
              subst this
              rw [hget] at hh
              exact absurd (Option.some.inj hh) h3
  · simp [hab]

/-- **C46.** `cross` is accepted exactly for equal shapes and an axis of size 3, and keeps the shape. -/
theorem C46_cross (a b : Shape) (i : Int) (s : Shape) : cross a b i = .ok s ↔ a = b ∧ s = a ∧ ∃ k, AxisIs a.length i k ∧ a[k]? = some 3 := by
  unfold cross
  by_cases hab : a = b
  · subst hab
    simp only [ne_eq, not_true_eq_false, if_false, true_and]
    cases hp : pyPos a.length i with
    | none =>
      have : pyGet a i = .error .index := by rw [pyGet, hp]
      rw [this]
      constructor
      · intro h; cases h
      · rintro ⟨_, k, hk, _⟩
        rw [pyPos_axis hk] at hp; cases hp
    | some k =>
      have hk := axis_of_pyPos hp
      rw [pyGet_ok hk]
      change (if ¬a.getD k 0 = 3 then Except.error XErr.value else Except.ok a) = _ ↔ _
      have hget : a[k]? = some (a.getD k 0) := by simp [List.getD_eq_getElem?_getD, hk.1]
      by_cases h3 : a.getD k 0 = 3
      · rw [if_neg (by simpa using h3)]
        constructor
        · intro h; cases h; exact ⟨rfl, k, hk, by rw [hget, h3]⟩
        · rintro ⟨rfl, _⟩; rfl
      · rw [if_pos h3]
        constructor
        · intro h; cases h
        · rintro ⟨_, k', hk', hh⟩
          have : k' = k := by rw [pyPos_axis hk'] at hp; cases hp; rfl
          subst this
          rw [hget] at hh
          exact absurd (Option.some.inj hh) h3
  · simp [hab]

/-- **C46 (as far as it holds).** `inner` of equally long vectors gives `(1,)`; with lists of axes of both arguments, the remaining axes of the first and then of the second (in particular when the
arguments can be contracted); an axis that does not exist is refused. -/
theorem C46_inner_partial (a b : Shape) (x y : List Int) (hab : ¬(a.length = 1 ∧ b.length = 1)) :
    (∀ n : Nat, inner [n] [n] none = .ok [1]) ∧
    (∀ ks ls, AxesAre a.length x ks → AxesAre b.length y ls → inner a b (some [x, y]) = .ok (reduced a ks ++ reduced b ls)) ∧
    ((∃ i ∈ x, NoAxis a.length i) ∨ (∃ i ∈ y, NoAxis b.length i) → inner a b (some [x, y]) = .error .index) ∧ inner a b none = .error .value := by
  refine ⟨fun n => rfl, ?_, ?_, ?_⟩
  · intro ks ls h1 h2
    rw [inner, if_neg hab]
    simp only [npDelete_ok h1, npDelete_ok h2]
    rfl
  · intro h
    rw [inner, if_neg hab]
    rcases axes_or a.length x with ⟨ks, hk⟩ | hx
    · have hy : ∃ i ∈ y, NoAxis b.length i := by
        rcases h with ⟨i, hi, hn⟩ | h
        · exfalso
          have : ∀ (x : List Int) (ks : List Nat), List.Forall₂ (AxisIs a.length) x ks → ∀ i ∈ x, ¬NoAxis a.length i := by
            intro x ks h
            induction h with
            | nil => intro i hi; cases hi
            | cons h _ ih =>
              intro i hi hn
              rcases List.mem_cons.1 hi with rfl | hi
              · have := pyPos_none.2 hn; rw [pyPos_axis h] at this; cases this
              · exact ih i hi hn
          exact this x ks hk i hi hn
        · exact h
      simp only [npDelete_ok hk, npDelete_err hy]
      rfl
    · simp only [npDelete_err hx]
      rfl
  · rw [inner, if_neg hab]

/-- **C46.** `outer` has the axes of both arguments and the product of their numbers of elements. -/
theorem C46_outer (a b : Shape) : outer a b = a ++ b ∧ (outer a b).prod = a.prod * b.prod := ⟨rfl, List.prod_append⟩

/-- non-vacuity of C46 -/
example : matmat [2, 3] [3, 5] = .ok [2, 5] ∧ dot [2, 3] [2, 3] (some (-1)) = .ok [2] ∧ cross [2, 3] [2, 3] 1 = .ok [2, 3] ∧ inner [2, 3] [3, 5] (some [[1], [0]]) = .ok [2, 5] := by decide

/-! ### C47 -/

theorem reduced_nil_axes (s : Shape) : reduced s [] = s := by
  unfold reduced
  simp only [List.not_mem_nil, not_false_eq_true, decide_true, List.filter_true]
  apply List.ext_getElem
  · simp
  · intro i h1 h2
    simp [List.getD_eq_getElem?_getD, h2]

theorem filter_lt (n : Nat) (ks : List Nat) (h : ks.length < n) : (List.range n).filter (· ∉ ks) ≠ [] := by
  intro he
  have hsub : List.range n ⊆ ks := by
    intro i hi
    by_contra hn
    have : i ∈ (List.range n).filter (· ∉ ks) := List.mem_filter.2 ⟨hi, by simpa using hn⟩
    rw [he] at this; cases this
  have := (List.nodup_range (n := n)).subperm hsub
  have := this.length_le
  simp at this
  omega

theorem reduced_ne_nil {s : Shape} {ks : List Nat} (h : ks.length < s.length) : reduced s ks ≠ [] := by
  unfold reduced
  simp only [ne_eq, List.map_eq_nil_iff]
  exact filter_lt _ _ h

theorem reduced_eq_nil {s : Shape} {ks : List Nat} (hn : ks.Nodup) (hk : ∀ k ∈ ks, k < s.length) (h : s.length ≤ ks.length) : reduced s ks = [] := by
  unfold reduced
  rw [List.map_eq_nil_iff, List.filter_eq_nil_iff]
  intro i hi
  have hsub : ks ⊆ List.range s.length := fun k hk' => List.mem_range.2 (hk k hk')
  have hsp := hn.subperm hsub
  have hperm : ks.Perm (List.range s.length) := hsp.perm_of_length_le (by simpa using h)
  simpa using hperm.mem_iff.2 hi

theorem axesAre_length {n : Nat} {l : List Int} {ks : List Nat} (h : AxesAre n l ks) : l.length = ks.length := List.Forall₂.length_eq h

theorem axesAre_lt {n : Nat} {l : List Int} {ks : List Nat} (h : AxesAre n l ks) : ∀ k ∈ ks, k < n := by
  unfold AxesAre at h
  induction h with
  | nil => intro k hk; cases hk
  | cons h _ ih =>
    intro k hk
    rcases List.mem_cons.1 hk with rfl | hk
    · exact h.1
    · exact ih k hk

theorem axesAre_le {n : Nat} {l : List Int} {ks : List Nat} (h : AxesAre n l ks) : ∀ i ∈ l, ¬i > (n : Int) := by
  unfold AxesAre at h
  induction h with
  | nil => intro k hk; cases hk
  | cons h _ ih =>
    intro k hk
    rcases List.mem_cons.1 hk with rfl | hk
    · obtain ⟨h1, h2⟩ := h; omega
    · exact ih k hk

theorem sumCheck_same {s : Shape} (hs : s ≠ []) (m : Nat) : sumCheck (List.replicate (m + 1) s) = .ok s := by
  rw [List.replicate_succ, sumCheck, if_neg (by simp [List.any_eq_true]), if_neg hs]

theorem maxCheck_same (s : Shape) (m : Nat) : maxCheck (List.replicate (m + 1) s) = .ok s := by
  rw [List.replicate_succ, maxCheck, if_neg (by simp [List.any_eq_true])]

theorem orOne_eq {s : Shape} (h : s ≠ []) : orOne s = s := by rw [orOne, if_neg h]

/-- **C47 (as far as it holds).** `sum` of one or more arrays of the same shape over a non-empty tuple of different axes of the array: the shape that is left, `(1,)` if none. -/
theorem C47_sum_partial (s : Shape) (m : Nat) (l : List Int) (ks : List Nat) (hl : l ≠ []) (hs : s ≠ []) (h : AxesAre s.length l ks) (hn : ks.Nodup) :
    sum (List.replicate (m + 1) s) (.tuple l) = .ok (orOne (reduced s ks)) := by
  unfold sum
  rw [sumCheck_same hs]
  have hlen := axesAre_length h
  have hlt := axesAre_lt h
  have hle : l.length ≤ s.length := by
    rw [hlen]
    have hsub : ks ⊆ List.range s.length := fun k hk' => List.mem_range.2 (hlt k hk')
    simpa using (hn.subperm hsub).length_le
  change (if l.length > s.length then Except.error XErr.value else if l.any (fun ax => decide (ax > (s.length : Int))) = true then Except.error XErr.value
    else if (List.replicate (m + 1) s).length = 1 ∧ s.length = 1 then Except.ok [1] else if s.length > l.length then npDelete s l else Except.ok [1]) = _
  rw [if_neg (by omega), if_neg]
  · by_cases hgt : s.length > l.length
    · have hne := reduced_ne_nil (s := s) (ks := ks) (by omega)
      have hl1 : 0 < l.length := List.length_pos_iff.2 hl
      rw [if_neg (by omega), if_pos hgt, npDelete_ok h, orOne_eq hne]
    · rw [if_neg hgt, reduced_eq_nil hn hlt (by omega)]
      split <;> rfl
  · rw [List.any_eq_true]
    rintro ⟨i, hi, hh⟩
    exact axesAre_le h i hi (by simpa using hh)

/-- **C47 (as far as it holds).** `max` and `min` of one or more arrays of the same shape along an axis of the array: the shape that is left, `(1,)` if none. -/
theorem C47_max_min_partial (s : Shape) (m : Nat) (i : Int) (k : Nat) (h : AxisIs s.length i k) : maxMin (List.replicate (m + 1) s) (some i) = .ok (orOne (reduced s [k])) := by
  unfold maxMin
  rw [maxCheck_same]
  change (if i > (s.length : Int) then Except.error XErr.value else if s.length > 1 then npDelete s [i] else Except.ok [1]) = _
  have hk := h.1
  rw [if_neg (by obtain ⟨_, h2⟩ := h; omega)]
  by_cases h1 : s.length > 1
  · rw [if_pos h1, npDelete_ok (ks := [k]) (.cons h .nil), orOne_eq (reduced_ne_nil (by simpa using h1))]
  · rw [if_neg h1, reduced_eq_nil (by simp) (by simpa using hk) (by simp; omega)]
    rfl

/-- **C47 (as far as it holds).** `average` and `pnorm` over axes of the array that do not include all of them: the shape that is left.  An axis that does not exist is refused. -/
theorem C47_average_pnorm_partial (s : Shape) (rest : List Shape) (p : Int) (hp : p % 2 = 0 ∧ 0 < p) (l : List Int) :
    (∀ ks, AxesAre s.length l ks → reduced s ks ≠ [] →
      average (s :: rest) (.tuple l) = .ok (orOne (reduced s ks)) ∧ pnorm s p (.tuple l) = .ok (orOne (reduced s ks))) ∧
    ((∃ i ∈ l, NoAxis s.length i) → average (s :: rest) (.tuple l) = .error .index ∧ pnorm s p (.tuple l) = .error .index) := by
  have hpn : ¬(p % 2 ≠ 0 ∨ p ≤ 0) := by omega
  constructor
  · intro ks h hne
    rw [orOne_eq hne]
    refine ⟨?_, ?_⟩
    · change npDelete s l = _; exact npDelete_ok h
    · rw [pnorm, if_neg hpn]; exact npDelete_ok h
  · intro h
    refine ⟨?_, ?_⟩
    · change npDelete s l = _; exact npDelete_err h
    · rw [pnorm, if_neg hpn]; exact npDelete_err h

/-- **C47.** Without axes: one array is reduced to `(1,)`, several arrays of the same shape are combined element by element; arrays of different shapes are refused by `sum`, `max` and `min`. -/
theorem C47_no_axes (s : Shape) (hs : s ≠ []) (m : Nat) (args : List Shape) :
    sum [s] .none = .ok [1] ∧ maxMin [s] none = .ok [1] ∧ average [s] .none = .ok [1] ∧
    sum (List.replicate (m + 2) s) .none = .ok s ∧ maxMin (List.replicate (m + 2) s) none = .ok s ∧ average (List.replicate (m + 2) s) .none = .ok s ∧
    ((∃ t ∈ args, t ≠ s) → ∀ ax i, sum (s :: args) ax = .error .value ∧ maxMin (s :: args) i = .error .value) := by
  have h1 := sumCheck_same hs 0
  have h2 := maxCheck_same s 0
  have h3 := sumCheck_same hs (m + 1)
  have h4 := maxCheck_same s (m + 1)
  refine ⟨?_, ?_, rfl, ?_, ?_, ?_, ?_⟩
  · unfold sum; rw [show [s] = List.replicate (0 + 1) s from rfl, h1]; rfl
  · unfold maxMin; rw [show [s] = List.replicate (0 + 1) s from rfl, h2]; rfl
  · unfold sum; rw [h3]; change (if (List.replicate (m + 2) s).length = 1 then Except.ok [1] else Except.ok s) = _
    rw [if_neg (by simp)]
  · unfold maxMin; rw [h4]; change (if (List.replicate (m + 2) s).length = 1 then Except.ok [1] else Except.ok s) = _
    rw [if_neg (by simp)]
  · unfold average
    rw [List.replicate_succ]
    change (if (s :: List.replicate (m + 1) s).length > 1 then Except.ok s else Except.ok [1]) = _
    rw [if_pos (by simp)]
  · rintro ⟨t, ht, hne⟩ ax i
    have hany : (s :: args).any (· ≠ s) = true := by
      rw [List.any_eq_true]; exact ⟨t, by simp [ht], by simpa using hne⟩
    constructor
    · have : sumCheck (s :: args) = .error .value := by rw [sumCheck, if_pos hany]
      unfold sum; rw [this]; rfl
    · have : maxCheck (s :: args) = .error .value := by rw [maxCheck, if_pos hany]
      unfold maxMin; rw [this]; rfl

/-- **C47 (as far as it holds).** For arrays with more axes than are given, an axis that does not exist is refused by `sum`, `max` and `min`. -/
theorem C47_out_of_range_partial (s : Shape) (m : Nat) (l : List Int) (i : Int) (hs : 2 ≤ s.length) (hl : l.length < s.length) :
    ((∃ i ∈ l, NoAxis s.length i) → ∃ e, sum (List.replicate (m + 1) s) (.tuple l) = .error e) ∧
    (NoAxis s.length i → ∃ e, maxMin (List.replicate (m + 1) s) (some i) = .error e) := by
  constructor
  · intro h
    unfold sum
    rw [sumCheck_same (by rintro rfl; simp at hs)]
    change ∃ e, (if l.length > s.length then Except.error XErr.value else if l.any (fun ax => decide (ax > (s.length : Int))) = true then Except.error XErr.value
      else if (List.replicate (m + 1) s).length = 1 ∧ s.length = 1 then Except.ok [1] else if s.length > l.length then npDelete s l else Except.ok [1]) = .error e
    rw [if_neg (by omega)]
    split
    · exact ⟨_, rfl⟩
    · rw [if_neg (by omega), npDelete_err h]; exact ⟨_, rfl⟩
  · intro h
    unfold maxMin
    rw [maxCheck_same]
    change ∃ e, (if i > (s.length : Int) then Except.error XErr.value else if s.length > 1 then npDelete s [i] else Except.ok [1]) = .error e
    split
    · exact ⟨_, rfl⟩
    · rw [if_pos (by omega), npDelete_err ⟨i, by simp, h⟩]; exact ⟨_, rfl⟩

/-- **C47 is false as stated**: `sum` and `max` of a vector accept axis 1 and axis -5; `sum` ignores an axis given as an int; over the empty tuple of axes `sum` of a vector gives `(1,)`; over an axis given twice it is accepted;
`average` and `pnorm` over all axes give the shape `()`; `average` accepts arrays of different shapes. -/
theorem C47_refuted :
    (sum [[4]] (.tuple [1]) = .ok [1] ∧ sum [[4]] (.tuple [-5]) = .ok [1] ∧ maxMin [[4]] (some 1) = .ok [1] ∧ maxMin [[4]] (some (-5)) = .ok [1]) ∧
    sum [[2, 3]] (.int 0) = .ok [1] ∧ sum [[4]] (.tuple []) = .ok [1] ∧ sum [[2, 3, 4]] (.tuple [0, 0]) = .ok [3, 4] ∧
    (average [[4]] (.int 0) = .ok [] ∧ pnorm [4] 2 (.int 0) = .ok [] ∧ average [[2, 3]] (.tuple [0, 1]) = .ok []) ∧ average [[2], [3]] .none = .ok [2] := by
  refine ⟨⟨by decide, by decide, by decide, by decide⟩, by decide, by decide, by decide, ⟨by decide, by decide, by decide⟩, by decide⟩

/-- non-vacuity of C47: axes 0 and -1 of an array of shape `(2, 3, 4)`. -/
example : AxesAre 3 [0, -1] [0, 2] ∧ reduced [2, 3, 4] [0, 2] = [3] ∧ sum [[2, 3, 4]] (.tuple [0, -1]) = .ok [3] := by
  refine ⟨.cons ⟨by omega, Or.inl rfl⟩ (.cons ⟨by omega, Or.inr (by norm_num)⟩ .nil), by decide, by decide⟩

/-! ### C59 -/

/-- **C59.** `eigenvalues` is accepted exactly for square matrices and gives two vectors of that length. -/
theorem C59_eigenvalues (s : Shape) (r : Shape × Shape) : eigenvalues s = .ok r ↔ ∃ n, s = [n, n] ∧ r = ([n], [n]) := by
  unfold eigenvalues
  split
  · rename_i n m
    by_cases h : n = m
    · subst h
      simp only [ne_eq, not_true_eq_false, if_false, Except.ok.injEq]
      constructor
      · rintro rfl; exact ⟨n, rfl, rfl⟩
      · rintro ⟨k, hk, rfl⟩; cases hk; rfl
    · simp only [ne_eq, h, not_false_eq_true, if_true]
      constructor
      · intro hh; cases hh
      · rintro ⟨k, hk, _⟩; cases hk; exact absurd rfl h
  · rename_i hne
    constructor
    · intro h; cases h
    · rintro ⟨n, rfl, _⟩; exact absurd rfl (hne n n)

/-- **C59.** `solve` is accepted exactly for a square matrix and a right-hand side that is a vector or a matrix with one column, with as many rows; the solution has the shape of the right-hand side. -/
theorem C59_solve (a b s : Shape) : solve a b = .ok s ↔ ∃ n, a = [n, n] ∧ (b = [n] ∨ b = [n, 1]) ∧ s = b := by
  constructor
  · intro h
    unfold solve at h
    split at h
    · rename_i n k
      split at h
      · cases h
      · rename_i hnk
        have hnk : n = k := by simpa using hnk
        subst hnk
        split at h
        · cases h
        · rename_i n' r
          split at h
          · cases h
          · rename_i hn
            have hn : n' = n := by simpa using hn
            subst hn
            split at h
            · cases h; exact ⟨_, rfl, Or.inl rfl, rfl⟩
            · split at h
              · cases h
              · rename_i hm
                have hm := not_not.1 hm
                subst hm
                cases h; exact ⟨_, rfl, Or.inr rfl, rfl⟩
            · cases h
    · cases h
  · rintro ⟨n, rfl, rfl | rfl, rfl⟩ <;> simp [solve]

/-- **C59 (as far as it holds).** `sparsematmat` of a matrix with two axes is accepted exactly when it conforms to the sparse matrix, and gives the shape of the product. -/
theorem C59_sparsematmat_partial (n m : Nat) (sp : Nat × Nat) (s : Shape) : sparsematmat [n, m] sp = .ok s ↔ npMatmul [sp.1, sp.2] [n, m] = some s := by
  unfold sparsematmat
  change (if n ≠ sp.2 then Except.error XErr.value else Except.ok [sp.1, m]) = _ ↔ _
  by_cases h : n = sp.2
  · simp [npMatmul, h]
  · have h' : ¬sp.2 = n := fun hh => h hh.symm
    simp [npMatmul, h, h']

/-- **C59 (as far as it holds).** `quatrotvec` with quaternions `(…, 4)` and vectors `(…, 3)` is accepted exactly when the leading axes are equal, and has the shape of the vectors. -/
theorem C59_quatrotvec_partial (q v : Shape) (s : Shape) : quatrotvec (q ++ [4]) (v ++ [3]) = .ok s ↔ q = v ∧ s = v ++ [3] := by
  unfold quatrotvec
  rw [List.dropLast_concat, List.dropLast_concat]
  by_cases h : q = v
  · simp [h, eq_comm]
  · simp [h]

/-- **C59 is false as stated**: `sparsematmat` accepts a tensor with three axes, and `quatrotvec` accepts last axes of any size. -/
theorem C59_refuted : sparsematmat [3, 4, 5] (2, 3) = .ok [2, 4] ∧ quatrotvec [2, 7] [2, 5] = .ok [2, 5] := by decide

/-- **C59.** `rotmat` gives one 3 by 3 matrix for each element. -/
theorem C59_rotmat (s : Shape) : (rotmat s).prod = s.prod * 9 ∧ (s ≠ [1] → rotmat s = s ++ [3, 3]) ∧ rotmat [1] = [3, 3] := by
  refine ⟨?_, fun h => by rw [rotmat, if_neg h], rfl⟩
  unfold rotmat
  split
  · rename_i h; subst h; rfl
  · rw [List.prod_append]; rfl

/-! ### C52 -/

theorem selects_length {n : Nat} {L : List Int} {st sp : Option Int} {c : Nat} (h : Selects n st sp 1 L)
    (hc : ∀ a b, SliceBounds n st sp 1 a b → a ≤ b ∧ b - a = (c : Int)) : L.length = c := by
  obtain ⟨a, b, hb, hL, hend⟩ := h
  obtain ⟨hab, hbc⟩ := hc a b hb
  simp only [Before, show (0 : Int) < 1 by omega, if_true] at hend hL
  by_cases h0 : L.length = 0
  · rw [h0] at hend ⊢; simp only [Nat.cast_zero, zero_mul, add_zero] at hend; omega
  · have hlt : L.length - 1 < L.length := by omega
    have := hL (L.length - 1) _ (List.getElem?_eq_getElem hlt)
    obtain ⟨h1, h2⟩ := this
    rw [h1] at h2
    push_cast [Nat.cast_sub (show 1 ≤ L.length by omega)] at h2
    omega

theorem tail_length {n : Nat} {L : List Int} (hn : 1 ≤ n) (h : Selects n (some 1) none 1 L) : L.length = n - 1 := by
  apply selects_length h
  rintro a b ⟨h1, h2⟩
  simp only [show (0 : Int) < 1 by omega, if_true, show ¬(1 : Int) < 0 by omega, if_false] at h1 h2
  subst h1 h2
  omega

theorem head_length {n : Nat} {L : List Int} (h : Selects n none (some (n : Int)) 1 L) : L.length = n := by
  apply selects_length h
  rintro a b ⟨h1, h2⟩
  simp only [show (0 : Int) < 1 by omega, if_true, show ¬(n : Int) < 0 by omega, if_false] at h1 h2
  subst h1 h2
  omega

theorem runGets_snoc (shape : Shape) (ops : List (Key × Nat)) (st : Decomp) (k : Key) (p : Part) (st' : Decomp) (h : getItem shape (runGets shape st ops) k = .ok (p, st')) :
    runGets shape st (ops ++ [(k, 0)]) = st' := by
  induction ops generalizing st with
  | nil =>
    have h' : getItem shape { st with next := st.next + 0 } k = .ok (p, st') := h
    change (match getItem shape { st with next := st.next + 0 } k with | .ok r => r.2 | .error _ => st) = _
    rw [h']
  | cons o ops ih =>
    obtain ⟨k', j⟩ := o
    rw [List.cons_append, runGets]
    rw [runGets] at h
    cases hg : getItem shape { st with next := st.next + j } k' with
    | ok r => rw [hg] at h; exact ih _ h
    | error e => rw [hg] at h; exact ih _ h

theorem axis_entry {shape : Shape} {k : Nat} (hk : k < shape.length) {e : KeyElem} {sel : List (List Int)}
    (h : KeySelects shape (.tuple (setAxis (List.replicate shape.length (KeyElem.slice none none none)) k e)) sel) :
    ∃ L, sel[k]? = some L ∧ ElemSelects (shape.getD k 0) e L := by
  obtain ⟨_, h⟩ := h
  have hlen := h.length_eq
  simp only [Key.elems, setAxis, List.length_zip, List.length_set, List.length_replicate, Nat.min_self] at hlen
  have hs : k < sel.length := by omega
  refine ⟨sel[k], List.getElem?_eq_getElem hs, ?_⟩
  have := h.get (i := k) (by simpa [Key.elems, setAxis] using hk) hs
  simpa [Key.elems, setAxis, hk, List.getD_eq_getElem?_getD] using this

theorem ints_and_slices (n k : Nat) (a b c : Option Int) : (Key.tuple (setAxis (List.replicate n (KeyElem.slice none none none)) k (.slice a b c))).IntsAndSlices := by
  intro e he
  rcases List.mem_or_eq_of_mem_set he with h | h
  · rw [List.eq_of_mem_replicate h]; intro h; cases h
  · rw [h]; intro h; cases h

/-- **C52 is false**: for every array whose axis is not empty, whatever has been done with the array before, the two slices that `diff` subtracts have `n - 1` and `n` entries along that axis, so that the subtraction never succeeds. -/
theorem C52_refuted (shape : Shape) (ops : List (Key × Nat)) (n0 : Nat) (i : Int) (k : Nat) (hk : AxisIs shape.length i k) (hpos : 1 ≤ shape.getD k 0) :
    ∃ e, diffRhs shape (runGets shape { next := n0 } ops) i = .error e := by
  unfold diffRhs
  rw [pyPos_axis hk]
  simp only
  cases h1 : getItem shape (runGets shape { next := n0 } ops) (.tuple (setAxis (List.replicate shape.length (KeyElem.slice none none none)) k (.slice (some 1) none none))) with
  | error e => exact ⟨e, rfl⟩
  | ok r =>
    obtain ⟨p, st'⟩ := r
    simp only
    cases h2 : getItem shape st' (.tuple (setAxis (List.replicate shape.length (KeyElem.slice none none none)) k (.slice none (some (shape.getD k 0 : Nat)) none))) with
    | error e => exact ⟨e, rfl⟩
    | ok r =>
      obtain ⟨q, st2⟩ := r
      simp only
      obtain ⟨sel, hs, hp, _⟩ := C19_getitem_source_indices_partial shape ops n0 st' _ p (ints_and_slices _ _ _ _ _) h1
      rw [← runGets_snoc shape ops _ _ p st' h1] at h2
      obtain ⟨sel2, hs2, hq, _⟩ := C19_getitem_source_indices_partial shape _ n0 st2 _ q (ints_and_slices _ _ _ _ _) h2
      obtain ⟨L, hL, he⟩ := axis_entry hk.1 hs
      obtain ⟨L2, hL2, he2⟩ := axis_entry hk.1 hs2
      have e1 := tail_length hpos he
      have e2 := head_length he2
      have hne : p.shape ≠ q.shape := by
        intro heq
        have : p.shape[k]? = q.shape[k]? := by rw [heq]
        rw [hp, hq, List.getElem?_map, List.getElem?_map, hL, hL2] at this
        simp only [Option.map_some, Option.some.injEq] at this
        omega
      rw [if_pos hne]
      exact ⟨_, rfl⟩

/-- **C52 (the part that holds).** An axis that the array does not have is refused. -/
theorem C52_missing_axis_partial (shape : Shape) (st : Decomp) (i : Int) (h : NoAxis shape.length i) : diffRhs shape st i = .error .index := by
  unfold diffRhs
  rw [pyPos_none.2 h]

/-- non-vacuity of C52: a vector with four entries; the subtraction raises ValueError. -/
example : diffRhs [4] (runGets [4] { next := 0 } []) 0 = .error .value ∧ AxisIs 1 0 0 ∧ 1 ≤ ([4] : List Nat).getD 0 0 := by
  refine ⟨by decide, ⟨by omega, Or.inl rfl⟩, by decide⟩

end Csdl.StdShapes
