import Verif.Spec.Indexing
import Verif.Proofs.Dict
import Verif.Proofs.Promotions
import Mathlib.Data.List.Forall2
import Mathlib.Tactic.Linarith
import Mathlib.Tactic.Ring
import Mathlib.Data.List.Nodup
namespace Csdl

/-! ### ranges -/

theorem pyRange_getElem? {a b s : Int} {i : Nat} {x : Int} (h : (pyRange a b s)[i]? = some x) :
    x = a + (i : Int) * s ∧ i < (pyRange a b s).length := by
  refine ⟨?_, ?_⟩
  · unfold pyRange at h
    split at h
    · simp only [List.getElem?_map, Option.map_eq_some_iff] at h
      obtain ⟨j, hj, rfl⟩ := h
      rw [List.getElem?_range] at hj
      · cases hj; rfl
      · by_contra hlt
        rw [List.getElem?_eq_none (by simpa using hlt)] at hj; cases hj
    · simp only [List.getElem?_map, Option.map_eq_some_iff] at h
      obtain ⟨j, hj, rfl⟩ := h
      rw [List.getElem?_range] at hj
      · cases hj; rfl
      · by_contra hlt
        rw [List.getElem?_eq_none (by simpa using hlt)] at hj; cases hj
  · rcases List.getElem?_eq_some_iff.1 h with ⟨h, _⟩; exact h

theorem pyRange_before {a b s : Int} (hs : s ≠ 0) (i : Nat) :
    Before s (a + (i : Int) * s) b ↔ i < (pyRange a b s).length := by
  unfold Before pyRange
  by_cases h : 0 < s
  · simp only [h, if_true, List.length_map, List.length_range]
    have key : (i : Int) < (b - a + s - 1) / s ↔ a + (i : Int) * s < b := by
      rw [Int.lt_iff_add_one_le, Int.le_ediv_iff_mul_le h]
      constructor
      · intro h'; nlinarith
      · intro h'; nlinarith
    rw [← key]
    constructor
    · intro h'; omega
    · intro h'; omega
  · have hn : 0 < -s := by omega
    simp only [h, if_false, List.length_map, List.length_range]
    have key : (i : Int) < (a - b - s - 1) / (-s) ↔ b < a + (i : Int) * s := by
      rw [Int.lt_iff_add_one_le, Int.le_ediv_iff_mul_le hn]
      constructor
      · intro h'; nlinarith
      · intro h'; nlinarith
    rw [← key]
    constructor
    · intro h'; omega
    · intro h'; omega

theorem pyRange_get {a b s : Int} {i : Nat} (h : i < (pyRange a b s).length) :
    (pyRange a b s)[i]? = some (a + (i : Int) * s) := by
  cases he : (pyRange a b s)[i]? with
  | none => rw [List.getElem?_eq_none_iff] at he; omega
  | some x => rw [(pyRange_getElem? he).1]

/-- The list selected by bounds `a`, `b` and step `s` is unique. -/
theorem range_unique {a b s : Int} (hs : s ≠ 0) {L : List Int}
    (h1 : ∀ (i : Nat) (x : Int), L[i]? = some x → x = a + (i : Int) * s ∧ Before s x b)
    (h2 : ¬ Before s (a + (L.length : Int) * s) b) : L = pyRange a b s := by
  have hle : (pyRange a b s).length ≤ L.length := by
    by_contra hlt
    exact h2 ((pyRange_before hs _).2 (by omega))
  have hge : L.length ≤ (pyRange a b s).length := by
    by_contra hlt
    have hlt' : (pyRange a b s).length < L.length := by omega
    have := h1 _ _ (List.getElem?_eq_getElem hlt')
    rw [this.1] at this
    have := (pyRange_before hs _).1 this.2
    omega
  apply List.ext_getElem?
  intro i
  by_cases hi : i < L.length
  · rw [pyRange_get (by omega), List.getElem?_eq_getElem hi, (h1 i _ (List.getElem?_eq_getElem hi)).1]
  · rw [List.getElem?_eq_none (by omega), List.getElem?_eq_none (by omega)]

theorem pyRange_selects {a b s : Int} (hs : s ≠ 0) :
    (∀ (i : Nat) (x : Int), (pyRange a b s)[i]? = some x → x = a + (i : Int) * s ∧ Before s x b) ∧
    ¬ Before s (a + ((pyRange a b s).length : Int) * s) b := by
  refine ⟨?_, ?_⟩
  · intro i x h
    obtain ⟨h1, h2⟩ := pyRange_getElem? h
    refine ⟨h1, ?_⟩
    rw [h1]; exact (pyRange_before hs i).2 h2
  · rw [pyRange_before hs]; omega

theorem sliceBounds_spec (n : Nat) (start stop : Option Int) (step a b : Int) :
    SliceBounds n start stop step a b ↔ (a, b) = sliceBounds n start stop step := by
  have : ∀ x : Int, max (x + n) 0 = max 0 (x + n) := fun x => max_comm _ _
  have h2 : ∀ x : Int, max (x + n) (-1) = max (-1) (x + n) := fun x => max_comm _ _
  constructor
  · rintro ⟨h1, h3⟩
    subst h1 h3
    unfold sliceBounds
    by_cases hs : 0 < step <;> cases start <;> cases stop <;> simp [hs, this, h2]
  · intro h
    unfold sliceBounds at h
    obtain ⟨h1, h3⟩ := Prod.mk.inj h
    refine ⟨?_, ?_⟩
    · rw [h1]; by_cases hs : 0 < step <;> cases start <;> simp [hs, this, h2]
    · rw [h3]; by_cases hs : 0 < step <;> cases stop <;> simp [hs, this, h2]

theorem selects_iff {n : Nat} {start stop : Option Int} {step : Int} (hs : step ≠ 0) (L : List Int) :
    Selects n start stop step L ↔ L = npSlice n start stop step := by
  constructor
  · rintro ⟨a, b, hb, h1, h2⟩
    have := (sliceBounds_spec n start stop step a b).1 hb
    unfold npSlice
    rw [← this]
    exact range_unique hs h1 h2
  · rintro rfl
    refine ⟨(sliceBounds n start stop step).1, (sliceBounds n start stop step).2, (sliceBounds_spec _ _ _ _ _ _).2 rfl, ?_⟩
    exact pyRange_selects hs

/-! ### sliceToList -/

/-- Effective end used by the code. -/
def effStop (stop : Option Int) (n : Nat) : Int :=
  match stop with
  | none => n
  | some t => if t < 0 then n + t else t

theorem rangeList_ok (a e s : Int) (L : List Int) :
    rangeList a e s = .ok L ↔ s ≠ 0 ∧ L = pyRange a e s ∧ L ≠ [] ∧ ∀ x ∈ L, 0 ≤ x := by
  unfold rangeList
  by_cases hs : s = 0
  · simp [hs]
  · rw [if_neg hs]
    by_cases h0 : pyRange a e s = []
    · rw [if_pos h0]
      constructor
      · intro h; cases h
      · rintro ⟨_, rfl, h, _⟩; exact absurd h0 h
    · rw [if_neg h0]
      by_cases h1 : (pyRange a e s).any (fun x => decide (x < 0)) = true
      · rw [if_pos h1]
        constructor
        · intro h; cases h
        · rintro ⟨_, rfl, _, h⟩
          rw [List.any_eq_true] at h1
          obtain ⟨x, hx, hx'⟩ := h1
          have := h x hx
          simp at hx'; omega
      · rw [if_neg h1]
        constructor
        · intro h
          cases h
          refine ⟨hs, rfl, h0, ?_⟩
          intro x hx
          by_contra hlt
          apply h1
          rw [List.any_eq_true]
          exact ⟨x, hx, by simpa using hlt⟩
        · rintro ⟨_, rfl, _, _⟩; rfl

theorem rangeList_error {a e s : Int} {r : IErr} (h : rangeList a e s = .error r) : r = .value := by
  unfold rangeList at h
  split at h
  · cases h; rfl
  · split at h
    · cases h; rfl
    · split at h
      · cases h; rfl
      · cases h

theorem sliceStop_ok (start stop : Option Int) (n : Nat) (e : Int) :
    sliceStop start stop n = .ok e ↔ (∀ t, stop = some t → 0 ≤ (n : Int) + t ∨ 0 ≤ t) ∧ e = effStop stop n := by
  cases stop with
  | none => cases start <;> simp [sliceStop, effStop, eq_comm]
  | some t =>
    have : sliceStop start (some t) n = if t < 0 then
      if (n : Int) + t < 0 then .error .value else .ok ((n : Int) + t) else .ok t := by cases start <;> rfl
    rw [this]
    by_cases ht : t < 0
    · by_cases hn : (n : Int) + t < 0
      · simp only [ht, hn, if_true]
        constructor
        · intro h; cases h
        · rintro ⟨h, _⟩; have := h t rfl; omega
      · simp only [ht, hn, if_true, if_false, effStop, Except.ok.injEq]
        constructor
        · rintro rfl; exact ⟨fun t' ht' => by cases ht'; omega, rfl⟩
        · rintro ⟨_, rfl⟩; rfl
    · simp only [ht, if_false, effStop, Except.ok.injEq]
      constructor
      · rintro rfl; exact ⟨fun t' ht' => by cases ht'; omega, rfl⟩
      · rintro ⟨_, rfl⟩; rfl

theorem sliceStop_error {start stop : Option Int} {n : Nat} {r : IErr} (h : sliceStop start stop n = .error r) : r = .value := by
  unfold sliceStop at h
  split at h
  · cases h
  · split at h
    · split at h
      · cases h; rfl
      · cases h
    · cases h
  · cases h

theorem sliceToList_eq (start stop step : Option Int) (n : Nat) (L : List Int) :
    sliceToList start stop step n = .ok L ↔
      (∀ t, stop = some t → 0 ≤ (n : Int) + t ∨ 0 ≤ t) ∧ step.getD 1 ≠ 0 ∧
      L = pyRange (start.getD 0) (effStop stop n) (step.getD 1) ∧ L ≠ [] ∧ ∀ x ∈ L, 0 ≤ x := by
  unfold sliceToList
  cases h : sliceStop start stop n with
  | error e =>
    constructor
    · intro h; cases h
    · rintro ⟨h1, _⟩
      rw [(sliceStop_ok start stop n _).2 ⟨h1, rfl⟩] at h; cases h
  | ok e =>
    obtain ⟨h1, rfl⟩ := (sliceStop_ok start stop n e).1 h
    refine (rangeList_ok _ _ _ _).trans ?_
    constructor
    · intro h; exact ⟨h1, h⟩
    · intro h; exact h.2

theorem sliceToList_error (start stop step : Option Int) (n : Nat) (e : IErr) (h : sliceToList start stop step n = .error e) :
    e = .value := by
  unfold sliceToList at h
  cases hs : sliceStop start stop n with
  | error e' => rw [hs] at h; cases h; exact sliceStop_error hs
  | ok t => rw [hs] at h; exact rangeList_error h

end Csdl
