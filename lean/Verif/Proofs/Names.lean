import Verif.Model.Names
import Mathlib.Data.List.Basic
import Mathlib.Tactic.Ring
import Mathlib.Tactic.Linarith
import Mathlib.Tactic.IntervalCases
import Mathlib.Tactic.NormNum

namespace Csdl

/-- Reading a name as a base-63 number. -/
def decode (l : Name) : Nat := l.foldl (fun a c => 63 * a + charSet.idxOf c) 0

theorem foldl_decode (l : Name) (a : Nat) :
    l.foldl (fun a c => 63 * a + charSet.idxOf c) a = a * 63 ^ l.length + decode l := by
  induction l generalizing a with
  | nil => simp [decode]
  | cons c l ih =>
    have e : decode (c :: l) = (63 * 0 + charSet.idxOf c) * 63 ^ l.length + decode l := by
      rw [← ih]; rfl
    rw [List.foldl_cons, ih, e]
    simp only [List.length_cons]
    ring

theorem decode_append (l₁ l₂ : Name) : decode (l₁ ++ l₂) = decode l₁ * 63 ^ l₂.length + decode l₂ := by
  rw [decode, List.foldl_append, ← decode, foldl_decode]

theorem decode_cons (c : Char) (l : Name) :
    decode (c :: l) = charSet.idxOf c * 63 ^ l.length + decode l := by
  rw [decode, List.foldl_cons, foldl_decode]; simp

theorem charSet_idx : ∀ r, r < 63 → charSet.idxOf (charSet.getD r '0') = r := by decide

set_option maxRecDepth 4000 in
theorem charSet_ok : ∀ r, r < 63 →
    ((charSet.getD r '0').isAlphanum || (charSet.getD r '0') == '_') = true := by decide

theorem genHexLoop_last (r : Nat) (hr : r < 63) (s p : Name) :
    genHexLoop r s p = p.dropLast ++ charSet.getD r '0' :: s := by
  rw [genHexLoop]
  have h1 : r % hexBase = r := by simp only [hexBase]; omega
  simp only [h1, Nat.sub_self]; simp

theorem genHexLoop_more (q r : Nat) (hr : r < 63) (hq : q ≠ 0) (s p : Name) :
    genHexLoop (63 * q + r) s p = genHexLoop q (charSet.getD r '0' :: s) p.dropLast := by
  rw [genHexLoop]
  have h1 : (63 * q + r) % hexBase = r := by simp only [hexBase]; omega
  have h2 : (63 * q + r - r) / hexBase = q := by simp only [hexBase]; omega
  simp only [h1, h2, if_neg hq]

/-- The digits produced for `num`. -/
theorem genHexLoop_spec (num : Nat) : ∀ (s p : Name), ∃ d : Name,
    genHexLoop num s p = p.take (p.length - d.length) ++ d ++ s ∧ 1 ≤ d.length ∧
    decode d = num ∧ num < 63 ^ d.length ∧ (2 ≤ d.length → 63 ^ (d.length - 1) ≤ num) ∧
    checkBannedChars d = true := by
  induction num using Nat.strong_induction_on with
  | _ num ih =>
    intro s p
    have hb : hexBase = 63 := rfl
    have hr : num % 63 < 63 := Nat.mod_lt _ (by norm_num)
    have hdiv : (num - num % 63) / 63 = num / 63 := by omega
    rw [genHexLoop]
    simp only [hb, hdiv]
    split
    · rename_i h0
      refine ⟨[charSet.getD (num % 63) '0'], ?_, by simp, ?_, ?_, by simp, ?_⟩
      · simp [List.dropLast_eq_take]
      · simp only [decode, List.foldl_cons, List.foldl_nil, charSet_idx _ hr]; omega
      · simp; omega
      · simp only [checkBannedChars, List.all_cons, List.all_nil, charSet_ok _ hr]; rfl
    · rename_i h0
      have hlt : num / 63 < num := by omega
      obtain ⟨d, h1, h2, h3, h4, h5, h6⟩ := ih (num / 63) hlt (charSet.getD (num % 63) '0' :: s) p.dropLast
      refine ⟨d ++ [charSet.getD (num % 63) '0'], ?_, by simp, ?_, ?_, ?_, ?_⟩
      · rw [h1]
        simp only [List.length_append, List.length_take, List.length_cons, List.length_nil,
          List.dropLast_eq_take, List.take_take, List.append_assoc, List.cons_append, List.nil_append]
        congr 2
        omega
      · rw [decode_append, h3]
        simp only [decode, List.foldl_cons, List.foldl_nil, charSet_idx _ hr, List.length_cons, List.length_nil]; omega
      · simp only [List.length_append, List.length_cons, List.length_nil, pow_succ]
        omega
      · intro _
        simp only [List.length_append, List.length_cons, List.length_nil, Nat.add_sub_cancel]
        by_cases hd : 2 ≤ d.length
        · have := h5 hd
          have e : d.length = (d.length - 1) + 1 := by omega
          rw [e, pow_succ]; omega
        · have e : d.length = 1 := by omega
          rw [e]; omega
      · simp only [checkBannedChars, List.all_append, List.all_cons, List.all_nil, charSet_ok _ hr] at h6 ⊢
        simp [h6]

theorem genHexName_decode (n : Nat) :
    decode (genHexName n) = if n < 63 ^ 4 then n + 62 * 63 ^ 4 else n := by
  obtain ⟨d, h1, h2, h3, h4, h5, _⟩ := genHexLoop_spec n [] "_0000".toList
  rw [genHexName, h1, List.append_nil, decode_append, h3]
  have hp : "_0000".toList = ['_', '0', '0', '0', '0'] := by decide
  rw [hp]
  by_cases hd : 5 ≤ d.length
  · have hge : 63 ^ 4 ≤ n := le_trans (Nat.pow_le_pow_right (by norm_num) (by omega)) (h5 (by omega))
    have : List.length ['_', '0', '0', '0', '0'] - d.length = 0 := by simp; omega
    rw [this, if_neg (by omega)]
    simp [decode]
  · have hlt : n < 63 ^ 4 := lt_of_lt_of_le h4 (Nat.pow_le_pow_right (by norm_num) (by omega))
    rw [if_pos hlt]
    have hl : d.length < 5 := by omega
    have hi0 : charSet.idxOf '0' = 0 := by decide
    have hi1 : charSet.idxOf '_' = 62 := by decide
    generalize d.length = m at *
    interval_cases m <;> simp [decode, hi0, hi1] <;> omega

theorem genHexName_banned (n : Nat) : checkBannedChars (genHexName n) = true := by
  obtain ⟨d, h1, _, _, _, _, h6⟩ := genHexLoop_spec n [] "_0000".toList
  have hp : "_0000".toList = ['_', '0', '0', '0', '0'] := by decide
  rw [genHexName, h1, List.append_nil]
  simp only [checkBannedChars, List.all_append, Bool.and_eq_true] at h6 ⊢
  refine ⟨?_, h6⟩
  rw [List.all_eq_true]
  intro c hc
  have := List.mem_of_mem_take hc
  rw [hp] at this
  simp at this
  rcases this with rfl | rfl <;> decide

theorem genHexName_length (n : Nat) : 5 ≤ (genHexName n).length := by
  obtain ⟨d, h1, _, _, _, _, h6⟩ := genHexLoop_spec n [] "_0000".toList
  have hp : "_0000".toList = ['_', '0', '0', '0', '0'] := by decide
  rw [genHexName, h1, hp]
  simp
  omega

/-! ### namespaces -/

theorem prepend_ne_nil {ns x : Name} (h : ns ≠ [] ) : prependNamespace ns x ≠ [] := by
  simp [prependNamespace, h]

theorem prepend_assoc {a b x : Name} (hb : b ≠ []) :
    prependNamespace (prependNamespace a b) x = prependNamespace a (prependNamespace b x) := by
  unfold prependNamespace
  by_cases ha : a = []
  · simp [ha]
  · simp [ha, hb]

/-- A submodel name that can be split off unambiguously. -/
def GoodName (s : Name) : Prop := s ≠ [] ∧ '.' ∉ s

theorem dot_split {s t x y : Name} (hs : '.' ∉ s) (ht : '.' ∉ t) (h : s ++ '.' :: x = t ++ '.' :: y) :
    s = t ∧ x = y := by
  induction s generalizing t with
  | nil =>
    cases t with
    | nil => simpa using h
    | cons c t => simp at h ht; exact absurd h.1 ht.1
  | cons c s ih =>
    cases t with
    | nil => simp at h hs; exact absurd h.1.symm hs.1
    | cons c' t =>
      simp at h hs ht
      obtain ⟨rfl, h⟩ := h
      obtain ⟨rfl, rfl⟩ := ih hs.2 ht.2 h
      exact ⟨rfl, rfl⟩

theorem prepend_inj {s t x y : Name} (hs : GoodName s) (ht : GoodName t)
    (h : prependNamespace s x = prependNamespace t y) : s = t ∧ x = y := by
  unfold prependNamespace at h
  rw [if_neg hs.1, if_neg ht.1] at h
  exact dot_split hs.2 ht.2 h

theorem prepend_inj_right {s x y : Name} (h : prependNamespace s x = prependNamespace s y) : x = y := by
  unfold prependNamespace at h
  split at h
  · exact h
  · simpa using h

theorem dot_mem_prepend {s x : Name} (hs : s ≠ []) : '.' ∈ prependNamespace s x := by
  simp [prependNamespace, hs]

theorem descend_prepend (path : List Name) (h : ∀ s ∈ path, s ≠ []) (ns x : Name) :
    prependNamespace (descend ns path) x = prependNamespace ns (path.foldr prependNamespace x) := by
  induction path generalizing ns with
  | nil => rfl
  | cons s path ih =>
    simp only [descend, List.foldr_cons]
    rw [ih (fun t ht => h t (by simp [ht])), prepend_assoc (h s (by simp))]

theorem unprom_foldr (path : List Name) (h : ∀ s ∈ path, s ≠ []) (x : Name) :
    unpromotedName path x = path.foldr prependNamespace x := by
  rw [unpromotedName, descend_prepend path h]; simp [prependNamespace]

theorem banned_no_dot {s : Name} (h : checkBannedChars s = true) : '.' ∉ s := by
  intro hd
  unfold checkBannedChars at h
  rw [List.all_eq_true] at h
  exact absurd (h '.' hd) (by decide)

theorem foldr_inj (p q : List Name) (hp : ∀ s ∈ p, GoodName s) (hq : ∀ s ∈ q, GoodName s)
    {x y : Name} (hx : '.' ∉ x) (hy : '.' ∉ y)
    (h : p.foldr prependNamespace x = q.foldr prependNamespace y) : p = q ∧ x = y := by
  induction p generalizing q with
  | nil =>
    cases q with
    | nil => exact ⟨rfl, h⟩
    | cons t q =>
      exfalso
      have := dot_mem_prepend (x := q.foldr prependNamespace y) (hq t (by simp)).1
      simp only [List.foldr_nil, List.foldr_cons] at h
      rw [← h] at this; exact hx this
  | cons s p ih =>
    cases q with
    | nil =>
      exfalso
      have := dot_mem_prepend (x := p.foldr prependNamespace x) (hp s (by simp)).1
      simp only [List.foldr_nil, List.foldr_cons] at h
      rw [h] at this; exact hy this
    | cons t q =>
      simp only [List.foldr_cons] at h
      obtain ⟨rfl, h'⟩ := prepend_inj (hp s (by simp)) (hq t (by simp)) h
      obtain ⟨rfl, rfl⟩ := ih q (fun a ha => hp a (by simp [ha])) (fun a ha => hq a (by simp [ha])) h'
      exact ⟨rfl, rfl⟩

end Csdl
