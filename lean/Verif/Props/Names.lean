import Verif.Proofs.Names
import Mathlib.Data.List.Nodup

/-!
# C01, C02: automatic names and hierarchical names
-/
namespace Csdl

/-- C01 (well-formedness): every automatic name is accepted by the name checker,
contains no '.', and has at least five characters, for every counter value. -/
theorem C01_auto_name_wellformed (n : Nat) :
    checkBannedChars (genHexName n) = true ∧ '.' ∉ genHexName n ∧ 5 ≤ (genHexName n).length :=
  ⟨genHexName_banned n, banned_no_dot (genHexName_banned n), genHexName_length n⟩

/-- C01 as stated ("never collide") is false of the code: the padding character
`_` is also the digit 62, so the 976683583rd node gets the name of the first. -/
theorem C01_auto_names_collide : ∃ a b, a ≠ b ∧ genHexName a = genHexName b := by
  refine ⟨0, 62 * 63 ^ 4, by norm_num, ?_⟩
  have h0 : genHexName 0 = "_0000".toList := by
    rw [genHexName, genHexLoop_last _ (by norm_num)]; decide
  have h1 : genHexName (62 * 63 ^ 4) = "_0000".toList := by
    rw [genHexName, show 62 * 63 ^ 4 = 63 * (63 * (63 * (63 * 62 + 0) + 0) + 0) + 0 by norm_num,
      genHexLoop_more _ _ (by norm_num) (by norm_num), genHexLoop_more _ _ (by norm_num) (by norm_num),
      genHexLoop_more _ _ (by norm_num) (by norm_num), genHexLoop_more _ _ (by norm_num) (by norm_num),
      genHexLoop_last _ (by norm_num)]
    decide
  rw [h0, h1]

/-- C01, exact extent of the collisions: two counters share a name only if one is
below 63^4 and the other is exactly 62*63^4 larger. -/
theorem C01_auto_names_collisions_exact (a b : Nat) (hab : a < b) (h : genHexName a = genHexName b) :
    a < 63 ^ 4 ∧ b = a + 62 * 63 ^ 4 := by
  have e := congrArg decode h
  rw [genHexName_decode, genHexName_decode] at e
  split at e <;> split at e <;> omega

/-- C01, the part that holds: in a program that creates fewer than 62*63^4
(about 977 million) nodes, all automatic names are pairwise different.
Missing: programs with more nodes, where `C01_auto_names_collide` applies. -/
theorem C01_auto_names_distinct_partial (n : Nat) (hn : n ≤ 62 * 63 ^ 4) :
    ((List.range n).map genHexName).Nodup := by
  refine (List.nodup_map_iff_inj_on List.nodup_range).2 ?_
  intro a ha b hb h
  rw [List.mem_range] at ha hb
  rcases Nat.lt_trichotomy a b with hab | hab | hab
  · have := C01_auto_names_collisions_exact a b hab h; omega
  · exact hab
  · have := C01_auto_names_collisions_exact b a hab h.symm; omega

-- the hypotheses are met by ordinary programs
example : ((List.range 100000).map genHexName).Nodup := C01_auto_names_distinct_partial _ (by norm_num)
example : genHexName 64 = "_0011".toList := by
  rw [genHexName, show 64 = 63 * 1 + 1 by norm_num, genHexLoop_more _ _ (by norm_num) (by norm_num),
    genHexLoop_last _ (by norm_num)]
  decide

/-- C02 (checker): a name is accepted iff all its characters are alphanumeric or
an underscore; in particular accepted names contain no '.'. -/
theorem C02_checker (s : Name) :
    (checkBannedChars s = true ↔ ∀ c ∈ s, c.isAlphanum = true ∨ c = '_') ∧
    (checkBannedChars s = true → '.' ∉ s) := by
  refine ⟨?_, banned_no_dot⟩
  simp [checkBannedChars]

/-- C02: full names are unambiguous.  If model names are non-empty and dot-free,
the full name determines the path of models and the variable name. -/
theorem C02_full_names_injective (p q : List Name) (x y : Name)
    (hp : ∀ s ∈ p, s ≠ [] ∧ '.' ∉ s) (hq : ∀ s ∈ q, s ≠ [] ∧ '.' ∉ s)
    (hx : '.' ∉ x) (hy : '.' ∉ y) (h : unpromotedName p x = unpromotedName q y) : p = q ∧ x = y := by
  rw [unprom_foldr p (fun s hs => (hp s hs).1), unprom_foldr q (fun s hs => (hq s hs).1)] at h
  exact foldr_inj p q hp hq hx hy h

/-- C02: the full name is the dot-joined sequence of model names and the variable
name, as printed to the user. -/
theorem C02_full_name_is_join (p : List Name) (x : Name) (hp : ∀ s ∈ p, s ≠ []) :
    unpromotedName p x = List.intercalate ['.'] (p ++ [x]) := by
  rw [unprom_foldr p hp]
  induction p with
  | nil => simp [List.intercalate]
  | cons s p ih =>
    rw [List.foldr_cons, ih (fun t ht => hp t (by simp [ht]))]
    simp only [prependNamespace, hp s (by simp), if_false]
    cases p with
    | nil => simp [List.intercalate]
    | cons t p => simp [List.intercalate, List.intersperse]

example : unpromotedName ["A".toList, "B".toList] "x".toList = "A.B.x".toList := by decide
example : (∀ s ∈ ["A".toList, "B1".toList], s ≠ [] ∧ '.' ∉ s) ∧ '.' ∉ "x".toList := by decide

/-- C02, limits: a submodel named '' (accepted by the checker and by `Model.add`)
makes full names ambiguous. -/
theorem C02_empty_model_name_ambiguous :
    checkBannedChars [] = true ∧
    unpromotedName [[], "A".toList] "x".toList = unpromotedName ["A".toList] "x".toList := by decide

end Csdl
