import Verif.Proofs.Rename3
import Verif.Proofs.Flatten
/-
Renaming (C101): a one-to-one map of undotted names is a renaming.
-/
namespace Csdl.Prog
open Csdl

theorem splitDot_ne (n : Name) : splitDot n ≠ [] := by
  cases n with
  | nil => simp [splitDot]
  | cons c n => simp only [splitDot]; split; · simp
                · split <;> simp

theorem splitDot_undotted (n : Name) : ∀ a ∈ splitDot n, '.' ∉ a := by
  induction n with
  | nil => simp [splitDot]
  | cons c n ih =>
    simp only [splitDot]
    split
    · simpa using ih
    · rename_i hc
      split
      · simpa using fun h => hc h.symm
      · rename_i w ws e
        rw [e] at ih
        intro a ha
        rcases List.mem_cons.1 ha with rfl | ha
        · intro h
          rcases List.mem_cons.1 h with h | h
          · exact hc h.symm
          · exact ih w (by simp) h
        · exact ih a (by simp [ha])

theorem joinDot_cons {a : Name} {l : List Name} (h : l ≠ []) : joinDot (a :: l) = a ++ '.' :: joinDot l := by
  cases l with
  | nil => exact absurd rfl h
  | cons b l => rfl

theorem joinDot_split (n : Name) : joinDot (splitDot n) = n := by
  induction n with
  | nil => rfl
  | cons c n ih =>
    simp only [splitDot]
    split
    · rename_i hc
      rw [joinDot_cons (splitDot_ne n), ih, hc]; rfl
    · split
      · rename_i e; exact absurd e (splitDot_ne n)
      · rename_i w ws e
        rw [e] at ih
        rw [← ih]
        cases ws <;> simp [joinDot]

theorem splitDot_join {l : List Name} (h : l ≠ []) (hu : ∀ a ∈ l, '.' ∉ a) : splitDot (joinDot l) = l := by
  induction l with
  | nil => exact absurd rfl h
  | cons a l ih =>
    cases l with
    | nil => exact splitDot_dotfree (hu a (by simp))
    | cons b l =>
      rw [joinDot_cons (by simp), splitDot_append (hu a (by simp)), ih (by simp) fun x hx => hu x (by simp [hx])]

theorem splitDot_any (a b : Name) : splitDot (a ++ '.' :: b) = splitDot a ++ splitDot b := by
  induction a with
  | nil => simp [splitDot]
  | cons c a ih =>
    simp only [List.cons_append, splitDot]
    split
    · rw [ih]; rfl
    · rw [ih]
      rcases h : splitDot a with _ | ⟨w, ws⟩
      · exact absurd h (splitDot_ne a)
      · rfl

theorem joinDot_append {l l' : List Name} (h : l ≠ []) (h' : l' ≠ []) : joinDot (l ++ l') = joinDot l ++ '.' :: joinDot l' := by
  induction l with
  | nil => exact absurd rfl h
  | cons a l ih =>
    cases l with
    | nil => rw [List.singleton_append, joinDot_cons h']; rfl
    | cons b l => rw [List.cons_append, joinDot_cons (by simp), ih (by simp), joinDot_cons (a := a) (l := b :: l) (by simp)]; simp

/-- names are renamed part by part -/
def partsMap (e : Name → Name) (n : Name) : Name := joinDot ((splitDot n).map e)

theorem partsMap_partsMap {e e' : Name → Name} (hu : ∀ n, '.' ∉ n → '.' ∉ e n) (he : ∀ n, e' (e n) = n) (n : Name) : partsMap e' (partsMap e n) = n := by
  unfold partsMap
  rw [splitDot_join (by simpa using splitDot_ne n)]
  · rw [List.map_map, show e' ∘ e = id from funext he, List.map_id, joinDot_split]
  · intro a ha
    obtain ⟨a0, h0, rfl⟩ := List.mem_map.1 ha
    exact hu _ (splitDot_undotted n a0 h0)

theorem dotted_parts (e : Name → Name) (a b : Name) : partsMap e (a ++ '.' :: b) = partsMap e a ++ '.' :: partsMap e b := by
  unfold partsMap
  rw [splitDot_any, List.map_append, joinDot_append (by simpa using splitDot_ne a) (by simpa using splitDot_ne b)]

theorem partsMap_undotted (e : Name → Name) {n : Name} (h : '.' ∉ n) : partsMap e n = e n := by
  unfold partsMap
  rw [splitDot_dotfree h]; rfl

theorem exists_dot {n : Name} (h : '.' ∈ n) : ∃ a b, n = a ++ '.' :: b := by
  obtain ⟨a, b, e⟩ := List.append_of_mem h
  exact ⟨a, b, e⟩

/-- A one-to-one map of names that keeps undotted names undotted, the empty name, allowed names allowed, and names of the form of automatic names, renames dotted names part by part. -/
def partwise (e : Name ≃ Name) (hu : ∀ n, '.' ∉ n ↔ '.' ∉ e n) : Name ≃ Name where
  toFun := partsMap e
  invFun := partsMap e.symm
  left_inv := partsMap_partsMap (fun n h => (hu n).1 h) e.symm_apply_apply
  right_inv := partsMap_partsMap (fun n h => (hu _).2 (by simpa using h)) e.apply_symm_apply

theorem renaming_partwise (e : Name ≃ Name) (hu : ∀ n, '.' ∉ n ↔ '.' ∉ e n) (h0 : e [] = []) (ha : ∀ n, '.' ∉ n → (Allowed n ↔ Allowed (e n))) (hl : ∀ n, '.' ∉ n → (AutoLike n ↔ AutoLike (e n))) : Renaming (partwise e hu) where
  empty := by change partsMap e [] = []; rw [partsMap_undotted e (by simp), h0]
  dotted := dotted_parts e
  undotted := by
    intro n
    change _ ↔ '.' ∉ partsMap e n
    by_cases h : '.' ∈ n
    · obtain ⟨a, b, rfl⟩ := exists_dot h
      rw [dotted_parts]; simp
    · rw [partsMap_undotted e h]; exact hu n
  allowed := by
    intro n
    change _ ↔ Allowed (partsMap e n)
    by_cases h : '.' ∈ n
    · have hd : ∀ a b, ¬ Allowed (a ++ '.' :: b) := by
        intro a b hA
        rcases hA '.' (by simp) with h | h
        · exact absurd h (by decide)
        · exact absurd h (by decide)
      obtain ⟨a, b, rfl⟩ := exists_dot h
      rw [dotted_parts]
      exact ⟨fun h => absurd h (hd _ _), fun h => absurd h (hd _ _)⟩
    · rw [partsMap_undotted e h]; exact ha n h
  auto := by
    intro n h
    change _ ↔ AutoLike (partsMap e n)
    rw [partsMap_undotted e h]; exact hl n h

end Csdl.Prog
