import Verif.Model.Dict
import Mathlib.Data.List.Nodup

namespace Csdl.Dict
variable {κ ν : Type} [DecidableEq κ]

theorem get?_set (d : Dict κ ν) (k k' : κ) (v : ν) :
    get? (set d k v) k' = if k = k' then some v else get? d k' := by
  induction d with
  | nil => simp [set, get?]
  | cons kv d ih =>
    obtain ⟨a, b⟩ := kv
    simp only [set]
    split
    · rename_i h; subst h; simp only [get?]
      split <;> rfl
    · rename_i h; simp only [get?, ih]
      by_cases h1 : a = k'
      · subst h1; simp [h, Ne.symm h]
      · simp [h1]

theorem keys_set (d : Dict κ ν) (k : κ) (v : ν) (k' : κ) :
    k' ∈ keys (set d k v) ↔ k' ∈ keys d ∨ k' = k := by
  induction d with
  | nil => simp [set, keys]
  | cons kv d ih =>
    obtain ⟨a, b⟩ := kv
    simp only [set]
    split
    · rename_i h; subst h; simp [keys]; tauto
    · simp only [keys, List.map_cons, List.mem_cons] at ih ⊢; rw [ih]; tauto

theorem nodup_set {d : Dict κ ν} (h : (keys d).Nodup) (k : κ) (v : ν) : (keys (set d k v)).Nodup := by
  induction d with
  | nil => simp [set, keys]
  | cons kv d ih =>
    obtain ⟨a, b⟩ := kv
    simp only [set]
    simp only [keys, List.map_cons, List.nodup_cons] at h
    split
    · simpa [keys] using h
    · rename_i hne
      have h2 := ih h.2
      simp only [keys, List.map_cons, List.nodup_cons]
      refine ⟨?_, h2⟩
      intro hm
      have := (keys_set d k v a).1 hm
      rcases this with h3 | h3
      · exact h.1 h3
      · exact hne h3

theorem get?_some_mem {d : Dict κ ν} {k : κ} {v : ν} (h : get? d k = some v) : (k, v) ∈ d := by
  induction d with
  | nil => simp [get?] at h
  | cons kv d ih =>
    obtain ⟨a, b⟩ := kv
    simp only [get?] at h
    split at h
    · rename_i h1; subst h1; simp at h; subst h; simp
    · exact List.mem_cons_of_mem _ (ih h)

theorem mem_get? {d : Dict κ ν} (hd : (keys d).Nodup) {k : κ} {v : ν} (h : (k, v) ∈ d) :
    get? d k = some v := by
  induction d with
  | nil => simp at h
  | cons kv d ih =>
    obtain ⟨a, b⟩ := kv
    simp only [keys, List.map_cons, List.nodup_cons] at hd
    rcases List.mem_cons.1 h with h | h
    · cases h; simp [get?]
    · have : a ≠ k := by
        rintro rfl
        exact hd.1 (List.mem_map.2 ⟨_, h, rfl⟩)
      simp [get?, this, ih hd.2 h]

theorem has_iff {d : Dict κ ν} {k : κ} : has d k = true ↔ k ∈ keys d := by
  induction d with
  | nil => simp [has, get?, keys]
  | cons kv d ih =>
    obtain ⟨a, b⟩ := kv
    simp only [has, get?, keys, List.map_cons, List.mem_cons] at ih ⊢
    split
    · rename_i h; simp [h]
    · rename_i h; rw [ih]; simp [Ne.symm h]

theorem get?_none_iff {d : Dict κ ν} {k : κ} : get? d k = none ↔ k ∉ keys d := by
  rw [← has_iff, has]; cases get? d k <;> simp

theorem mem_keys_get? {d : Dict κ ν} {k : κ} (h : k ∈ keys d) : ∃ v, get? d k = some v := by
  rw [← has_iff, has, Option.isSome_iff_exists] at h; exact h

theorem get?_mem_keys {d : Dict κ ν} {k : κ} {v : ν} (h : get? d k = some v) : k ∈ keys d :=
  List.mem_map.2 ⟨_, get?_some_mem h, rfl⟩

theorem update_cons (d : Dict κ ν) (kv : κ × ν) (e : Dict κ ν) :
    update d (kv :: e) = update (set d kv.1 kv.2) e := rfl

theorem update_nil (d : Dict κ ν) : update d [] = d := rfl

theorem keys_update (d e : Dict κ ν) (k : κ) : k ∈ keys (update d e) ↔ k ∈ keys d ∨ k ∈ keys e := by
  induction e generalizing d with
  | nil => simp [update_nil, keys]
  | cons kv e ih =>
    rw [update_cons, ih, keys_set]
    simp only [keys, List.map_cons, List.mem_cons]
    tauto

theorem nodup_update {d : Dict κ ν} (hd : (keys d).Nodup) (e : Dict κ ν) : (keys (update d e)).Nodup := by
  induction e generalizing d with
  | nil => exact hd
  | cons kv e ih => rw [update_cons]; exact ih (nodup_set hd _ _)

theorem get?_update_notin (d e : Dict κ ν) {k : κ} (h : k ∉ keys e) : get? (update d e) k = get? d k := by
  induction e generalizing d with
  | nil => rfl
  | cons kv e ih =>
    simp only [keys, List.map_cons, List.mem_cons, not_or] at h
    rw [update_cons, ih _ h.2, get?_set, if_neg (Ne.symm h.1)]

theorem get?_update (d : Dict κ ν) {e : Dict κ ν} (he : (keys e).Nodup) (k : κ) :
    get? (update d e) k = match get? e k with | some v => some v | none => get? d k := by
  induction e generalizing d with
  | nil => rfl
  | cons kv e ih =>
    obtain ⟨a, b⟩ := kv
    simp only [keys, List.map_cons, List.nodup_cons] at he
    rw [update_cons]
    simp only [get?]
    by_cases h : a = k
    · subst h
      rw [get?_update_notin _ _ he.1, get?_set]; simp
    · rw [ih _ he.2, if_neg h]
      cases get? e k with
      | some v => rfl
      | none => simp [get?_set, h]

theorem mem_update {d e : Dict κ ν} {k : κ} {v : ν} (h : get? (update d e) k = some v) :
    (k, v) ∈ e ∨ get? d k = some v := by
  induction e generalizing d with
  | nil => exact Or.inr h
  | cons kv e ih =>
    rw [update_cons] at h
    rcases ih h with h | h
    · exact Or.inl (List.mem_cons_of_mem _ h)
    · rw [get?_set] at h
      split at h
      · rename_i h1; simp at h; subst h h1; left; simp
      · exact Or.inr h

theorem keys_ofPairs (l : List (κ × ν)) (k : κ) : k ∈ keys (ofPairs l) ↔ k ∈ l.map Prod.fst := by
  rw [ofPairs, keys_update]; simp [keys]

theorem nodup_ofPairs (l : List (κ × ν)) : (keys (ofPairs l)).Nodup :=
  nodup_update (by simp [keys]) l

theorem set_append_of_notin {d : Dict κ ν} {k : κ} (h : k ∉ keys d) (v : ν) : set d k v = d ++ [(k, v)] := by
  induction d with
  | nil => rfl
  | cons kv d ih =>
    obtain ⟨a, b⟩ := kv
    simp only [keys, List.map_cons, List.mem_cons, not_or] at h
    simp [set, Ne.symm h.1, ih h.2]

theorem update_eq_append {d e : Dict κ ν} (he : (keys e).Nodup) (hd : ∀ k ∈ keys e, k ∉ keys d) :
    update d e = d ++ e := by
  induction e generalizing d with
  | nil => simp [update_nil]
  | cons kv e ih =>
    simp only [keys, List.map_cons, List.nodup_cons] at he
    rw [update_cons, set_append_of_notin (hd _ (by simp [keys])), ih he.2]
    · simp
    · intro k hk
      simp only [keys, List.map_append, List.map_cons, List.map_nil, List.mem_append, List.mem_singleton, not_or]
      refine ⟨hd k (by simp only [keys, List.map_cons, List.mem_cons]; exact Or.inr hk), ?_⟩
      rintro rfl; exact he.1 hk

theorem ofPairs_eq {l : List (κ × ν)} (h : (l.map Prod.fst).Nodup) : ofPairs l = l := by
  rw [ofPairs, update_eq_append h (by simp [keys])]; rfl

end Csdl.Dict
