import Verif.Props.Concat
/-!
# C19, C22: which keys are accepted

The other theorems say what an accepted `x[key]` or `x[key] = v` means.  These say which keys are accepted, so that a program that rejects
more than it should is excluded.
-/
namespace Csdl

/-- A key element that stays on an axis of length `n`: an int from `-n` to `n - 1`, or a slice with positive step whose start is missing or in `0..n` and
whose end is missing or in `-n..n`. -/
def OnAxis (n : Nat) : KeyElem → Prop
  | .int k => -(n : Int) ≤ k ∧ k < n
  | .slice a b s => 0 < s.getD 1 ∧ (∀ x, a = some x → 0 ≤ x ∧ x ≤ n) ∧ ∀ t, b = some t → -(n : Int) ≤ t ∧ t ≤ n
  | .other => False

/-- The element is not a negative int. -/
def NotNegative : KeyElem → Prop
  | .int k => 0 ≤ k
  | _ => True

theorem sliceToList_single {n : Nat} {k : Int} (hk : 0 ≤ k) : sliceToList (some k) (some (k + 1)) none n = .ok [k] := by
  rw [sliceToList_eq]
  refine ⟨fun t ht => by cases ht; omega, by simp, ?_, by simp, by simpa using hk⟩
  have : effStop (some (k + 1)) n = k + 1 := by simp only [effStop]; split <;> omega
  rw [this]
  simp [pyRange, List.range_succ]

/-- Positions selected by an element that stays on the axis are positions of the axis. -/
theorem elemSelects_range {n : Nat} {e : KeyElem} {L : List Int} (ho : OnAxis n e) (h : ElemSelects n e L) : ∀ x ∈ L, 0 ≤ x ∧ x < n := by
  intro x hx
  cases e with
  | other => exact h.elim
  | int k =>
    obtain ⟨h1, h2, rfl⟩ := h
    simp only [List.mem_singleton] at hx
    subst hx
    split <;> omega
  | slice a b s =>
    obtain ⟨hs, ha, hb⟩ := ho
    obtain ⟨p, q, hpq, h1, _⟩ := h
    obtain ⟨i, hi⟩ := List.mem_iff_getElem?.1 hx
    obtain ⟨rfl, hB⟩ := h1 i x hi
    have e1 := hpq.start_eq
    have e2 := hpq.stop_eq
    rw [Before, if_pos hs] at hB
    have : 0 ≤ (i : Int) * s.getD 1 := Int.mul_nonneg (by omega) (by omega)
    have hp : 0 ≤ p := by
      cases a with
      | none => simp only [hs, if_true] at e1; omega
      | some y => simp only [hs, if_true] at e1; split at e1 <;> omega
    have hq : q ≤ n := by
      cases b with
      | none => simp only [hs, if_true] at e2; omega
      | some y => simp only [hs, if_true] at e2; split at e2 <;> omega
    omega

theorem normalizeTuple_accepts (full : Shape) (l : List KeyElem) : ∀ (i : Nat) (sel : List (List Int)), l.length = (full.drop i).length →
    List.Forall₂ (fun (ne : Nat × KeyElem) L => ElemSelects ne.1 ne.2 L) ((full.drop i).zip l) sel →
    (∀ ne ∈ (full.drop i).zip l, OnAxis ne.1 ne.2) → (∀ L ∈ sel, L ≠ []) →
    ∃ nk, normalizeTuple full i l = .ok nk ∧ axisLists (full.drop i) nk = .ok sel := by
  induction l with
  | nil =>
    intro i sel hlen h _ _
    have : full.drop i = [] := List.length_eq_zero_iff.1 hlen.symm
    rw [this] at h ⊢
    cases h
    exact ⟨[], by rw [normalizeTuple], rfl⟩
  | cons e l ih =>
    intro i sel hlen h ho hne
    cases hd : full.drop i with
    | nil => rw [hd] at hlen; simp at hlen
    | cons n rest =>
      have hn : full[i]? = some n := by
        have := congrArg (·[0]?) hd
        simpa using this
      have hrest : rest = full.drop (i + 1) := by
        have := congrArg List.tail hd
        simpa using this.symm
      rw [hd] at h ho hlen
      cases h with
      | @cons _ L _ sel' h1 h2 =>
        have hlen' : l.length = (full.drop (i + 1)).length := by rw [← hrest]; simpa using hlen
        obtain ⟨nk, g1, g2⟩ := ih (i + 1) sel' hlen' (by rw [← hrest]; exact h2) (by rw [← hrest]; exact fun ne hne' => ho ne (by rw [List.zip_cons_cons]; exact List.mem_cons_of_mem _ hne'))
          (fun L hL => hne L (List.mem_cons_of_mem _ hL))
        have he := ho (n, e) (by simp)
        have hL := hne L (by simp)
        rw [← hrest] at g2
        cases e with
        | other => exact h1.elim
        | slice a b s =>
          refine ⟨sliceToTuple a b s n :: nk, ?_, ?_⟩
          · rw [normalizeTuple]
            simp only [hn]
            rw [g1]; rfl
          · rw [sliceToTuple, axisLists, sliceToList_fill, C18_accepts a b s n L he.1 he.2.1 he.2.2 h1 hL, ok_bind, g2]; rfl
        | int k =>
          obtain ⟨k1, k2, rfl⟩ := h1
          by_cases hk : k < 0
          · simp only [hk, if_true]
            refine ⟨((n : Int) + k, (n : Int) + k + 1, none) :: nk, ?_, ?_⟩
            · rw [normalizeTuple]
              simp only [hk, if_true, hn]
              rw [g1]; rfl
            · rw [axisLists, sliceToList_single (by omega), ok_bind, g2]; rfl
          · simp only [hk, if_false]
            refine ⟨(k, k + 1, none) :: nk, ?_, ?_⟩
            · rw [normalizeTuple]
              simp only [hk, if_false]
              rw [g1]; rfl
            · rw [axisLists, sliceToList_single (by omega), ok_bind, g2]; rfl

theorem mapM_total {α β ε : Type} (f : α → Except ε β) (l : List α) (h : ∀ x ∈ l, ∃ y, f x = .ok y) : ∃ r, l.mapM f = .ok r := by
  induction l with
  | nil => exact ⟨[], rfl⟩
  | cons a l ih =>
    obtain ⟨y, hy⟩ := h a (by simp)
    obtain ⟨r, hr⟩ := ih fun x hx => h x (List.mem_cons_of_mem _ hx)
    exact ⟨y :: r, by rw [List.mapM_cons, hy, ok_bind, hr]; rfl⟩

theorem mesh_inRange {shape : Shape} {l : List KeyElem} {sel : List (List Int)} (hlen : l.length = shape.length)
    (h : List.Forall₂ (fun (ne : Nat × KeyElem) L => ElemSelects ne.1 ne.2 L) (shape.zip l) sel) (ho : ∀ ne ∈ shape.zip l, OnAxis ne.1 ne.2) :
    ∀ idx ∈ meshIJ sel, inRange shape idx = true := by
  induction l generalizing shape sel with
  | nil =>
    have : shape = [] := List.length_eq_zero_iff.1 hlen.symm
    subst this
    cases h
    intro idx hidx
    simp [meshIJ] at hidx
    subst hidx; rfl
  | cons e l ih =>
    cases shape with
    | nil => simp at hlen
    | cons n shape =>
      cases h with
      | cons h1 h2 =>
        intro idx hidx
        rw [mem_meshIJ] at hidx
        cases hidx with
        | cons i1 i2 =>
          rw [inRange, Bool.and_eq_true]
          exact ⟨by simpa using elemSelects_range (ho _ (by simp)) h1 _ i1,
            ih (by simpa using hlen) h2 (fun ne hne => ho ne (by rw [List.zip_cons_cons]; exact List.mem_cons_of_mem _ hne)) _ ((mem_meshIJ _ _).2 i2)⟩

theorem elems_normalize {shape : Shape} {key : Key} (hrank : key.elems.length = shape.length) (hno : key.IntsAndSlices) : normalizeKey shape key = normalizeTuple shape 0 key.elems := by
  cases key with
  | other => exact absurd rfl (hno .other (by simp [Key.elems]))
  | tuple l => rfl
  | slice a b s =>
    match shape, hrank with
    | [n], _ =>
      have e : Shape.size [n] = n := by simp [Shape.size]
      simp only [normalizeKey, e, Key.elems]
      rfl
  | int k =>
    match shape, hrank with
    | [n], _ =>
      have e : Shape.size [n] = n := by simp [Shape.size]
      simp only [normalizeKey, e, Key.elems, normalizeTuple]
      by_cases hk : k < 0
      · simp only [hk, if_true]; rfl
      · simp only [hk, if_false]; rfl

theorem noOther_of_onAxis {shape : Shape} {key : Key} (hrank : key.elems.length = shape.length) (ho : ∀ ne ∈ shape.zip key.elems, OnAxis ne.1 ne.2) : key.IntsAndSlices := by
  intro e he
  obtain ⟨i, hi⟩ := List.mem_iff_getElem?.1 he
  obtain ⟨hlt, _⟩ := List.getElem?_eq_some_iff.1 hi
  have := ho (shape[i]'(by omega), e) (by
    rw [List.mem_iff_getElem?]
    exact ⟨i, by rw [List.getElem?_zip_eq_some]; exact ⟨by rw [List.getElem?_eq_getElem (by omega)], hi⟩⟩)
  rintro rfl
  exact this

/-- **C19, accepted keys.** `x[key]` succeeds, after any history of indexing of `x`, if `x` has at least one axis and `key` has one element per axis, each an int or slice that stays on its axis (`OnAxis`) and selects at
least one position. -/
theorem C19_accepts (shape : Shape) (st : Decomp) (key : Key) (sel : List (List Int)) (hd : shape ≠ []) (hsel : KeySelects shape key sel)
    (ho : ∀ ne ∈ shape.zip key.elems, OnAxis ne.1 ne.2) (hne : ∀ L ∈ sel, L ≠ []) : ∃ p st', getItem shape st key = .ok (p, st') := by
  obtain ⟨hrank, hall⟩ := hsel
  obtain ⟨nk, g1, g2⟩ := normalizeTuple_accepts shape key.elems 0 sel (by simpa using hrank) (by simpa using hall) (by simpa using ho) hne
  have hs : sel ≠ [] := by
    rintro rfl
    have := hall.length_eq
    rw [List.length_zip, hrank] at this
    simp at this
    exact hd this
  have hin := mesh_inRange hrank hall ho
  obtain ⟨flat, hflat⟩ := mapM_total (ravelMultiIndex shape) (meshIJ sel) (fun idx hidx => ⟨_, (ravelMulti_ok _ _ _).2 ⟨hin idx hidx, rfl⟩⟩)
  have hsrc : srcIndices shape nk = .ok flat := by
    unfold srcIndices
    rw [show axisLists shape nk = .ok sel from g2, ok_bind, if_neg hs, hflat, ok_bind, if_neg]
    · rfl
    · rw [List.any_eq_true]
      rintro ⟨x, hx, hx'⟩
      rw [mapM_ok'] at hflat
      obtain ⟨ix, _, hix⟩ := forall₂_mem_right hflat hx
      obtain ⟨r1, rfl⟩ := (ravelMulti_ok _ _ _).1 hix
      have := C21_ravel_lt _ _ (validIdx_toNat r1)
      simp at hx'
      omega
  unfold getItem
  rw [elems_normalize hrank (noOther_of_onAxis hrank ho), g1, ok_bind]
  cases hc : st.pairs.get? nk with
  | some p => exact ⟨p, st, rfl⟩
  | none => dsimp only; rw [hsrc, ok_bind]; exact ⟨_, _, rfl⟩

/-- the hypotheses are met: `x[-1, 1:-1:2]` of a variable of shape (3, 5) -/
example : KeySelects [3, 5] (.tuple [.int (-1), .slice (some 1) (some (-1)) (some 2)]) [[2], [1, 3]] ∧
    (∀ ne ∈ ([3, 5] : Shape).zip (Key.tuple [.int (-1), .slice (some 1) (some (-1)) (some 2)]).elems, OnAxis ne.1 ne.2) ∧
    (∀ L ∈ ([[2], [1, 3]] : List (List Int)), L ≠ []) := by
  refine ⟨⟨rfl, .cons ⟨by decide, by decide, by decide⟩ (.cons ((selects_iff (by decide) _).2 (by decide)) .nil)⟩, ?_, by decide⟩
  intro ne hne
  simp only [Key.elems, List.zip_cons_cons, List.zip_nil_right, List.mem_cons, List.not_mem_nil, or_false] at hne
  rcases hne with rfl | rfl
  · exact ⟨by decide, by decide⟩
  · refine ⟨by decide, ?_, ?_⟩
    · rintro x ⟨⟩; decide
    · rintro x ⟨⟩; decide

theorem setTuple_accepts (l : List KeyElem) : ∀ (shape : Shape) (sel : List (List Int)), l.length = shape.length →
    List.Forall₂ (fun (ne : Nat × KeyElem) L => ElemSelects ne.1 ne.2 L) (shape.zip l) sel →
    (∀ ne ∈ shape.zip l, OnAxis ne.1 ne.2) → (∀ e ∈ l, NotNegative e) → (∀ L ∈ sel, L ≠ []) → setTuple shape l = .ok sel := by
  induction l with
  | nil =>
    intro shape sel hlen h _ _ _
    have : shape = [] := List.length_eq_zero_iff.1 hlen.symm
    subst this
    cases h
    rfl
  | cons e l ih =>
    intro shape sel hlen h ho hnn hne
    cases shape with
    | nil => simp at hlen
    | cons n shape =>
      cases h with
      | @cons _ L _ sel' h1 h2 =>
        have hr := ih shape sel' (by simpa using hlen) h2 (fun ne hne' => ho ne (by rw [List.zip_cons_cons]; exact List.mem_cons_of_mem _ hne'))
          (fun e he => hnn e (List.mem_cons_of_mem _ he)) (fun L hL => hne L (List.mem_cons_of_mem _ hL))
        have he := ho (n, e) (by simp)
        have hL := hne L (by simp)
        have hk := hnn e (by simp)
        cases e with
        | other => exact h1.elim
        | slice a b s =>
          simp only [setTuple]
          rw [C18_accepts a b s n L he.1 he.2.1 he.2.2 h1 hL, ok_bind, hr]; rfl
        | int k =>
          obtain ⟨k1, k2, rfl⟩ := h1
          have hk' : ¬ k < 0 := by simp only [NotNegative] at hk; omega
          simp only [hk', if_false, setTuple]
          rw [sliceToList_single (by omega), ok_bind, hr]; rfl

/-- **C22, accepted assignments.** `x[key] = v` succeeds if `key` has one element per axis of `x`, each an int that is not negative or a slice, that stays on its axis (`OnAxis`) and selects at least one position; `v` has the shape
of the slice; no variable of the name of `v` has been assigned; and no element selected has been assigned. -/
theorem C22_accepts (c : Concat) (key : Key) (v : Rhs) (sel : List (List Int)) (hd : c.shape ≠ []) (hsel : KeySelects c.shape key sel)
    (ho : ∀ ne ∈ c.shape.zip key.elems, OnAxis ne.1 ne.2) (hnn : ∀ e ∈ key.elems, NotNegative e) (hne : ∀ L ∈ sel, L ≠ [])
    (hv : v.shape = sel.map List.length) (hname : v.name ∉ c.tgt.keys)
    (hfree : ∀ j, ValidIdx v.shape j → ((ravel c.shape (pick sel j) : Nat) : Int) ∉ c.checked) : (setItem c key v).2 = none := by
  obtain ⟨hrank, hall⟩ := hsel
  have hset := setTuple_accepts key.elems c.shape sel hrank hall ho hnn hne
  have hin := mesh_inRange hrank hall ho
  have hs : sel ≠ [] := by
    rintro rfl
    have := hall.length_eq
    rw [List.length_zip, hrank] at this
    simp at this
    exact hd this
  have key' : ∃ idx, tgtIndices c.shape key = .ok (idx, v.shape) ∧ ∀ i ∈ idx, i < c.shape.size ∧ i ∉ c.checked := by
    rw [hv] at hfree ⊢
    -- every index asked for belongs to a member of the mesh
    have mem : ∀ idx ∈ meshIJ sel, ((ravel c.shape (idx.map Int.toNat) : Nat) : Int) < c.shape.size ∧ ((ravel c.shape (idx.map Int.toNat) : Nat) : Int) ∉ c.checked := by
      intro idx hidx
      refine ⟨by exact_mod_cast C21_ravel_lt _ _ (validIdx_toNat (hin idx hidx)), ?_⟩
      obtain ⟨i, hi⟩ := List.mem_iff_getElem?.1 hidx
      have hlt : i < Shape.size (sel.map List.length) := by
        rw [← meshIJ_length]; exact (List.getElem?_eq_some_iff.1 hi).1
      obtain ⟨j, hj, rfl⟩ := C21_ravel_surjective _ i hlt
      rw [meshIJ_get sel j hj] at hi
      cases hi
      have := hfree j hj
      rw [List.map_zipWith]
      exact this
    cases key with
    | other => exact absurd rfl (noOther_of_onAxis hrank ho .other (by simp [Key.elems]))
    | tuple l =>
      obtain ⟨flat, hflat⟩ := mapM_total (ravelMultiIndex c.shape) (meshIJ sel) (fun idx hidx => ⟨_, (ravelMulti_ok _ _ _).2 ⟨hin idx hidx, rfl⟩⟩)
      refine ⟨flat.map Int.ofNat, ?_, ?_⟩
      · rw [tgtIndices, show setTuple c.shape l = .ok sel from hset, ok_bind, if_neg hs, hflat, ok_bind]; rfl
      · intro i hi
        obtain ⟨k, hk, rfl⟩ := List.mem_map.1 hi
        rw [mapM_ok'] at hflat
        obtain ⟨ix, hix, h'⟩ := forall₂_mem_right hflat hk
        obtain ⟨_, rfl⟩ := (ravelMulti_ok _ _ _).1 h'
        exact mem ix hix
    | slice a b s =>
      match hsh : c.shape, hrank with
      | [n], _ =>
        rw [hsh] at hall ho hset mem hin
        cases hall with
        | @cons _ L _ _ h1 h2 =>
          cases h2
          have he := ho (n, .slice a b s) (by simp [Key.elems])
          refine ⟨L, ?_, ?_⟩
          · rw [tgtIndices, C18_accepts a b s n L he.1 he.2.1 he.2.2 h1 (hne L (by simp)), ok_bind]; rfl
          · intro i hi
            have hr := elemSelects_range he h1 i hi
            have := mem [i] (by simp [meshIJ, hi])
            simp only [List.map_cons, List.map_nil, ravel, Shape.size] at this
            simpa [Shape.size, hr.1, Int.toNat_of_nonneg hr.1] using this
    | int k =>
      match hsh : c.shape, hrank with
      | [n], _ =>
        rw [hsh] at hall ho hset mem hin
        cases hall with
        | @cons _ L _ _ h1 h2 =>
          cases h2
          obtain ⟨k1, k2, rfl⟩ := h1
          have hk : 0 ≤ k := hnn (.int k) (by simp [Key.elems])
          have hk' : ¬ k < 0 := by omega
          simp only [hk', if_false] at mem ⊢
          refine ⟨[k], rfl, ?_⟩
          intro i hi
          simp only [List.mem_singleton] at hi
          subst hi
          have := mem [i] (by simp [meshIJ])
          simp only [List.map_cons, List.map_nil, ravel, Shape.size] at this
          simpa [Shape.size, hk, Int.toNat_of_nonneg hk] using this
  obtain ⟨idx, ht, hidx⟩ := key'
  unfold setItem
  rw [ht]
  dsimp only
  rw [if_neg (by simp), if_neg, if_neg, if_neg]
  · simp only [ne_eq, not_not]
    rw [List.filter_eq_nil_iff]
    intro i hi hc
    exact (hidx i (by simpa using hc)).2 hi
  · rw [Dict.has_iff]; exact hname
  · rw [List.any_eq_true]
    rintro ⟨x, hx, hx'⟩
    have := (hidx x hx).1
    simp at hx'
    omega

/-- the hypotheses are met: after `x[0, :] = a`, `x[1, 1:] = b` for an output of shape (2, 3) -/
example : (setItem (runSets (Concat.fresh [2, 3]) [(.tuple [.int 0, .slice none none none], ⟨0, "a".toList, [1, 3]⟩)])
    (.tuple [.int 1, .slice (some 1) none none]) ⟨1, "b".toList, [1, 2]⟩).2 = none ∧
    (runSets (Concat.fresh [2, 3]) [(.tuple [.int 0, .slice none none none], ⟨0, "a".toList, [1, 3]⟩)]).checked = [0, 1, 2] := by decide
end Csdl
