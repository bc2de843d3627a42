import Verif.Spec.Axes
import Verif.Proofs.Dict
import Mathlib.Algebra.BigOperators.Group.List.Basic
import Mathlib.Data.List.Basic
/-
C43 (reshape, reorder_axes, transpose), C44 (expand), C45 (einsum shapes), C56, C57, C58 (what these functions do not check).
-/
namespace Csdl.Axes
open Csdl

theorem mapM_ok {α β : Type} {f : α → Except XErr β} {g : α → β} {l : List α} (h : ∀ a ∈ l, f a = .ok (g a)) : l.mapM f = .ok (l.map g) := by
  induction l with
  | nil => rfl
  | cons a l ih =>
    rw [List.mapM_cons, h a (by simp), ih fun b hb => h b (by simp [hb])]
    rfl

theorem tupleGet_ok {α : Type} {t : List α} {i : Nat} {a : α} (h : t[i]? = some a) : tupleGet t i = .ok a := by rw [tupleGet, h]

/-! ### strings -/

theorem split_step {c : Char} (hc : c ≠ '-') (acc r : List Char) : splitArrowGo acc (c :: r) = splitArrowGo (c :: acc) r := by
  rw [splitArrowGo]
  intro r' h
  exact absurd h hc

theorem split_labels {s : List Char} (hs : Labels s) : ∀ acc, splitArrowGo acc s = [acc.reverse ++ s] := by
  induction s with
  | nil => intro acc; simp [splitArrowGo]
  | cons c s ih =>
    intro acc
    rw [split_step (hs c (by simp)).2.1, ih fun d hd => hs d (by simp [hd])]
    simp

theorem split_labels_arrow {s : List Char} (hs : Labels s) (r : List Char) : ∀ acc, splitArrowGo acc (s ++ '-' :: '>' :: r) = (acc.reverse ++ s) :: splitArrowGo [] r := by
  induction s with
  | nil => intro acc; simp [splitArrowGo]
  | cons c s ih =>
    intro acc
    rw [List.cons_append, split_step (hs c (by simp)).2.1, ih fun d hd => hs d (by simp [hd])]
    simp

theorem split_arrow {ins outs : List Char} (hi : Labels ins) (ho : Labels outs) : splitArrow (arrow ins outs) = [ins, outs] := by
  have := split_labels_arrow hi outs []
  rw [split_labels ho] at this
  simpa [splitArrow, arrow] using this

/-! ### C43 -/

theorem foldr_ofNat (l : List Nat) : (l.map Int.ofNat).foldr (· * ·) 1 = ((l.prod : Nat) : Int) := by
  induction l with
  | nil => rfl
  | cons a l ih => rw [List.map_cons, List.foldr_cons, ih, List.prod_cons]; push_cast; rfl

/-- **C43 (as far as it holds).** `reshape` to a shape is accepted exactly when the number of elements is the same; the output has the new shape. -/
theorem C43_reshape_partial (s new : Shape) :
    (reshapeInts s (new.map Int.ofNat) = .ok (new.map Int.ofNat) ↔ s.prod = new.prod) ∧ (reshapeInts s (new.map Int.ofNat) = .error .value ↔ s.prod ≠ new.prod) := by
  unfold reshapeInts
  rw [foldr_ofNat, foldr_ofNat]
  by_cases h : s.prod = new.prod
  · simp [h]
  · have : ¬(s.prod : Int) = (new.prod : Int) := by exact_mod_cast h
    simp [h, this]

/-- **C43 is false as stated**: an array of shape `(2, 3)` may be reshaped to `(-2, -3)`. -/
theorem C43_reshape_refuted : ∃ (s : Shape) (new : List Int), reshapeInts s new = .ok new ∧ ¬∃ t : Shape, new = t.map Int.ofNat := by
  refine ⟨[2, 3], [-2, -3], by decide, ?_⟩
  rintro ⟨t, ht⟩
  cases t with
  | nil => cases ht
  | cons n t => rw [List.map_cons, List.cons.injEq] at ht; exact absurd ht.1 (by simp)

/-- **C43.** Transposing twice gives the shape back; the number of elements is kept and axis `i` becomes axis `r - 1 - i`. -/
theorem C43_transpose (s : Shape) : transpose (transpose s) = s ∧ (transpose s).prod = s.prod ∧ ∀ i < s.length, (transpose s)[s.length - 1 - i]? = s[i]? := by
  refine ⟨by simp [transpose], ?_, ?_⟩
  · exact (List.reverse_perm s).prod_eq
  · intro i hi
    rw [transpose, List.getElem?_reverse (by omega)]
    congr 1
    omega

theorem map_idx_eq {s : List Char} (hs : s.Nodup) {shape : Shape} (hl : shape.length = s.length) : s.map (fun c => shape.getD (s.idxOf c) 0) = shape := by
  apply List.ext_getElem
  · simp [hl]
  · intro i h1 h2
    have hi : i < s.length := by simpa using h1
    rw [List.getElem_map, hs.idxOf_getElem i hi]
    simp [List.getD_eq_getElem?_getD, h2]

theorem reorder_sizes {s t : List Char} (hs : Labels s) (ht : Labels t) (hsub : ∀ c ∈ t, c ∈ s) (size : Char → Nat) (op : List Char)
    (hop : op.filter (· ≠ ' ') = arrow s t) : reorderAxes (s.map size) op = .ok (t.map size) := by
  have h1 : newAxesLocations op = .ok (t.map s.idxOf) := by
    unfold newAxesLocations
    rw [hop, split_arrow hs ht]
    simp only
    exact mapM_ok fun c hc => by rw [strIndex, if_pos (hsub c hc)]
  unfold reorderAxes
  rw [h1]
  change (t.map s.idxOf).mapM (tupleGet (s.map size)) = _
  have : (t.map s.idxOf).mapM (tupleGet (s.map size)) = .ok ((t.map s.idxOf).map fun i => (s.map size).getD i 0) := by
    apply mapM_ok
    intro i hi
    obtain ⟨c, hc, rfl⟩ := List.mem_map.1 hi
    have : s.idxOf c < s.length := List.idxOf_lt_length_iff.2 (hsub c hc)
    apply tupleGet_ok
    simp [List.getD_eq_getElem?_getD, this]
  rw [this, List.map_map]
  congr 1
  apply List.map_congr_left
  intro c hc
  have : s.idxOf c < s.length := List.idxOf_lt_length_iff.2 (hsub c hc)
  simp [List.getD_eq_getElem?_getD, this]

theorem filter_arrow {s t : List Char} (hs : Labels s) (ht : Labels t) : (arrow s t).filter (· ≠ ' ') = arrow s t := by
  apply List.filter_eq_self.2
  intro c hc
  simp only [arrow, List.append_assoc, List.mem_append, List.mem_cons, List.not_mem_nil, or_false] at hc
  rcases hc with h | (rfl | rfl) | h
  · simpa using (hs c h).1
  · decide
  · decide
  · simpa using (ht c h).1

/-- **C43.** `reorder_axes` with distinct labels, one for each axis, and a permutation of them (spaces are ignored): the axis with a label keeps its size, the shape is permuted, the number of elements
is the same, and the reverse operation restores the shape. -/
theorem C43_reorder (shape : Shape) (s t op : List Char) (hs : Labels s) (hn : s.Nodup) (hp : t.Perm s) (hl : shape.length = s.length) (hop : op.filter (· ≠ ' ') = arrow s t) :
    ∃ out, reorderAxes shape op = .ok out ∧ out.length = shape.length ∧ (∀ (i j : Nat) (c : Char), s[i]? = some c → t[j]? = some c → out[j]? = shape[i]?) ∧ out.Perm shape ∧ out.prod = shape.prod ∧
      reorderAxes out (arrow t s) = .ok shape := by
  have ht : Labels t := fun c hc => hs c (hp.mem_iff.1 hc)
  have hmap := map_idx_eq hn hl
  generalize hsz : (fun c => shape.getD (s.idxOf c) 0) = size at hmap
  have hperm : (t.map size).Perm shape := by rw [← hmap]; exact hp.map size
  refine ⟨t.map size, ?_, ?_, ?_, hperm, hperm.prod_eq, ?_⟩
  · rw [← hmap]
    exact reorder_sizes hs ht (fun c hc => hp.mem_iff.1 hc) size op hop
  · simp [hl, hp.length_eq]
  · intro i j c hi hj
    rw [List.getElem?_map, hj, ← hmap, List.getElem?_map, hi]
  · have := reorder_sizes ht hs (fun c hc => hp.mem_iff.2 hc) size (arrow t s) (filter_arrow ht hs)
    rw [hmap] at this
    exact this

/-- non-vacuity of C43_reorder: `'ijk -> kij'`. -/
example : Labels "ijk".toList ∧ "ijk".toList.Nodup ∧ "kij".toList.Perm "ijk".toList ∧ ("ijk -> kij".toList.filter (· ≠ ' ') = arrow "ijk".toList "kij".toList) ∧
    reorderAxes [2, 3, 4] "ijk -> kij".toList = .ok [4, 2, 3] := by
  refine ⟨by unfold Labels; decide, by decide, by decide, by decide, by decide⟩

/-! ### C56 -/

/-- **C56 (as far as it holds).** An accepted operation has an arrow, every output label occurs in the input, and every axis of the result is an axis of the variable. -/
theorem C56_reorder_accepts_partial (shape out : Shape) (s t op : List Char) (hs : Labels s) (ht : Labels t) (hop : op.filter (· ≠ ' ') = arrow s t) (h : reorderAxes shape op = .ok out) :
    (∀ c ∈ t, c ∈ s ∧ s.idxOf c < shape.length) ∧ out = t.map fun c => shape.getD (s.idxOf c) 0 := by
  have key : ∀ t : List Char, (∀ l, t.mapM (strIndex s) = .ok l → ∀ c ∈ t, c ∈ s) := by
    intro t
    induction t with
    | nil => intro l _ c hc; cases hc
    | cons d t ih =>
      intro l hl c hc
      rw [List.mapM_cons] at hl
      unfold strIndex at hl
      split at hl
      · rename_i hd
        cases hm : t.mapM (strIndex s) with
        | error e => 
          have : (t.mapM fun c => if c ∈ s then Except.ok (s.idxOf c) else Except.error XErr.value) = .error e := hm
          rw [this] at hl; cases hl
        | ok l' =>
          rcases List.mem_cons.1 hc with rfl | hc
          · exact hd
          · exact ih l' hm c hc
      · cases hl
  have key2 : ∀ (l : List Nat) (o : Shape), l.mapM (tupleGet shape) = .ok o → (∀ i ∈ l, i < shape.length) ∧ o = l.map fun i => shape.getD i 0 := by
    intro l
    induction l with
    | nil => intro o ho; cases ho; simp
    | cons i l ih =>
      intro o ho
      rw [List.mapM_cons] at ho
      cases hg : shape[i]? with
      | none => rw [tupleGet, hg] at ho; cases ho
      | some a =>
        rw [tupleGet_ok hg] at ho
        cases hm : l.mapM (tupleGet shape) with
        | error e => rw [hm] at ho; cases ho
        | ok o' =>
          rw [hm] at ho
          cases ho
          obtain ⟨h1, h2⟩ := ih o' hm
          obtain ⟨hlt, _⟩ := List.getElem?_eq_some_iff.1 hg
          refine ⟨?_, ?_⟩
          · intro j hj
            rcases List.mem_cons.1 hj with rfl | hj
            · exact hlt
            · exact h1 j hj
          · rw [List.map_cons, ← h2, List.getD_eq_getElem?_getD, hg]; rfl
  unfold reorderAxes at h
  have hnew : newAxesLocations op = t.mapM (strIndex s) := by
    unfold newAxesLocations; rw [hop, split_arrow hs ht]
  rw [hnew] at h
  cases hm : t.mapM (strIndex s) with
  | error e => rw [hm] at h; cases h
  | ok l =>
    rw [hm] at h
    have hsub := key t l hm
    have hl : l = t.map s.idxOf := by
      have := mapM_ok (f := strIndex s) (g := s.idxOf) (l := t) fun c hc => by rw [strIndex, if_pos (hsub c hc)]
      rw [hm] at this; cases this; rfl
    obtain ⟨h1, h2⟩ := key2 l out h
    subst hl
    refine ⟨fun c hc => ⟨hsub c hc, h1 _ (List.mem_map_of_mem hc)⟩, ?_⟩
    rw [h2, List.map_map]; rfl

/-- **C56 is false as stated**: `'ij->i'` and `'ij->ii'` are accepted, so the number of elements changes. -/
theorem C56_refuted : reorderAxes [2, 3] "ij->i".toList = .ok [2] ∧ reorderAxes [2, 3] "ij->ii".toList = .ok [2, 2] := by
  constructor <;> decide

/-! ### C44 -/

theorem decomposeGo_spec (select : List Nat) (s : Shape) : ∀ (k : Nat) (d : Decomp), k + s.length ≤ 10 →
    decomposeGo select k s d = .ok
      { einsumSelection := d.einsumSelection ++ ((List.range' k s.length).filter (· ∉ select)).map letter
        einsumRemainder := d.einsumRemainder ++ ((List.range' k s.length).filter (· ∈ select)).map letter
        einsumFull := d.einsumFull ++ (List.range' k s.length).map letter
        shapeSelection := d.shapeSelection ++ ((s.zipIdx k).filter (·.2 ∉ select)).map (·.1)
        shapeRemainder := d.shapeRemainder ++ ((s.zipIdx k).filter (·.2 ∈ select)).map (·.1) } := by
  induction s with
  | nil => intro k d _; simp [decomposeGo]
  | cons n s ih =>
    intro k d hk
    rw [List.length_cons] at hk
    have hg : tupleGet alphabet10 k = .ok (letter k) := by
      apply tupleGet_ok
      have : k < alphabet10.length := by simp [alphabet10]; omega
      simp [letter, List.getD_eq_getElem?_getD, this]
    rw [decomposeGo, hg]
    change decomposeGo select (k + 1) s _ = _
    rw [ih (k + 1) _ (by omega), List.length_cons, List.range'_succ, List.zipIdx_cons]
    by_cases hm : k ∈ select
    · simp [hm]
    · simp [hm]

theorem decomposeGo_long (select : List Nat) (s : Shape) : ∀ (k : Nat) (d : Decomp), k ≤ 10 → 10 < k + s.length → decomposeGo select k s d = .error .index := by
  induction s with
  | nil => intro k d h1 h2; simp at h2; omega
  | cons n s ih =>
    intro k d h1 h2
    rw [List.length_cons] at h2
    rw [decomposeGo]
    by_cases hk : k = 10
    · subst hk; rfl
    · have hg : tupleGet alphabet10 k = .ok (letter k) := by
        apply tupleGet_ok
        have : k < alphabet10.length := by simp [alphabet10]; omega
        simp [letter, List.getD_eq_getElem?_getD, this]
      rw [hg]
      change decomposeGo select (k + 1) s _ = _
      exact ih (k + 1) _ (by omega) (by omega)

theorem filter_split_prod (l : List (Nat × Nat)) (p : Nat × Nat → Bool) : ((l.filter fun x => !p x).map (·.1)).prod * ((l.filter p).map (·.1)).prod = (l.map (·.1)).prod := by
  induction l with
  | nil => rfl
  | cons x l ih =>
    rw [List.map_cons, List.prod_cons, ← ih]
    by_cases h : p x
    · rw [List.filter_cons_of_neg (by simp [h]), List.filter_cons_of_pos h, List.map_cons, List.prod_cons]
      rw [Nat.mul_left_comm]
    · rw [List.filter_cons_of_pos (by simp [h]), List.filter_cons_of_neg h, List.map_cons, List.prod_cons, Nat.mul_assoc]

/-- **C44.** For an array with at most ten axes the two halves of the decomposition are the axes that are not selected and those that are, in order, with their letters; together they have all letters, and the numbers of
elements multiply to the number of elements of the array. -/
theorem C44_decompose (s : Shape) (select : List Nat) (hl : s.length ≤ 10) :
    ∃ d, decomposeShapeTuple s select = .ok d ∧ d.einsumFull = (List.range s.length).map letter ∧
      d.einsumSelection = ((List.range s.length).filter (· ∉ select)).map letter ∧ d.einsumRemainder = ((List.range s.length).filter (· ∈ select)).map letter ∧
      d.shapeSelection = ((List.range s.length).filter (· ∉ select)).map (s.getD · 0) ∧ d.shapeRemainder = ((List.range s.length).filter (· ∈ select)).map (s.getD · 0) ∧
      d.shapeSelection.prod * d.shapeRemainder.prod = s.prod ∧ d.einsumFull.Nodup := by
  refine ⟨_, decomposeGo_spec select s 0 {} (by omega), ?_⟩
  have hz : ∀ (p : Nat → Bool), ((s.zipIdx 0).filter fun x => p x.2).map (·.1) = ((List.range s.length).filter p).map (s.getD · 0) := by
    intro p
    have h1 : s.zipIdx 0 = (List.range s.length).map fun i => (s.getD i 0, i) := by
      apply List.ext_getElem
      · simp
      · intro i h1 h2
        have : i < s.length := by simpa using h1
        simp [List.getD_eq_getElem?_getD, this]
    rw [h1, List.filter_map, List.map_map]
    rfl
  have hn : ((List.range s.length).map letter).Nodup := by
    have hh : (List.range s.length).map letter = alphabet10.take s.length := by
      apply List.ext_getElem
      · simp [alphabet10]; omega
      · intro i h1 h2
        have : i < alphabet10.length := by simp [alphabet10] at h2 ⊢; omega
        simp [letter, List.getD_eq_getElem?_getD, this]
    rw [hh]
    exact (by decide : alphabet10.Nodup).sublist (List.take_sublist _ _)
  simp only [List.nil_append, ← List.range_eq_range']
  refine ⟨trivial, trivial, trivial, ?_, ?_, ?_, hn⟩
  · have := hz (fun i => decide (i ∉ select)); simpa using this
  · have := hz (fun i => decide (i ∈ select)); simpa using this
  · have := filter_split_prod (s.zipIdx 0) fun x => decide (x.2 ∈ select)
    simp only [← decide_not] at this
    rw [this, List.zipIdx_map_fst]

theorem keep_eq (ins : List Char) : ∀ (outs : List Char) (s : Shape) (k : Nat) (pre : List Char), pre.length = k →
    ((s.zipIdx k).filter fun x => x.2 ∉ expandIndices ins (pre ++ outs)).map (·.1) = keep ins outs s := by
  intro outs s
  induction s generalizing outs with
  | nil => intro k pre _; cases outs <;> simp [keep]
  | cons n s ih =>
    intro k pre hk
    cases outs with
    | nil =>
      rw [keep, List.append_nil]
      have hall : ∀ x ∈ (n :: s).zipIdx k, decide (x.2 ∉ expandIndices ins pre) = true := by
        intro x hx
        have hge : k ≤ x.2 := by
          have := List.mem_zipIdx_iff_le_and_getElem?_sub.1 (show (x.1, x.2) ∈ _ from hx)
          exact this.1
        simp only [decide_eq_true_eq, expandIndices, List.mem_filter, List.mem_range, not_and]
        intro h; omega
      rw [List.filter_eq_self.2 hall, List.zipIdx_map_fst]
    | cons c o =>
      have hrest := ih o (k + 1) (pre ++ [c]) (by simp [hk])
      rw [List.append_assoc, List.singleton_append] at hrest
      have hmem : k ∈ expandIndices ins (pre ++ c :: o) ↔ c ∉ ins := by
        simp only [expandIndices, List.mem_filter, List.mem_range, List.length_append, List.length_cons, decide_eq_true_eq]
        have : (pre ++ c :: o).getD k ' ' = c := by simp [List.getD_eq_getElem?_getD, ← hk]
        rw [this]
        constructor
        · exact fun h => h.2
        · exact fun h => ⟨by omega, h⟩
      rw [List.zipIdx_cons, keep]
      by_cases hc : c ∈ ins
      · rw [if_pos hc, List.filter_cons_of_pos (by simpa [hmem] using hc), List.map_cons, hrest]
      · rw [if_neg hc, List.filter_cons_of_neg (by simpa [hmem] using hc), hrest]

/-- **C44 (as far as it holds).** For a variable that is not a scalar and an output of at most ten axes, `expand` with labels is accepted exactly when deleting the axes with a label that is not an input label
leaves the shape of the variable; the output then has the given shape. -/
theorem C44_expand_iff_partial (var shape : Shape) (ins outs : List Char) (hv : var ≠ [1]) (hi : Labels ins) (ho : Labels outs) (hl : shape.length ≤ 10) :
    (expand var shape (some (arrow ins outs)) = .ok shape ↔ keep ins outs shape = var) ∧ (expand var shape (some (arrow ins outs)) = .error .value ↔ keep ins outs shape ≠ var) := by
  have hd := decomposeGo_spec (expandIndices ins outs) shape 0 {} (by omega)
  have hk := keep_eq ins outs shape 0 [] rfl
  rw [List.nil_append] at hk
  simp only [expand, split_arrow hi ho, if_neg hv, expandCheck, decomposeShapeTuple, hd, List.nil_append, hk]
  by_cases h : keep ins outs shape = var
  · simp [h]
  · simp [h]

/-- **C44.** A scalar can be expanded to any shape; a variable that is not a scalar needs labels; labels need exactly one arrow. -/
theorem C44_expand_other (var shape : Shape) (s : List Char) :
    expand [1] shape none = .ok shape ∧ (var ≠ [1] → expand var shape none = .error .value) ∧ ((splitArrow s).length ≠ 2 → expand var shape (some s) = .error .value) ∧
    ((splitArrow s).length = 2 → expand [1] shape (some s) = .ok shape) := by
  refine ⟨rfl, fun h => by simp [expand, h], ?_, ?_⟩
  · intro h
    unfold expand
    simp only
    split
    · rename_i hs; rw [hs] at h; exact absurd rfl h
    · rfl
  · intro h
    unfold expand
    simp only
    split
    · rfl
    · rename_i hs
      match hq : splitArrow s, h, hs with
      | [a, b], _, hs => exact absurd rfl (hs a b)

/-- non-vacuity of C44: shape `(3,)` to `(2, 3, 4)` with `'b->abc'`. -/
example : expand [3] [2, 3, 4] (some (arrow "b".toList "abc".toList)) = .ok [2, 3, 4] ∧ keep "b".toList "abc".toList [2, 3, 4] = [3] := by decide

/-- **C44 is false as stated**: an output with more than ten axes is always refused (IndexError), also when labels and shapes agree. -/
theorem C44_refuted (var shape : Shape) (ins outs : List Char) (hv : var ≠ [1]) (hi : Labels ins) (ho : Labels outs) (hl : 10 < shape.length) :
    expand var shape (some (arrow ins outs)) = .error .index := by
  have hd := decomposeGo_long (expandIndices ins outs) shape 0 {} (by omega) (by omega)
  simp only [expand, split_arrow hi ho, if_neg hv, expandCheck, decomposeShapeTuple, hd]

/-- a case of C44_refuted where labels and shapes agree -/
example : keep "b".toList "abcdefghijk".toList [2, 3, 2, 2, 2, 2, 2, 2, 2, 2, 2] = [3] ∧
    expand [3] [2, 3, 2, 2, 2, 2, 2, 2, 2, 2, 2] (some (arrow "b".toList "abcdefghijk".toList)) = .error .index := by decide

/-! ### C57 -/

theorem keep_sizes (ins : List Char) : ∀ (outs : List Char) (shape : Shape), outs.length = shape.length → keep ins outs shape = (((outs.zip shape).filter fun p => p.1 ∈ ins).map (·.2)) := by
  intro outs
  induction outs with
  | nil => intro shape h; cases shape with
    | nil => rfl
    | cons => cases h
  | cons c o ih =>
    intro shape h
    cases shape with
    | nil => cases h
    | cons n s =>
      rw [keep, List.zip_cons_cons]
      by_cases hc : c ∈ ins
      · rw [if_pos hc, List.filter_cons_of_pos (by simpa using hc), List.map_cons, ih s (by simpa using h)]
      · rw [if_neg hc, List.filter_cons_of_neg (by simpa using hc), ih s (by simpa using h)]

/-- **C57 (as far as it holds).** If every axis has a label, the output labels are distinct, and the input labels occur in the order they have in the output, then an accepted `expand` gives every
output axis whose label is an input label the size of the input axis with that label. -/
theorem C57_expand_labels_partial (var shape : Shape) (ins outs : List Char) (hv : var ≠ [1]) (hi : Labels ins) (ho : Labels outs) (hl : shape.length ≤ 10)
    (hlen : outs.length = shape.length) (hn : outs.Nodup) (hord : ins = outs.filter (· ∈ ins)) (h : expand var shape (some (arrow ins outs)) = .ok shape) :
    ∀ (i j : Nat) (c : Char), ins[i]? = some c → outs[j]? = some c → shape[j]? = var[i]? := by
  have hk := (C44_expand_iff_partial var shape ins outs hv hi ho hl).1.1 h
  rw [keep_sizes ins outs shape hlen] at hk
  have hfst : ((outs.zip shape).filter fun p => p.1 ∈ ins).map (·.1) = ins := by
    conv_rhs => rw [hord]
    have : outs = (outs.zip shape).map (·.1) := (List.map_fst_zip (by omega)).symm
    conv_rhs => rw [this, List.filter_map]
    rfl
  intro i j c hic hjc
  have h1 : (((outs.zip shape).filter fun p => p.1 ∈ ins))[i]?.map (·.1) = some c := by rw [← List.getElem?_map, hfst]; exact hic
  obtain ⟨p, hp, hpc⟩ := Option.map_eq_some_iff.1 h1
  have hmem := List.mem_of_getElem? hp
  have hz := (List.mem_filter.1 hmem).1
  obtain ⟨m, hm⟩ := List.mem_iff_getElem?.1 hz
  obtain ⟨h2, h3⟩ := List.getElem?_zip_eq_some.1 (show (outs.zip shape)[m]? = some (p.1, p.2) from hm)
  rw [hpc] at h2
  have hmj : m = j := by
    obtain ⟨hm1, hm2⟩ := List.getElem?_eq_some_iff.1 h2
    obtain ⟨hj1, hj2⟩ := List.getElem?_eq_some_iff.1 hjc
    exact (hn.getElem_inj_iff).1 (hm2.trans hj2.symm)
  rw [← hmj, h3, ← hk, List.getElem?_map, hp]
  rfl

/-- non-vacuity of C57 -/
example : "ac".toList = "abc".toList.filter (· ∈ "ac".toList) ∧ expand [2, 4] [2, 3, 4] (some (arrow "ac".toList "abc".toList)) = .ok [2, 3, 4] := by decide

/-- **C57 is false as stated**: `'ab->ba'` keeps the shape `(2, 3)`, so label `a` has size 2 in the input and 3 in the output; and axes without labels are accepted. -/
theorem C57_refuted : expand [2, 3] [2, 3] (some "ab->ba".toList) = .ok [2, 3] ∧ expand [3, 5] [3, 4, 5] (some "i->ij".toList) = .ok [3, 4, 5] := by
  constructor <;> decide

end Csdl.Axes
