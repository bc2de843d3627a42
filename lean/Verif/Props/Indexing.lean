import Verif.Proofs.Indexing
import Mathlib.Algebra.BigOperators.Group.List.Basic
/-!
# C18-C21: indexing
-/
namespace Csdl

/-! ### C18 -/

/-- C18: if a slice is accepted and its indices are inside the axis, they are exactly the positions selected by Python/NumPy basic
slicing, in order; the list is not empty and no index is negative. -/
theorem C18_slice_agrees_with_python (start stop step : Option Int) (n : Nat) (L : List Int)
    (h : sliceToList start stop step n = .ok L) (hin : ∀ x ∈ L, x < n) :
    Selects n start stop (step.getD 1) L ∧ L ≠ [] ∧ ∀ x ∈ L, 0 ≤ x := by
  obtain ⟨hstop, hs, hL, hne, hpos⟩ := (sliceToList_eq _ _ _ _ _).1 h
  refine ⟨?_, hne, hpos⟩
  obtain ⟨hr1, hr2⟩ := pyRange_selects (a := start.getD 0) (b := effStop stop n) hs
  rw [← hL] at hr1 hr2
  have hlen : 0 < L.length := List.length_pos_iff.2 hne
  obtain ⟨x0, hx0⟩ : ∃ x, L[0]? = some x := ⟨_, List.getElem?_eq_getElem hlen⟩
  have hx0' := hr1 0 x0 hx0
  have hmem := List.mem_of_getElem? hx0
  have h0 := hpos x0 hmem
  have hn := hin x0 hmem
  have hA : x0 = start.getD 0 := by simpa using hx0'.1
  have hB := hx0'.2
  rw [hA] at h0 hn hB
  have hE : 0 ≤ effStop stop n := by
    cases stop with
    | none => simp [effStop]
    | some t => have := hstop t rfl; simp only [effStop]; split <;> omega
  by_cases hpos' : 0 < step.getD 1
  · -- positive step
    have hb : ∃ b, SliceBounds n start stop (step.getD 1) (start.getD 0) b ∧ (b = effStop stop n ∨ (b = n ∧ (n : Int) ≤ effStop stop n)) := by
      refine ⟨min (effStop stop n) n, ⟨?_, ?_⟩, ?_⟩
      · cases start with
        | none => simp [hpos']
        | some a => simp only [Option.getD_some] at h0 hn ⊢; simp only [hpos', if_true]; split <;> omega
      · cases stop with
        | none => simp [hpos', effStop]
        | some t =>
          have := hstop t rfl
          simp only [hpos', if_true, effStop]
          split <;> omega
      · omega
    obtain ⟨b, hb, hb'⟩ := hb
    refine ⟨_, b, hb, ?_, ?_⟩
    · intro i x hx
      have := hr1 i x hx
      refine ⟨this.1, ?_⟩
      have hx' := hin x (List.mem_of_getElem? hx)
      unfold Before at this ⊢
      rw [if_pos hpos'] at this ⊢
      omega
    · unfold Before at hr2 ⊢
      rw [if_pos hpos'] at hr2 ⊢
      omega
  · -- negative step
    have hb : SliceBounds n start stop (step.getD 1) (start.getD 0) (effStop stop n) := by
      unfold Before at hB
      rw [if_neg hpos'] at hB
      refine ⟨?_, ?_⟩
      · cases start with
        | none => simp only [Option.getD_none] at hB; omega
        | some a => simp only [Option.getD_some] at h0 hn ⊢; simp only [hpos', if_false]; split <;> omega
      · cases stop with
        | none => simp only [effStop] at hB; omega
        | some t =>
          have := hstop t rfl
          simp only [hpos', if_false, effStop] at hB hE ⊢
          split <;> split at hB <;> split at hE <;> omega
    exact ⟨_, _, hb, hr1, hr2⟩

/-- C18, accepted slices: with a positive step, a start that is missing or not negative, and an end that is missing or
between `-n` and `n`, every non-empty selection is accepted, and the selected positions are returned. -/
theorem C18_accepts (start stop step : Option Int) (n : Nat) (L : List Int) (hs : 0 < step.getD 1)
    (hstart : ∀ a, start = some a → 0 ≤ a ∧ a ≤ n) (hstop : ∀ t, stop = some t → -(n : Int) ≤ t ∧ t ≤ n)
    (hL : Selects n start stop (step.getD 1) L) (hne : L ≠ []) : sliceToList start stop step n = .ok L := by
  rw [sliceToList_eq]
  obtain ⟨a, b, hb, h1, h2⟩ := hL
  have ha : a = start.getD 0 := by
    rw [hb.start_eq]
    cases start with
    | none => simp [hs]
    | some x => have := hstart x rfl; simp only [hs, if_true, Option.getD_some]; split <;> omega
  have hb' : b = effStop stop n := by
    rw [hb.stop_eq]
    cases stop with
    | none => simp [hs, effStop]
    | some t => have := hstop t rfl; simp only [hs, if_true, effStop]; split <;> omega
  subst ha hb'
  refine ⟨fun t ht => by have := hstop t ht; omega, by omega, range_unique (by omega) h1 h2, hne, ?_⟩
  intro x hx
  obtain ⟨i, hi⟩ := List.mem_iff_getElem?.1 hx
  rw [(h1 i x hi).1]
  have : 0 ≤ start.getD 0 := by
    cases start with
    | none => simp
    | some x => exact (hstart x rfl).1
  have : 0 ≤ (i : Int) * step.getD 1 := Int.mul_nonneg (by omega) (by omega)
  omega

/-- C18: the Python selection exists and is unique, so the above determine the result. -/
theorem C18_selection_unique (n : Nat) (start stop : Option Int) (step : Int) (hs : step ≠ 0) :
    ∃ L, Selects n start stop step L ∧ ∀ L', Selects n start stop step L' → L' = L :=
  ⟨_, (selects_iff hs _).2 rfl, fun _ h => (selects_iff hs _).1 h⟩

example : sliceToList (some 1) (some (-1)) (some 2) 7 = .ok [1, 3, 5] := by decide
example : sliceToList (some 5) (some 1) (some (-2)) 7 = .ok [5, 3] := by decide
example : sliceToList (some (-2)) none none 7 = .error .value := by decide
example : sliceToList none (some 0) none 7 = .error .value := by decide

/-! ### C21 -/

theorem size_cons (n : Nat) (s : Shape) : Shape.size (n :: s) = n * Shape.size s := rfl

/-- C21: flat positions are in range. -/
theorem C21_ravel_lt (shape : Shape) (idx : List Nat) (h : ValidIdx shape idx) : ravel shape idx < shape.size := by
  induction h with
  | nil => simp [ravel, Shape.size]
  | @cons i n idx shape hi _ ih =>
    rw [ravel, size_cons]
    calc i * Shape.size shape + ravel shape idx < i * Shape.size shape + Shape.size shape := by omega
      _ = (i + 1) * Shape.size shape := by ring
      _ ≤ n * Shape.size shape := Nat.mul_le_mul_right _ hi

/-- C21: different valid multi-indices have different flat positions. -/
theorem C21_ravel_injective (shape : Shape) (a b : List Nat) (ha : ValidIdx shape a) (hb : ValidIdx shape b)
    (h : ravel shape a = ravel shape b) : a = b := by
  induction ha generalizing b with
  | nil => cases hb; rfl
  | @cons i n idx shape hi hidx ih =>
    cases hb with
    | @cons j _ jdx _ hj hjdx =>
      rw [ravel, ravel] at h
      have h1 := C21_ravel_lt _ _ hidx
      have h2 := C21_ravel_lt _ _ hjdx
      have hij : i = j := by
        rcases Nat.lt_trichotomy i j with hlt | heq | hgt
        · have : (i + 1) * Shape.size shape ≤ j * Shape.size shape := Nat.mul_le_mul_right _ hlt
          rw [Nat.add_mul] at this; omega
        · exact heq
        · have : (j + 1) * Shape.size shape ≤ i * Shape.size shape := Nat.mul_le_mul_right _ hgt
          rw [Nat.add_mul] at this; omega
      subst hij
      rw [ih jdx hjdx (by omega)]

/-- C21: every flat position is the position of a valid multi-index. -/
theorem C21_ravel_surjective (shape : Shape) (k : Nat) (hk : k < shape.size) : ∃ idx, ValidIdx shape idx ∧ ravel shape idx = k := by
  induction shape generalizing k with
  | nil => exact ⟨[], .nil, by simp [Shape.size] at hk; simp [ravel, hk]⟩
  | cons n shape ih =>
    rw [size_cons] at hk
    have hpos : 0 < Shape.size shape := by
      rcases Nat.eq_zero_or_pos (Shape.size shape) with h | h
      · rw [h] at hk; simp at hk
      · exact h
    obtain ⟨idx, hv, hr⟩ := ih (k % Shape.size shape) (Nat.mod_lt _ hpos)
    refine ⟨k / Shape.size shape :: idx, .cons ?_ hv, ?_⟩
    · exact Nat.div_lt_of_lt_mul (by rw [Nat.mul_comm]; exact hk)
    · rw [ravel, hr, Nat.mul_comm]; exact Nat.div_add_mod k _

/-- C21: row-major order is the lexicographic order of multi-indices: the position grows with the first differing axis. -/
theorem C21_ravel_row_major (shape : Shape) (n : Nat) (i j : Nat) (a b : List Nat) (ha : ValidIdx shape a)
    (hij : i < j) : ravel (n :: shape) (i :: a) < ravel (n :: shape) (j :: b) := by
  rw [ravel, ravel]
  have h1 := C21_ravel_lt _ _ ha
  have : (i + 1) * Shape.size shape ≤ j * Shape.size shape := Nat.mul_le_mul_right _ hij
  rw [Nat.add_mul] at this
  omega

example : ValidIdx [2, 3, 4] [1, 2, 3] ∧ ravel [2, 3, 4] [1, 2, 3] = 23 ∧ ravel [2, 3, 4] [1, 0, 2] = 14 :=
  ⟨.cons (by decide) (.cons (by decide) (.cons (by decide) .nil)), by decide, by decide⟩

/-! ### C19 -/

theorem inRange_iff (shape : Shape) (idx : List Int) :
    inRange shape idx = true ↔ List.Forall₂ (fun (i : Int) (n : Nat) => 0 ≤ i ∧ i < n) idx shape := by
  induction shape generalizing idx with
  | nil => cases idx <;> simp [inRange]
  | cons n shape ih =>
    cases idx with
    | nil => simp [inRange]
    | cons i idx => simp [inRange, ih]

theorem validIdx_toNat {shape : Shape} {idx : List Int} (h : inRange shape idx = true) : ValidIdx shape (idx.map Int.toNat) := by
  rw [inRange_iff] at h
  induction h with
  | nil => exact .nil
  | cons hi _ ih => exact .cons (by omega) ih

theorem ravelMulti_ok (shape : Shape) (idx : List Int) (k : Nat) :
    ravelMultiIndex shape idx = .ok k ↔ inRange shape idx = true ∧ k = ravel shape (idx.map Int.toNat) := by
  unfold ravelMultiIndex
  split
  · rename_i h
    constructor
    · intro h'; cases h'; exact ⟨h, rfl⟩
    · rintro ⟨_, rfl⟩; rfl
  · rename_i h
    constructor
    · intro h'; cases h'
    · rintro ⟨h', _⟩; exact absurd h' h

theorem mapM_ok' {α β ε : Type} (f : α → Except ε β) (l : List α) (r : List β) :
    l.mapM f = .ok r ↔ List.Forall₂ (fun a b => f a = .ok b) l r := by
  induction l generalizing r with
  | nil =>
    simp only [List.mapM_nil, List.forall₂_nil_left_iff]
    constructor
    · intro h; cases h; rfl
    · rintro rfl; rfl
  | cons a l ih =>
    rw [List.mapM_cons]
    cases hf : f a with
    | error e =>
      constructor
      · intro h; cases h
      · intro h; cases h with | cons h1 _ => rw [hf] at h1; cases h1
    | ok b =>
      cases hl : l.mapM f with
      | error e =>
        constructor
        · intro h; cases h
        · intro h; cases h with | cons _ h2 => rw [(ih _).2 h2] at hl; cases hl
      | ok r' =>
        constructor
        · intro h; cases h; exact .cons hf ((ih _).1 hl)
        · intro h
          cases h with
          | cons h1 h2 =>
            rw [hf] at h1; cases h1
            rw [(ih _).2 h2] at hl; cases hl
            rfl

theorem flatMap_getElem? {α β : Type} (f : α → List β) (m : Nat) : ∀ (l : List α), (∀ x ∈ l, (f x).length = m) →
    ∀ (i r : Nat) (x : α), l[i]? = some x → r < m → (l.flatMap f)[i * m + r]? = (f x)[r]?
  | [], _, i, r, x, h, _ => by simp at h
  | a :: l, hl, i, r, x, h, hr => by
    have ha : (f a).length = m := hl a (by simp)
    rw [List.flatMap_cons]
    cases i with
    | zero =>
      simp at h; subst h
      simp only [Nat.zero_mul, Nat.zero_add]
      rw [List.getElem?_append_left (by omega)]
    | succ i =>
      have h' : l[i]? = some x := by simpa using h
      rw [List.getElem?_append_right (by rw [ha, Nat.succ_mul]; omega), ha,
        show (i + 1) * m + r - m = i * m + r by rw [Nat.succ_mul]; omega]
      exact flatMap_getElem? f m l (fun y hy => hl y (by simp [hy])) i r x h' hr

theorem meshIJ_length (ls : List (List Int)) : (meshIJ ls).length = Shape.size (ls.map List.length) := by
  induction ls with
  | nil => rfl
  | cons l ls ih =>
    rw [meshIJ, List.map_cons, size_cons, ← ih]
    simp [List.length_flatMap, List.map_const']

theorem meshIJ_get (ls : List (List Int)) (j : List Nat) (hj : ValidIdx (ls.map List.length) j) :
    (meshIJ ls)[ravel (ls.map List.length) j]? = some (List.zipWith (fun L i => L.getD i 0) ls j) := by
  induction ls generalizing j with
  | nil => cases hj; rfl
  | cons l ls ih =>
    rw [List.map_cons] at hj
    cases hj with
    | @cons i _ idx _ hi hidx =>
      rw [List.map_cons, ravel, meshIJ]
      have hx : l[i]? = some (l.getD i 0) := by
        rw [List.getD_eq_getElem?_getD, List.getElem?_eq_getElem hi]; rfl
      have hlt := C21_ravel_lt _ _ hidx
      rw [flatMap_getElem? (fun x => (meshIJ ls).map (x :: ·)) _ l (fun x _ => by rw [List.length_map, meshIJ_length]) i _ _ hx hlt]
      rw [List.getElem?_map, ih idx hidx]
      rfl

theorem mem_meshIJ (ls : List (List Int)) (idx : List Int) : idx ∈ meshIJ ls ↔ List.Forall₂ (fun i L => i ∈ L) idx ls := by
  induction ls generalizing idx with
  | nil => simp [meshIJ]
  | cons l ls ih =>
    rw [meshIJ, List.mem_flatMap]
    constructor
    · rintro ⟨x, hx, h⟩
      obtain ⟨r, hr, rfl⟩ := List.mem_map.1 h
      exact .cons hx ((ih r).1 hr)
    · intro h
      cases h with
      | cons h1 h2 => exact ⟨_, h1, List.mem_map.2 ⟨_, (ih _).2 h2, rfl⟩⟩

theorem meshIJ_nodup (ls : List (List Int)) (h : ∀ l ∈ ls, l.Nodup) : (meshIJ ls).Nodup := by
  induction ls with
  | nil => simp [meshIJ]
  | cons l ls ih =>
    rw [meshIJ, List.nodup_flatMap]
    have ih := ih (fun l' hl' => h l' (by simp [hl']))
    refine ⟨fun x _ => ih.map (fun a b hab => by simpa using hab), ?_⟩
    have hl := h l (by simp)
    refine List.Pairwise.imp_of_mem ?_ hl
    intro a b _ _ hab
    simp only [Function.onFun, List.disjoint_left]
    intro y hy hy'
    obtain ⟨r, _, rfl⟩ := List.mem_map.1 hy
    obtain ⟨r', _, e⟩ := List.mem_map.1 hy'
    simp at e
    exact hab e.1.symm

theorem nodup_pyRange {a b s : Int} (hs : s ≠ 0) : (pyRange a b s).Nodup := by
  rw [List.nodup_iff_getElem?_ne_getElem?]
  intro i j hij hj e
  have h1 := pyRange_get (a := a) (b := b) (s := s) (i := i) (by omega)
  have h2 := pyRange_get (a := a) (b := b) (s := s) (i := j) hj
  rw [h1, h2] at e
  simp only [Option.some.injEq] at e
  have : ((i : Int) - j) * s = 0 := by linarith
  rcases Int.mul_eq_zero.1 this with h | h
  · omega
  · exact hs h

theorem axisLists_ok (shape : Shape) (key : NKey) (ls : List (List Int)) : axisLists shape key = .ok ls →
    key.length ≤ shape.length ∧
    List.Forall₂ (fun (nk : Nat × (Int × Int × Option Int)) L => sliceToList (some nk.2.1) (some nk.2.2.1) nk.2.2.2 nk.1 = .ok L)
      (shape.zip key) ls := by
  induction shape generalizing key ls with
  | nil =>
    intro h
    cases key with
    | nil => rw [axisLists] at h; cases h; exact ⟨le_rfl, .nil⟩
    | cons k key => rw [axisLists] at h; cases h
  | cons n shape ih =>
    intro h
    cases key with
    | nil => rw [axisLists] at h; cases h; exact ⟨by simp, .nil⟩
    | cons k key =>
      obtain ⟨a, b, s⟩ := k
      rw [axisLists] at h
      cases hl : sliceToList (some a) (some b) s n with
      | error e => rw [hl] at h; cases h
      | ok l =>
        rw [hl] at h
        cases hr : axisLists shape key with
        | error e => rw [hr] at h; cases h
        | ok r =>
          rw [hr] at h
          cases h
          obtain ⟨h1, h2⟩ := ih key r hr
          exact ⟨by simp; omega, .cons hl h2⟩

theorem ok_bind {ε α β : Type} (a : α) (f : α → Except ε β) : ((Except.ok a : Except ε α) >>= f) = f a := rfl

theorem srcIndices_ok {shape : Shape} {key : NKey} {src : List Nat} (h : srcIndices shape key = .ok src) :
    ∃ ls, axisLists shape key = .ok ls ∧ ls ≠ [] ∧
      List.Forall₂ (fun idx k => inRange shape idx = true ∧ k = ravel shape (idx.map Int.toNat)) (meshIJ ls) src := by
  unfold srcIndices at h
  cases hl : axisLists shape key with
  | error e => rw [hl] at h; cases h
  | ok ls =>
    rw [hl] at h
    rw [ok_bind] at h
    split at h
    · cases h
    · rename_i hne
      cases hm : (meshIJ ls).mapM (ravelMultiIndex shape) with
      | error e => rw [hm] at h; cases h
      | ok flat =>
        rw [hm] at h
        rw [ok_bind] at h
        split at h
        · cases h
        · cases h
          refine ⟨ls, rfl, hne, ?_⟩
          rw [mapM_ok'] at hm
          exact hm.imp (fun a b hab => (ravelMulti_ok _ _ _).1 hab)

/-- Facts about a successful computation of the flat indices. -/
theorem src_facts {shape : Shape} {key : NKey} {src : List Nat} (h : srcIndices shape key = .ok src) :
    ∃ sel, SelectsAll shape key sel ∧ npSliceShape shape key = sel.map List.length ∧ (∀ L ∈ sel, L ≠ [] ∧ L.Nodup) ∧
      src.length = Shape.size (sel.map List.length) ∧
      (∀ j, ValidIdx (sel.map List.length) j → ValidIdx shape (pick sel j) ∧
        src[ravel (sel.map List.length) j]? = some (ravel shape (pick sel j))) ∧
      src.Nodup ∧ axisLists shape key = .ok sel ∧ List.Forall₂ (fun (L : List Int) (n : Nat) => ∀ x ∈ L, x < n) sel shape := by
  obtain ⟨ls, hls, hne, hsrc⟩ := srcIndices_ok h
  obtain ⟨hlen, hax⟩ := axisLists_ok shape key ls hls
  have hnonempty : ∀ L ∈ ls, L ≠ [] ∧ L.Nodup := by
    intro L hL
    obtain ⟨nk, _, hnk⟩ := forall₂_mem_right hax hL
    obtain ⟨_, h2, h3, h4, _⟩ := (sliceToList_eq _ _ _ _ _).1 hnk
    exact ⟨h4, h3 ▸ nodup_pyRange h2⟩
  -- every member of the mesh is in range
  have hin : ∀ idx ∈ meshIJ ls, inRange shape idx = true := by
    intro idx hidx
    obtain ⟨k, _, hk⟩ := forall₂_mem_left hsrc hidx
    exact hk.1
  -- entries of each list are in range
  have hmem : ∃ idx, idx ∈ meshIJ ls := by
    have : List.Forall₂ (fun i L => i ∈ L) (ls.map fun L => L.headD 0) ls := by
      rw [List.forall₂_map_left_iff]
      refine List.forall₂_same.2 ?_
      intro L hL
      cases L with
      | nil => exact absurd rfl (hnonempty _ hL).1
      | cons a L => simp
    exact ⟨_, (mem_meshIJ ls _).2 this⟩
  obtain ⟨idx0, hidx0⟩ := hmem
  have hlen2 : ls.length = shape.length := by
    have h1 := ((inRange_iff _ _).1 (hin idx0 hidx0)).length_eq
    have h2 := ((mem_meshIJ _ _).1 hidx0).length_eq
    omega
  have hkl : key.length = shape.length := by
    have := hax.length_eq
    rw [List.length_zip] at this
    omega
  have hrange : List.Forall₂ (fun (L : List Int) (n : Nat) => ∀ x ∈ L, x < n) ls shape := by
    rw [List.forall₂_iff_get]
    refine ⟨hlen2, ?_⟩
    intro i hi hi' x hx
    have hf := (mem_meshIJ ls idx0).1 hidx0
    have hl0 := hf.length_eq
    -- replace entry i by x
    have hnew : List.Forall₂ (fun i L => i ∈ L) (idx0.set i x) ls := by
      rw [List.forall₂_iff_get] at hf ⊢
      refine ⟨by simp [hl0], ?_⟩
      intro k hk hk'
      simp only [List.get_eq_getElem, List.getElem_set]
      split
      · rename_i hik; subst hik; exact hx
      · have := hf.2 k (by simpa using hk) hk'
        simpa using this
    have hr := (inRange_iff _ _).1 (hin _ ((mem_meshIJ _ _).2 hnew))
    rw [List.forall₂_iff_get] at hr
    have := hr.2 i (by simp; omega) hi'
    simp at this
    exact this.2
  have hsel : SelectsAll shape key ls := by
    refine ⟨?_, hkl⟩
    rw [List.forall₂_iff_get] at hax hrange ⊢
    refine ⟨hax.1, ?_⟩
    intro i hi hi'
    have h1 := hax.2 i hi hi'
    have h2 := hrange.2 i hi' (by omega)
    have e : (shape.zip key).get ⟨i, hi⟩ = (shape[i]'(by omega), key[i]'(by rw [List.length_zip] at hi; omega)) := by simp
    rw [e] at h1 ⊢
    exact (C18_slice_agrees_with_python _ _ _ _ _ h1 (by simpa using h2)).1
  refine ⟨ls, hsel, ?_, hnonempty, ?_, ?_, ?_, hls, hrange⟩
  · -- output shape
    clear hsrc hin hidx0 idx0 h hls hne hnonempty hrange hlen
    obtain ⟨hs, _⟩ := hsel
    induction shape generalizing key ls with
    | nil =>
      cases key with
      | nil => cases hs; rfl
      | cons _ _ => simp at hkl
    | cons n shape ih =>
      cases key with
      | nil => simp at hkl
      | cons k key =>
        obtain ⟨a, b, s⟩ := k
        cases hs with
        | @cons _ L _ ls' h1 h2 =>
          cases hax with
          | cons h3 h4 =>
            have hk' : List.length key = shape.length := by simpa using hkl
            have ihh := ih (key := key) ls' h4 (by simpa using hlen2) hk' h2 hk'
            rw [npSliceShape, List.map_cons, ihh]
            have hs0 : s.getD 1 ≠ 0 := ((sliceToList_eq _ _ _ _ _).1 h3).2.1
            rw [(selects_iff hs0 L).1 h1]
  · rw [← meshIJ_length]; exact hsrc.length_eq.symm
  · intro j hj
    have hm := meshIJ_get ls j hj
    have hlt : ravel (ls.map List.length) j < src.length := by
      rw [← hsrc.length_eq, meshIJ_length]; exact C21_ravel_lt _ _ hj
    rw [List.forall₂_iff_get] at hsrc
    have := hsrc.2 (ravel (ls.map List.length) j) (by rw [hsrc.1]; exact hlt) hlt
    have e : (meshIJ ls).get ⟨ravel (ls.map List.length) j, by rw [hsrc.1]; exact hlt⟩ =
        List.zipWith (fun L i => L.getD i 0) ls j := by
      rw [List.getElem?_eq_getElem (by rw [hsrc.1]; exact hlt)] at hm
      simpa using hm
    rw [e] at this
    have hp : (List.zipWith (fun L i => L.getD i 0) ls j).map Int.toNat = pick ls j := by
      rw [pick, List.map_zipWith]
    rw [hp] at this
    refine ⟨?_, ?_⟩
    · rw [← hp]; exact validIdx_toNat this.1
    · rw [List.getElem?_eq_getElem hlt]; simpa using this.2
  · -- distinct
    have hnd := meshIJ_nodup ls (fun l hl => (hnonempty l hl).2)
    rw [List.nodup_iff_getElem?_ne_getElem?]
    intro i j hij hj e
    rw [List.forall₂_iff_get] at hsrc
    have hi' : i < src.length := by omega
    have h1 := hsrc.2 i (by rw [hsrc.1]; exact hi') hi'
    have h2 := hsrc.2 j (by rw [hsrc.1]; exact hj) hj
    rw [List.getElem?_eq_getElem hi', List.getElem?_eq_getElem hj] at e
    simp only [Option.some.injEq] at e
    simp only [List.get_eq_getElem] at h1 h2
    have heq : ravel shape (((meshIJ ls)[i]'(by rw [hsrc.1]; exact hi')).map Int.toNat) =
        ravel shape (((meshIJ ls)[j]'(by rw [hsrc.1]; exact hj)).map Int.toNat) := by
      rw [← h1.2, ← h2.2, e]
    have hh := C21_ravel_injective shape _ _ (validIdx_toNat h1.1) (validIdx_toNat h2.1) heq
    have hinj : ∀ (a b : List Int), inRange shape a = true → inRange shape b = true → a.map Int.toNat = b.map Int.toNat → a = b := by
      intro a b ha hb hab
      rw [inRange_iff] at ha hb
      apply List.ext_getElem?
      intro k
      have := congrArg (·[k]?) hab
      simp only [List.getElem?_map] at this
      cases hak : a[k]? with
      | none =>
        rw [hak] at this
        cases hbk : b[k]? with
        | none => rfl
        | some y => rw [hbk] at this; cases this
      | some x =>
        cases hbk : b[k]? with
        | none => rw [hak, hbk] at this; cases this
        | some y =>
          rw [hak, hbk] at this
          simp only [Option.map_some, Option.some.injEq] at this
          obtain ⟨_, _, hx⟩ := forall₂_mem_left ha (List.mem_of_getElem? hak)
          obtain ⟨_, _, hy⟩ := forall₂_mem_left hb (List.mem_of_getElem? hbk)
          congr 1; omega
    have := hinj _ _ h1.1 h2.1 hh
    rw [List.nodup_iff_getElem?_ne_getElem?] at hnd
    apply hnd i j hij (by rw [hsrc.1]; exact hj)
    rw [List.getElem?_eq_getElem (by rw [hsrc.1]; exact hi'), List.getElem?_eq_getElem (by rw [hsrc.1]; exact hj), this]

/-- Facts about the cache of indexed parts. -/
structure CacheInv (shape : Shape) (st : Decomp) : Prop where
  src : ∀ k p, st.pairs.get? k = some p → srcIndices shape k = .ok p.src ∧ p.shape = npSliceShape shape k ∧ p.id < st.next
  inj : ∀ k k' p p', st.pairs.get? k = some p → st.pairs.get? k' = some p' → p.id = p'.id → k = k'

theorem CacheInv.mono {shape : Shape} {st : Decomp} (h : CacheInv shape st) (n : Nat) :
    CacheInv shape { st with next := st.next + n } :=
  ⟨fun k p hk => by
    obtain ⟨h1, h2, h3⟩ := h.src k p hk
    exact ⟨h1, h2, by show p.id < st.next + n; omega⟩, h.inj⟩

theorem getItem_cases {shape : Shape} {st st' : Decomp} {key : Key} {p : Part} (h : getItem shape st key = .ok (p, st')) :
    ∃ nk, normalizeKey shape key = .ok nk ∧
      ((st.pairs.get? nk = some p ∧ st' = st) ∨
       (st.pairs.get? nk = none ∧ srcIndices shape nk = .ok p.src ∧ p.shape = npSliceShape shape nk ∧ p.id = st.next ∧
        st' = { pairs := st.pairs.set nk p, next := st.next + 1 })) := by
  unfold getItem at h
  cases hk : normalizeKey shape key with
  | error e => rw [hk] at h; cases h
  | ok nk =>
    rw [hk, ok_bind] at h
    refine ⟨nk, rfl, ?_⟩
    cases hg : st.pairs.get? nk with
    | some q => simp only [hg] at h; cases h; exact Or.inl ⟨rfl, rfl⟩
    | none =>
      simp only [hg] at h
      cases hs : srcIndices shape nk with
      | error e => rw [hs] at h; cases h
      | ok src => rw [hs] at h; cases h; exact Or.inr ⟨rfl, rfl, rfl, rfl, rfl⟩

theorem getItem_inv {shape : Shape} {st st' : Decomp} {key : Key} {p : Part} (hi : CacheInv shape st)
    (h : getItem shape st key = .ok (p, st')) : CacheInv shape st' := by
  obtain ⟨nk, _, ⟨_, rfl⟩ | ⟨h1, h2, h3, h4, rfl⟩⟩ := getItem_cases h
  · exact hi
  · have old : ∀ k q, st.pairs.get? k = some q → q.id < st.next := fun k q hk => (hi.src k q hk).2.2
    refine ⟨?_, ?_⟩
    · intro k q hk
      rw [Dict.get?_set] at hk
      split at hk
      · rename_i e; cases hk; subst e; exact ⟨h2, h3, by show p.id < st.next + 1; omega⟩
      · obtain ⟨a, b, c⟩ := hi.src k q hk
        exact ⟨a, b, by show q.id < st.next + 1; omega⟩
    · intro k k' q q' hk hk' he
      simp only [Dict.get?_set] at hk hk'
      split at hk <;> split at hk'
      · rename_i e e'; rw [← e, ← e']
      · cases hk; have := old _ _ hk'; omega
      · cases hk'; have := old _ _ hk; omega
      · exact hi.inj k k' q q' hk hk' he

theorem runGets_inv {shape : Shape} (ops : List (Key × Nat)) {st : Decomp} (hi : CacheInv shape st) :
    CacheInv shape (runGets shape st ops) := by
  induction ops generalizing st with
  | nil => exact hi
  | cons op ops ih =>
    obtain ⟨k, n⟩ := op
    rw [runGets]
    cases hg : getItem shape { st with next := st.next + n } k with
    | error e => exact ih (hi.mono n)
    | ok r => exact ih (getItem_inv (hi.mono n) hg)

theorem cacheInv_empty (shape : Shape) (n : Nat) : CacheInv shape { next := n } :=
  ⟨by simp [Dict.get?], by simp [Dict.get?]⟩

theorem getItem_keeps {shape : Shape} {st st' : Decomp} {key : Key} {p q : Part} {k : NKey} (h : getItem shape st key = .ok (p, st'))
    (hk : st.pairs.get? k = some q) : st'.pairs.get? k = some q := by
  obtain ⟨nk, _, ⟨_, rfl⟩ | ⟨h1, h2, h3, h4, rfl⟩⟩ := getItem_cases h
  · exact hk
  · rw [Dict.get?_set, if_neg, hk]
    rintro rfl
    rw [h1] at hk; cases hk

theorem runGets_keeps {shape : Shape} (ops : List (Key × Nat)) {st : Decomp} {k : NKey} {q : Part}
    (hk : st.pairs.get? k = some q) : (runGets shape st ops).pairs.get? k = some q := by
  induction ops generalizing st with
  | nil => exact hk
  | cons op ops ih =>
    obtain ⟨k', n⟩ := op
    rw [runGets]
    cases hg : getItem shape { st with next := st.next + n } k' with
    | error e => exact ih hk
    | ok r => exact ih (getItem_keeps hg hk)

theorem getItem_stored {shape : Shape} {st st' : Decomp} {key : Key} {p : Part} {nk : NKey}
    (hk : normalizeKey shape key = .ok nk) (h : getItem shape st key = .ok (p, st')) : st'.pairs.get? nk = some p := by
  obtain ⟨nk', hk', ⟨h1, rfl⟩ | ⟨h1, h2, h3, h4, rfl⟩⟩ := getItem_cases h
  · rw [hk] at hk'; cases hk'; exact h1
  · rw [hk] at hk'; cases hk'; simp [Dict.get?_set]

theorem sliceToList_fill (a b s : Option Int) (n : Nat) :
    sliceToList (some (a.getD 0)) (some (b.getD n)) s n = sliceToList a b s n := by
  have hn : ¬ ((n : Int) < 0) := by omega
  cases a <;> cases b <;> simp [sliceToList, sliceStop, hn]

theorem elemSelects_int {n : Nat} {k k0 : Int} {L : List Int} (h : sliceToList (some k) (some (k + 1)) none n = .ok L)
    (hin : ∀ x ∈ L, x < n) (hk : k = if k0 < 0 then (n : Int) + k0 else k0) : ElemSelects n (.int k0) L := by
  obtain ⟨h1, _, h3, h4, h5⟩ := (sliceToList_eq _ _ _ _ _).1 h
  have h0 : 0 ≤ k := by
    cases L with
    | nil => exact absurd rfl h4
    | cons x L =>
      have := (pyRange_getElem? (a := k) (b := effStop (some (k + 1)) n) (s := 1) (i := 0) (x := x) (by
        have := h3.symm
        simp only [Option.getD_some, Option.getD_none] at this
        rw [this]; rfl)).1
      have hx := h5 x (by simp)
      simp at this
      omega
  have he : effStop (some (k + 1)) n = k + 1 := by simp only [effStop]; split <;> omega
  have hL : L = [k] := by
    rw [h3, he]
    simp [pyRange, List.range_succ]
  subst hL
  have := hin k (by simp)
  simp only [ElemSelects]
  split at hk <;> rename_i hk' <;> simp only [hk', if_true, if_false] <;> exact ⟨by omega, by omega, by rw [hk]⟩

/-- the elements of a key that may be used: ints and slices (as the error message of csdl/lang/variable.py:355-358 says) -/
def Key.IntsAndSlices (key : Key) : Prop := ∀ e ∈ key.elems, e ≠ .other

theorem tuple_selects {shape : Shape} {i : Nat} {l : List KeyElem} {nk : NKey} {sel : List (List Int)}
    (hno : ∀ e ∈ l, e ≠ .other) (hk : normalizeTuple shape i l = .ok nk) (hax : axisLists (shape.drop i) nk = .ok sel)
    (hr : List.Forall₂ (fun (L : List Int) (n : Nat) => ∀ x ∈ L, x < n) sel (shape.drop i)) :
    l.length = (shape.drop i).length ∧
      List.Forall₂ (fun (ne : Nat × KeyElem) L => ElemSelects ne.1 ne.2 L) ((shape.drop i).zip l) sel := by
  induction l generalizing i nk sel with
  | nil =>
    rw [normalizeTuple] at hk; cases hk
    cases hd : shape.drop i with
    | nil => rw [hd] at hr hax; cases hr; exact ⟨rfl, .nil⟩
    | cons n r => rw [hd] at hr hax; rw [axisLists] at hax; cases hax; cases hr
  | cons e l ih =>
    have hno' : ∀ e ∈ l, e ≠ .other := fun e he => hno e (by simp [he])
    cases e with
    | other => exact absurd rfl (hno .other (by simp))
    | slice a b s =>
      rw [normalizeTuple] at hk
      cases hn : shape[i]? with
      | none => rw [hn] at hk; cases hk
      | some n =>
        simp only [hn] at hk
        rw [show (pure n : Except IErr Nat) = .ok n from rfl, ok_bind] at hk
        cases hrec : normalizeTuple shape (i + 1) l with
        | error e => rw [hrec] at hk; cases hk
        | ok r =>
          rw [hrec, ok_bind] at hk; cases hk
          have hd : shape.drop i = n :: shape.drop (i + 1) := by
            rw [List.drop_eq_getElem?_toList_append, hn]; rfl
          rw [hd] at hax hr ⊢
          rw [sliceToTuple, axisLists, sliceToList_fill] at hax
          cases hl : sliceToList a b s n with
          | error e => rw [hl] at hax; cases hax
          | ok L =>
            rw [hl, ok_bind] at hax
            cases hrest : axisLists (shape.drop (i + 1)) r with
            | error e => rw [hrest] at hax; cases hax
            | ok sel' =>
              rw [hrest, ok_bind] at hax; cases hax
              cases hr with
              | cons h1 h2 =>
                obtain ⟨g1, g2⟩ := ih hno' hrec hrest h2
                exact ⟨by simp only [List.length_cons, g1], .cons (C18_slice_agrees_with_python _ _ _ _ _ hl h1).1 g2⟩
    | int k =>
      rw [normalizeTuple] at hk
      have hstep : ∃ k', (k' = if k < 0 then ((shape[i]?.getD 0 : Nat) : Int) + k else k) ∧
          ∃ r, normalizeTuple shape (i + 1) l = .ok r ∧ nk = (k', k' + 1, none) :: r := by
        by_cases hk0 : k < 0
        · simp only [hk0, if_true] at hk ⊢
          cases hn : shape[i]? with
          | none => rw [hn] at hk; cases hk
          | some n =>
            rw [hn] at hk
            dsimp only at hk
            rw [show (pure ((n : Int) + k) : Except IErr Int) = .ok _ from rfl, ok_bind] at hk
            cases hrec : normalizeTuple shape (i + 1) l with
            | error e => rw [hrec] at hk; cases hk
            | ok r => rw [hrec, ok_bind] at hk; cases hk; exact ⟨_, rfl, r, rfl, rfl⟩
        · simp only [hk0, if_false] at hk ⊢
          rw [show (pure k : Except IErr Int) = .ok _ from rfl, ok_bind] at hk
          cases hrec : normalizeTuple shape (i + 1) l with
          | error e => rw [hrec] at hk; cases hk
          | ok r => rw [hrec, ok_bind] at hk; cases hk; exact ⟨_, rfl, r, rfl, rfl⟩
      obtain ⟨k', hk', r, hrec, rfl⟩ := hstep
      cases hd : shape.drop i with
      | nil => rw [hd] at hr hax; rw [axisLists] at hax; cases hax
      | cons n rest =>
        have hn : shape[i]? = some n := by
          have := congrArg (·[0]?) hd
          simpa using this
        have hrest' : rest = shape.drop (i + 1) := by
          have := congrArg List.tail hd
          simpa using this.symm
        subst hrest'
        rw [hd] at hax hr
        rw [axisLists] at hax
        cases hl : sliceToList (some k') (some (k' + 1)) none n with
        | error e => rw [hl] at hax; cases hax
        | ok L =>
          rw [hl, ok_bind] at hax
          cases hrest : axisLists (shape.drop (i + 1)) r with
          | error e => rw [hrest] at hax; cases hax
          | ok sel' =>
            rw [hrest, ok_bind] at hax; cases hax
            cases hr with
            | cons h1 h2 =>
              obtain ⟨g1, g2⟩ := ih hno' hrec hrest h2
              exact ⟨by simp only [List.length_cons, g1], .cons (elemSelects_int hl h1 (by rw [hk', hn]; rfl)) g2⟩

theorem key_selects {shape : Shape} {key : Key} {nk : NKey} {sel : List (List Int)} (hno : key.IntsAndSlices)
    (hk : normalizeKey shape key = .ok nk) (hax : axisLists shape nk = .ok sel)
    (hr : List.Forall₂ (fun (L : List Int) (n : Nat) => ∀ x ∈ L, x < n) sel shape) : KeySelects shape key sel := by
  cases key with
  | other => exact absurd rfl (hno .other (by simp [Key.elems]))
  | tuple l => exact tuple_selects (i := 0) hno hk hax hr
  | slice a b s =>
    simp only [normalizeKey] at hk
    cases hk
    cases shape with
    | nil => rw [axisLists] at hax; cases hax
    | cons n rest =>
      rw [sliceToTuple, axisLists] at hax
      cases rest with
      | cons m rest =>
        cases hl : sliceToList (some (a.getD 0)) (some (b.getD (Shape.size (n :: m :: rest)))) s n with
        | error e => rw [hl] at hax; cases hax
        | ok L => rw [hl, ok_bind, axisLists, ok_bind] at hax; cases hax; cases hr with | cons _ h => cases h
      | nil =>
        have e : Shape.size [n] = n := by simp [Shape.size]
        rw [e, sliceToList_fill] at hax
        cases hl : sliceToList a b s n with
        | error e => rw [hl] at hax; cases hax
        | ok L =>
          rw [hl, ok_bind, axisLists, ok_bind] at hax; cases hax
          cases hr with
          | cons h1 _ => exact ⟨rfl, .cons (C18_slice_agrees_with_python _ _ _ _ _ hl h1).1 .nil⟩
  | int k =>
    have hn : ∃ k', (k' = if k < 0 then (shape.size : Int) + k else k) ∧ nk = [(k', k' + 1, none)] := by
      simp only [normalizeKey] at hk
      split at hk <;> rename_i h0 <;> simp only [h0, if_true, if_false] <;> cases hk <;> exact ⟨_, rfl, rfl⟩
    obtain ⟨k', hk', rfl⟩ := hn
    cases shape with
    | nil => rw [axisLists] at hax; cases hax
    | cons n rest =>
      rw [axisLists] at hax
      cases hl : sliceToList (some k') (some (k' + 1)) none n with
      | error e => rw [hl] at hax; cases hax
      | ok L =>
        rw [hl, ok_bind, axisLists, ok_bind] at hax; cases hax
        cases hr with
        | cons h1 h2 =>
          cases h2
          have e : Shape.size [n] = n := by simp [Shape.size]
          rw [e] at hk'
          exact ⟨rfl, .cons (elemSelects_int hl h1 hk') .nil⟩

/-- C19: if `x[key]` succeeds, after any history `ops` of indexing of `x`, for a key made of ints and slices, there is one key element
per axis, and with `sel` the positions NumPy basic indexing selects on each axis: the result has the shape of the NumPy slice
(an int keeps its axis, with one element); the number of source indices is the
number of its elements; the source index of element `j` (a multi-index of the result, in row-major order) is the
row-major position in `x` of the element that NumPy slicing puts at `j`; and the source indices are pairwise different
and in range. -/
theorem C19_getitem_source_indices_partial (shape : Shape) (ops : List (Key × Nat)) (n0 : Nat) (st' : Decomp) (key : Key)
    (p : Part) (hno : key.IntsAndSlices) (h : getItem shape (runGets shape { next := n0 } ops) key = .ok (p, st')) :
    ∃ sel, KeySelects shape key sel ∧ p.shape = sel.map List.length ∧ p.src.length = p.shape.size ∧
      (∀ j, ValidIdx p.shape j → ValidIdx shape (pick sel j) ∧ p.src[ravel p.shape j]? = some (ravel shape (pick sel j))) ∧
      p.src.Nodup ∧ ∀ k ∈ p.src, k < shape.size := by
  obtain ⟨nk, hk, _⟩ := getItem_cases h
  have hinv := getItem_inv (runGets_inv ops (cacheInv_empty shape n0)) h
  obtain ⟨hs, hsh, _⟩ := hinv.src nk p (getItem_stored hk h)
  obtain ⟨sel, h1, h2, _, h4, h5, h6, h7, h8⟩ := src_facts hs
  rw [← hsh] at h2
  rw [← h2] at h4 h5
  refine ⟨sel, key_selects hno hk h7 h8, h2, h4, h5, h6, ?_⟩
  intro k hk
  obtain ⟨i, hi⟩ := List.mem_iff_getElem?.1 hk
  have hi' : i < p.src.length := by
    rcases List.getElem?_eq_some_iff.1 hi with ⟨h, _⟩; exact h
  rw [h4] at hi'
  obtain ⟨j, hj, rfl⟩ := C21_ravel_surjective _ i hi'
  have := h5 j hj
  rw [this.2] at hi
  cases hi
  exact C21_ravel_lt _ _ this.1

/-- C19 as stated is false of the code for keys with other elements: `x[..., -1, 0]` of a variable of shape (5, 3) is not rejected, and
returns element (2, 0), at position 6; NumPy returns element (4, 0), at position 12.  The elements of a tuple key that are neither ints nor slices
are dropped, and negative ints are then counted from the end of the wrong axis. -/
theorem C19_ellipsis_wrong_element :
    ∃ st', getItem [5, 3] {} (.tuple [.other, .int (-1), .int 0]) = .ok (⟨0, [1, 1], [6]⟩, st') :=
  ⟨⟨[([(2, 3, none), (0, 1, none)], ⟨0, [1, 1], [6]⟩)], 1⟩, rfl⟩

/-- C19, keys of one-dimensional variables: `x[k]` for `0 ≤ k < n` and `x[k - n]` denote the slice `k:k+1`; `x[a:b:s]` denotes the
slice `a:b:s` (missing bounds are the ends of the axis). -/
theorem C19_one_dimensional_keys (n : Nat) :
    (∀ k : Int, 0 ≤ k → normalizeKey [n] (.int k) = .ok [(k, k + 1, none)]) ∧
    (∀ k : Int, k < 0 → normalizeKey [n] (.int k) = .ok [((n : Int) + k, (n : Int) + k + 1, none)]) ∧
    (∀ a b s, normalizeKey [n] (.slice a b s) = .ok [(a.getD 0, b.getD n, s)]) := by
  refine ⟨?_, ?_, ?_⟩
  · intro k hk; simp only [normalizeKey]; rw [if_neg (by omega)]
  · intro k hk; simp only [normalizeKey]; rw [if_pos hk]; simp [Shape.size]
  · intro a b s; simp [normalizeKey, sliceToTuple, Shape.size]

/-- `x[1, ::2]` of an array of shape (2, 5): elements 5, 7, 9, shape (1, 3) -/
example : ∃ st', getItem [2, 5] (runGets [2, 5] {} []) (.tuple [.int 1, .slice none none (some 2)]) = .ok (⟨0, [1, 3], [5, 7, 9]⟩, st') :=
  ⟨⟨[([(1, 2, none), (0, 5, some 2)], ⟨0, [1, 3], [5, 7, 9]⟩)], 1⟩, rfl⟩

/-! ### C20 -/

/-- C20: after `x[k1]` returned `p`, and any further history of indexing of `x` (with any other objects created in between), `x[k2]`
for a key with the same normal form returns the same object, with the same shape and indices. -/
theorem C20_same_key_same_object (shape : Shape) (st st1 : Decomp) (k1 k2 : Key) (p : Part)
    (h : getItem shape st k1 = .ok (p, st1)) (ops : List (Key × Nat)) (hk : normalizeKey shape k2 = normalizeKey shape k1) :
    getItem shape (runGets shape st1 ops) k2 = .ok (p, runGets shape st1 ops) := by
  obtain ⟨nk, hnk, _⟩ := getItem_cases h
  have := runGets_keeps (shape := shape) ops (getItem_stored hnk h)
  unfold getItem
  rw [hk, hnk, ok_bind]
  simp only [this]
  rfl

/-- C20: keys with different normal forms return different objects. -/
theorem C20_different_keys_different_objects (shape : Shape) (before ops : List (Key × Nat)) (n0 : Nat) (st1 st2 : Decomp)
    (k1 k2 : Key) (p1 p2 : Part) (h1 : getItem shape (runGets shape { next := n0 } before) k1 = .ok (p1, st1))
    (h2 : getItem shape (runGets shape st1 ops) k2 = .ok (p2, st2)) (hk : normalizeKey shape k1 ≠ normalizeKey shape k2) :
    p1.id ≠ p2.id := by
  have i1 := getItem_inv (runGets_inv before (cacheInv_empty shape n0)) h1
  have i2 := getItem_inv (runGets_inv ops i1) h2
  obtain ⟨nk1, e1, _⟩ := getItem_cases h1
  obtain ⟨nk2, e2, _⟩ := getItem_cases h2
  intro he
  have s1 := getItem_keeps h2 (runGets_keeps ops (getItem_stored e1 h1))
  have s2 := getItem_stored e2 h2
  have := i2.inj nk1 nk2 p1 p2 s1 s2 he
  rw [e1, e2, this] at hk
  exact hk rfl

/-- C20: equivalent keys: `x[:]`, `x[0:]`, `x[:n]` and `x[0:n]`; `x[-1]` and `x[n-1]`; inside tuples likewise. -/
theorem C20_equivalent_keys (n : Nat) (shape : Shape) (l : List KeyElem) (s : Option Int) :
    normalizeKey [n] (.slice none none s) = normalizeKey [n] (.slice (some 0) (some n) s) ∧
    (0 < n → normalizeKey [n] (.int (-1)) = normalizeKey [n] (.int ((n : Int) - 1))) ∧
    normalizeKey (n :: shape) (.tuple (.slice none none s :: l)) = normalizeKey (n :: shape) (.tuple (.slice (some 0) (some n) s :: l)) ∧
    (0 < n → normalizeKey (n :: shape) (.tuple (.int (-1) :: l)) = normalizeKey (n :: shape) (.tuple (.int ((n : Int) - 1) :: l))) := by
  refine ⟨by simp [normalizeKey, sliceToTuple, Shape.size], ?_, by simp [normalizeKey, normalizeTuple, sliceToTuple], ?_⟩
  · intro hn
    rw [(C19_one_dimensional_keys n).2.1 (-1) (by omega), (C19_one_dimensional_keys n).1 ((n : Int) - 1) (by omega)]
    rfl
  · intro hn
    simp only [normalizeKey, normalizeTuple]
    have : ¬ ((n : Int) - 1 < 0) := by omega
    simp only [this, if_false, show (-1 : Int) < 0 by omega, if_true, List.getElem?_cons_zero]
    rfl

/-- C20 as stated is false of the code: `x[0:3]` and `x[0:3:1]` denote the same slice but return different objects; so do `x[0:-1]`
and `x[0:2]`. -/
theorem C20_same_slice_two_objects :
    (Selects 3 (some 0) (some 3) 1 [0, 1, 2] ∧ ∃ p1 st1 p2 st2,
      getItem [3] {} (.slice (some 0) (some 3) none) = .ok (p1, st1) ∧
      getItem [3] st1 (.slice (some 0) (some 3) (some 1)) = .ok (p2, st2) ∧ p1.src = p2.src ∧ p1.id ≠ p2.id) ∧
    (∃ p1 st1 p2 st2, getItem [3] {} (.slice (some 0) (some (-1)) none) = .ok (p1, st1) ∧
      getItem [3] st1 (.slice (some 0) (some 2) none) = .ok (p2, st2) ∧ p1.src = p2.src ∧ p1.id ≠ p2.id) := by
  refine ⟨⟨(selects_iff (by decide) _).2 (by decide), ?_⟩, ?_⟩
  · exact ⟨⟨0, [3], [0, 1, 2]⟩, _, ⟨1, [3], [0, 1, 2]⟩, _, rfl, rfl, rfl, by decide⟩
  · exact ⟨⟨0, [2], [0, 1]⟩, _, ⟨1, [2], [0, 1]⟩, _, rfl, rfl, rfl, by decide⟩

/-- the hypotheses are met: `x[:]` then `x[0:3]` on a variable of shape (3,), other objects being created in between -/
example : ∃ p st1, getItem [3] {} (.slice none none none) = .ok (p, st1) ∧
    normalizeKey [3] (.slice (some 0) (some 3) none) = normalizeKey [3] (.slice none none none) ∧
    getItem [3] (runGets [3] st1 [(.int 1, 7), (.int 9, 2)]) (.slice (some 0) (some 3) none) =
      .ok (p, runGets [3] st1 [(.int 1, 7), (.int 9, 2)]) := by
  refine ⟨⟨0, [3], [0, 1, 2]⟩, _, rfl, by decide, ?_⟩
  exact C20_same_key_same_object [3] {} _ (.slice none none none) _ _ rfl _ (by decide)

end Csdl
