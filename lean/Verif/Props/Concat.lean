import Verif.Spec.Concat
import Verif.Props.Indexing
/-!
# C22, C23: indexed assignment
-/
namespace Csdl

/-- The possible results of an assignment. -/
theorem setItem_cases (c : Concat) (key : Key) (var : Rhs) :
    (∃ e, setItem c key var = (c, some e)) ∨
    (∃ idx shp, tgtIndices c.shape key = .ok (idx, shp) ∧ shp = var.shape ∧ (∀ i ∈ idx, i < c.shape.size) ∧
      c.tgt.get? var.name = none ∧
      ((setItem c key var = ({ c with tgt := c.tgt.set var.name idx, checked := c.checked ++ idx }, some .value) ∧
          ∃ i ∈ idx, i ∈ c.checked) ∨
       (setItem c key var = ({ c with tgt := c.tgt.set var.name idx, checked := c.checked ++ idx, deps := some (c.deps.getD [] ++ [var.id]) }, none) ∧
          ∀ i ∈ idx, i ∉ c.checked))) := by
  unfold setItem
  cases ht : tgtIndices c.shape key with
  | error e => exact Or.inl ⟨e, rfl⟩
  | ok r =>
    obtain ⟨idx, shp⟩ := r
    dsimp only
    by_cases h1 : shp ≠ var.shape
    · rw [if_pos h1]; exact Or.inl ⟨_, rfl⟩
    rw [if_neg h1]
    by_cases h2 : (idx.any fun i => decide ((c.shape.size : Int) ≤ i)) = true
    · rw [if_pos h2]; exact Or.inl ⟨_, rfl⟩
    rw [if_neg h2]
    by_cases h3 : c.tgt.has var.name = true
    · rw [if_pos h3]; exact Or.inl ⟨_, rfl⟩
    rw [if_neg h3]
    refine Or.inr ⟨idx, shp, rfl, by simpa using h1, ?_, ?_, ?_⟩
    · intro i hi
      by_contra hlt
      apply h2
      rw [List.any_eq_true]
      exact ⟨i, hi, by simpa using hlt⟩
    · rw [Dict.has_iff] at h3
      exact Dict.get?_none_iff.2 h3
    · by_cases h4 : c.checked.filter (fun i => decide (i ∈ idx)) = []
      · rw [if_neg (by simpa using h4)]
        right
        refine ⟨?_, ?_⟩
        · cases c.deps <;> rfl
        · intro i hi hc
          rw [List.filter_eq_nil_iff] at h4
          exact h4 i hc (by simpa using hi)
      · rw [if_pos (by simpa using h4)]
        left
        refine ⟨rfl, ?_⟩
        obtain ⟨i, hi⟩ := List.exists_mem_of_ne_nil _ h4
        rw [List.mem_filter] at hi
        exact ⟨i, by simpa using hi.2, hi.1⟩

theorem setTuple_axis {shape full : Shape} {i : Nat} {l : List KeyElem} {ls : List (List Int)} (hd : shape = full.drop i)
    (h : setTuple shape l = .ok ls) :
    (∀ e ∈ l, e ≠ .other) ∧ ∃ nk, normalizeTuple full i l = .ok nk ∧ axisLists shape nk = .ok ls := by
  induction l generalizing shape i ls with
  | nil => rw [setTuple] at h; cases h; exact ⟨by simp, [], by rw [normalizeTuple], by cases shape <;> rw [axisLists]⟩
  | cons e l ih =>
    cases shape with
    | nil => cases e <;> rw [setTuple] at h <;> cases h
    | cons n shape =>
      have hn : full[i]? = some n := by
        have := congrArg (·[0]?) hd
        simpa using this.symm
      have hd' : shape = full.drop (i + 1) := by
        have := congrArg List.tail hd
        simpa using this
      cases e with
      | other => rw [setTuple] at h; cases h
      | slice a b s =>
        rw [setTuple] at h
        cases hl : sliceToList a b s n with
        | error e => simp only [hl] at h; cases h
        | ok L =>
          simp only [hl, ok_bind] at h
          cases hr : setTuple shape l with
          | error e => rw [hr] at h; cases h
          | ok r =>
            rw [hr, ok_bind] at h; cases h
            obtain ⟨h1, nk, h2, h3⟩ := ih hd' hr
            refine ⟨?_, sliceToTuple a b s n :: nk, ?_, ?_⟩
            · intro e he; rcases List.mem_cons.1 he with e' | e'
              · subst e'; simp
              · exact h1 e e'
            · rw [normalizeTuple]
              simp only [hn]
              rw [h2]; rfl
            · rw [sliceToTuple, axisLists, sliceToList_fill, hl, ok_bind, h3]; rfl
      | int k =>
        rw [setTuple] at h
        cases hl : sliceToList (some k) (some (k + 1)) none n with
        | error e => simp only [hl] at h; cases h
        | ok L =>
          simp only [hl, ok_bind] at h
          cases hr : setTuple shape l with
          | error e => rw [hr] at h; cases h
          | ok r =>
            rw [hr, ok_bind] at h; cases h
            obtain ⟨h1, nk, h2, h3⟩ := ih hd' hr
            have hk0 : 0 ≤ k := by
              obtain ⟨_, _, g3, g4, g5⟩ := (sliceToList_eq _ _ _ _ _).1 hl
              cases L with
              | nil => exact absurd rfl g4
              | cons x L =>
                have := (pyRange_getElem? (a := k) (b := effStop (some (k + 1)) n) (s := 1) (i := 0) (x := x) (by
                  have := g3.symm
                  simp only [Option.getD_some, Option.getD_none] at this
                  rw [this]; rfl)).1
                have hx := g5 x (by simp)
                simp at this
                omega
            refine ⟨?_, (k, k + 1, none) :: nk, ?_, ?_⟩
            · intro e he; rcases List.mem_cons.1 he with e' | e'
              · subst e'; simp
              · exact h1 e e'
            · rw [normalizeTuple]
              simp only [show ¬ k < 0 by omega, if_false]
              rw [h2]; rfl
            · rw [axisLists, hl, ok_bind, h3]; rfl

theorem tgt_tuple {shape : Shape} {l : List KeyElem} {idx : List Int} {shp : Shape}
    (h : tgtIndices shape (.tuple l) = .ok (idx, shp)) :
    Key.IntsAndSlices (.tuple l) ∧ ∃ nk ls src, normalizeKey shape (.tuple l) = .ok nk ∧ axisLists shape nk = .ok ls ∧
      srcIndices shape nk = .ok src ∧ idx = src.map Int.ofNat ∧ shp = ls.map List.length := by
  rw [tgtIndices] at h
  cases hs : setTuple shape l with
  | error e => rw [hs] at h; cases h
  | ok ls =>
    rw [hs, ok_bind] at h
    split at h
    · cases h
    · rename_i hne
      cases hm : (meshIJ ls).mapM (ravelMultiIndex shape) with
      | error e => rw [hm] at h; cases h
      | ok src =>
        rw [hm, ok_bind] at h; cases h
        obtain ⟨h1, nk, h2, h3⟩ := setTuple_axis (i := 0) (full := shape) (shape := shape) rfl hs
        refine ⟨h1, nk, ls, src, h2, h3, ?_, rfl, rfl⟩
        unfold srcIndices
        rw [show axisLists shape nk = .ok ls from h3, ok_bind, if_neg hne, hm, ok_bind, if_neg]
        · rfl
        · rw [List.any_eq_true]
          rintro ⟨x, hx, hx'⟩
          rw [mapM_ok'] at hm
          obtain ⟨ix, _, hix⟩ := forall₂_mem_right hm hx
          obtain ⟨g1, rfl⟩ := (ravelMulti_ok _ _ _).1 hix
          have := C21_ravel_lt _ _ (validIdx_toNat g1)
          simp at hx'
          omega

/-- a key that is a negative int -/
def Key.negInt : Key → Bool
  | .int k => decide (k < 0)
  | _ => false

theorem tgt_facts {shape : Shape} {key : Key} {idx : List Int} {shp : Shape} (h : tgtIndices shape key = .ok (idx, shp)) :
    idx.Nodup ∧ (key.negInt = false → ∀ i ∈ idx, 0 ≤ i) := by
  cases key with
  | other => rw [tgtIndices] at h; cases h
  | int k =>
    rw [tgtIndices] at h; cases h
    refine ⟨by simp, ?_⟩
    intro hk i hi
    simp [Key.negInt] at hk
    simp at hi; omega
  | tuple l =>
    obtain ⟨_, nk, ls, src, _, _, h3, rfl, _⟩ := tgt_tuple h
    obtain ⟨_, _, _, _, _, _, h6, _⟩ := src_facts h3
    refine ⟨(List.nodup_map_iff (fun a b hab => by simpa using hab)).2 h6, ?_⟩
    intro _ i hi
    obtain ⟨k, _, rfl⟩ := List.mem_map.1 hi
    simp
  | slice a b s =>
    cases shape with
    | nil => rw [tgtIndices] at h; cases h
    | cons n shape =>
      rw [tgtIndices] at h
      cases hl : sliceToList a b s n with
      | error e => rw [hl] at h; cases h
      | ok L =>
        rw [hl, ok_bind] at h; cases h
        obtain ⟨_, h2, h3, _, h5⟩ := (sliceToList_eq _ _ _ _ _).1 hl
        exact ⟨h3 ▸ nodup_pyRange h2, fun _ => h5⟩

/-- State of an output in terms of the accepted assignments. -/
structure ConcatInv (c0 : Concat) (acc : List (List Int × Rhs)) (c : Concat) : Prop where
  shape : c.shape = c0.shape
  sub : ∀ a ∈ acc, ∀ i ∈ a.1, i ∈ c.checked
  nodup : (acc.flatMap (·.1)).Nodup
  deps : c.deps.getD [] = acc.map (·.2.id)
  nodeps : c.deps = none ↔ acc = []
  names : (acc.map (·.2.name)).Nodup
  tgt : ∀ a ∈ acc, c.tgt.get? a.2.name = some a.1
  lt : ∀ a ∈ acc, ∀ i ∈ a.1, i < c0.shape.size
  shp : ∀ a ∈ acc, ∃ k, tgtIndices c0.shape k = .ok (a.1, a.2.shape)

theorem ConcatInv.step {c0 c : Concat} {acc : List (List Int × Rhs)} (hi : ConcatInv c0 acc c) (k : Key) (v : Rhs) :
    ConcatInv c0 (acc ++ entryOf (setItem c k v).2 (wanted c.shape k, v)) (setItem c k v).1 := by
  rcases setItem_cases c k v with ⟨e, he⟩ | ⟨idx, shp, ht, hsh, hlt, hnew, h⟩
  · rw [he]; simpa [entryOf] using hi
  · have hw : wanted c.shape k = idx := by rw [wanted, ht]
    have hne : ∀ a ∈ acc, a.2.name ≠ v.name := by
      intro a ha he
      have := hi.tgt a ha
      rw [he, hnew] at this; cases this
    rcases h with ⟨he, _⟩ | ⟨he, hfresh⟩
    · rw [he]
      simp only [entryOf, List.append_nil]
      exact ⟨hi.shape, fun a ha i hia => List.mem_append_left _ (hi.sub a ha i hia), hi.nodup, hi.deps, hi.nodeps, hi.names,
        fun a ha => by rw [Dict.get?_set, if_neg (fun e => hne a ha e.symm), hi.tgt a ha], hi.lt, hi.shp⟩
    · rw [he, hw, show entryOf (none : Option IErr) (idx, v) = [(idx, v)] from rfl]
      dsimp only
      refine ⟨hi.shape, ?_, ?_, ?_, ?_, ?_, ?_, ?_, ?_⟩
      · intro a ha i hia
        rcases List.mem_append.1 ha with ha | ha
        · exact List.mem_append_left _ (hi.sub a ha i hia)
        · rw [List.mem_singleton] at ha; subst ha; exact List.mem_append_right _ hia
      · rw [List.flatMap_append, List.nodup_append]
        refine ⟨hi.nodup, by simpa using (tgt_facts ht).1, ?_⟩
        intro i hi1 j hj
        rintro rfl
        obtain ⟨a, ha, hia⟩ := List.mem_flatMap.1 hi1
        simp at hj
        exact hfresh i hj (hi.sub a ha i hia)
      · rw [Option.getD_some, hi.deps, List.map_append]; rfl
      · simp
      · rw [List.map_append, List.nodup_append]
        refine ⟨hi.names, by simp, ?_⟩
        intro n hn m hm
        obtain ⟨a, ha, rfl⟩ := List.mem_map.1 hn
        simp at hm
        subst hm
        exact hne a ha
      · intro a ha
        rcases List.mem_append.1 ha with ha | ha
        · rw [Dict.get?_set, if_neg (fun e => hne a ha e.symm), hi.tgt a ha]
        · rw [List.mem_singleton] at ha; subst ha; rw [Dict.get?_set, if_pos rfl]
      · intro a ha
        rcases List.mem_append.1 ha with ha | ha
        · exact hi.lt a ha
        · rw [List.mem_singleton] at ha; subst ha; rw [← hi.shape]; exact hlt
      · intro a ha
        rcases List.mem_append.1 ha with ha | ha
        · exact hi.shp a ha
        · rw [List.mem_singleton] at ha; subst ha; rw [← hi.shape, ← hsh]; exact ⟨k, ht⟩

theorem runSets_inv {c0 c : Concat} {acc : List (List Int × Rhs)} (hi : ConcatInv c0 acc c) (ops : List (Key × Rhs)) :
    ConcatInv c0 (acc ++ accepted c ops) (runSets c ops) := by
  induction ops generalizing c acc with
  | nil => simpa [accepted, runSets] using hi
  | cons op ops ih =>
    obtain ⟨k, v⟩ := op
    rw [accepted, ← List.append_assoc]
    exact ih (hi.step k v)

theorem concatInv_fresh (shape : Shape) : ConcatInv (Concat.fresh shape) [] (Concat.fresh shape) :=
  ⟨rfl, by simp, by simp, rfl, by simp [Concat.fresh], by simp, by simp, by simp, by simp⟩

theorem inv_of_history (shape : Shape) (ops : List (Key × Rhs)) :
    ConcatInv (Concat.fresh shape) (accepted (Concat.fresh shape) ops) (runSets (Concat.fresh shape) ops) := by
  simpa using runSets_inv (concatInv_fresh shape) ops

theorem accepted_wanted (c : Concat) (ops : List (Key × Rhs)) : ∀ a ∈ accepted c ops,
    ∃ k, (k, a.2) ∈ ops ∧ tgtIndices c.shape k = .ok (a.1, a.2.shape) ∧ ∀ i ∈ a.1, i < c.shape.size := by
  induction ops generalizing c with
  | nil => simp [accepted]
  | cons op ops ih =>
    obtain ⟨k, v⟩ := op
    intro a ha
    have hshape : (setItem c k v).1.shape = c.shape := by
      rcases setItem_cases c k v with ⟨e, he⟩ | ⟨idx, shp, ht, hsh, hlt, hnew, ⟨he, _⟩ | ⟨he, _⟩⟩ <;> rw [he]
    rw [accepted, List.mem_append] at ha
    rcases ha with ha | ha
    · rcases setItem_cases c k v with ⟨e, he⟩ | ⟨idx, shp, ht, hsh, hlt, hnew, ⟨he, _⟩ | ⟨he, _⟩⟩
      · rw [he] at ha; simp [entryOf] at ha
      · rw [he] at ha; simp [entryOf] at ha
      · rw [he] at ha
        simp only [entryOf, List.mem_singleton] at ha
        subst ha
        have hw : wanted c.shape k = idx := by rw [wanted, ht]
        refine ⟨k, by simp, ?_, ?_⟩
        · rw [ht, hw, hsh]
        · rw [hw]; exact hlt
    · obtain ⟨k', h1, h2, h3⟩ := ih _ a ha
      rw [hshape] at h2 h3
      exact ⟨k', by simp [h1], h2, h3⟩

/-! ### C22 -/

/-- C22: in any history of assignments, accepted or rejected, the flat indices recorded for the accepted assignments are pairwise
different, across assignments and inside one assignment, and below the number of elements; each accepted assignment is
recorded under the name of its variable.  (`_partial`: the indices may be negative, see `C22_in_range_partial` and
`C22_negative_index`.) -/
theorem C22_disjoint_partial (shape : Shape) (ops : List (Key × Rhs)) :
    ((accepted (Concat.fresh shape) ops).flatMap (·.1)).Nodup ∧
    ∀ a ∈ accepted (Concat.fresh shape) ops,
      (runSets (Concat.fresh shape) ops).tgt.get? a.2.name = some a.1 ∧ ∀ i ∈ a.1, i < shape.size :=
  ⟨(inv_of_history shape ops).nodup, fun a ha => ⟨(inv_of_history shape ops).tgt a ha, (inv_of_history shape ops).lt a ha⟩⟩

/-- C22: if no key is a negative int, the accepted assignments write elements inside the output, each at most once. -/
theorem C22_in_range_partial (shape : Shape) (ops : List (Key × Rhs)) (hneg : ∀ kv ∈ ops, kv.1.negInt = false) :
    (∀ a ∈ accepted (Concat.fresh shape) ops, ∀ i ∈ a.1, 0 ≤ i ∧ i < shape.size) ∧
    ((accepted (Concat.fresh shape) ops).flatMap fun a => a.1.map (element shape.size)).Nodup := by
  have h : ∀ a ∈ accepted (Concat.fresh shape) ops, ∀ i ∈ a.1, 0 ≤ i ∧ i < shape.size := by
    intro a ha i hia
    obtain ⟨k, hk, ht, hlt⟩ := accepted_wanted _ _ a ha
    exact ⟨(tgt_facts ht).2 (hneg _ hk) i hia, hlt i hia⟩
  refine ⟨h, ?_⟩
  have e : ((accepted (Concat.fresh shape) ops).flatMap fun a => a.1.map (element shape.size)) =
      (accepted (Concat.fresh shape) ops).flatMap (·.1) := by
    apply List.flatMap_congr
    intro a ha
    conv_rhs => rw [← List.map_id a.1]
    apply List.map_congr_left
    intro i hia
    have := h a ha i hia
    simp only [element, id]
    rw [if_neg (by omega)]
  rw [e]
  exact (inv_of_history shape ops).nodup

/-- C22 as stated is false of the code: `x[1] = a; x[-1] = b` on an output of shape (2,) is accepted, and writes the last
element twice; the index -1 is recorded as it is. -/
theorem C22_negative_index :
    (accepted (Concat.fresh [2]) [(.int 1, ⟨0, "a".toList, [1]⟩), (.int (-1), ⟨1, "b".toList, [1]⟩)]).map (·.1) = [[1], [-1]] ∧
    element 2 1 = element 2 (-1) := by decide

/-- C22: the dependencies of the operation that computes the output are exactly the accepted variables, in order; there is no
operation before the first accepted assignment; the names at the time of the assignment are pairwise different. -/
theorem C22_dependencies (shape : Shape) (ops : List (Key × Rhs)) :
    (runSets (Concat.fresh shape) ops).deps.getD [] = (accepted (Concat.fresh shape) ops).map (·.2.id) ∧
    ((runSets (Concat.fresh shape) ops).deps = none ↔ accepted (Concat.fresh shape) ops = []) ∧
    ((accepted (Concat.fresh shape) ops).map (·.2.name)).Nodup :=
  ⟨(inv_of_history shape ops).deps, (inv_of_history shape ops).nodeps, (inv_of_history shape ops).names⟩

/-- C22: if no variable of the history is renamed, each accepted variable is a dependency exactly once. -/
theorem C22_dependencies_once_partial (shape : Shape) (ops : List (Key × Rhs))
    (hname : ∀ a ∈ ops, ∀ b ∈ ops, a.2.id = b.2.id → a.2.name = b.2.name) :
    ((runSets (Concat.fresh shape) ops).deps.getD []).Nodup := by
  rw [(inv_of_history shape ops).deps]
  have hn := (inv_of_history shape ops).names
  rw [List.Nodup, List.pairwise_map] at hn ⊢
  rw [List.pairwise_iff_forall_sublist] at hn ⊢
  intro a b hab he
  refine hn hab ?_
  obtain ⟨ka, hka, _⟩ := accepted_wanted _ _ a (hab.subset (by simp))
  obtain ⟨kb, hkb, _⟩ := accepted_wanted _ _ b (hab.subset (by simp))
  exact hname _ hka _ hkb he

/-- C22 as stated is false of the code: a variable that is renamed (by `register_output`) between two assignments is accepted
twice and is a dependency of the operation twice. -/
theorem C22_renamed_variable :
    (runSets (Concat.fresh [2]) [(.int 0, ⟨7, "0007".toList, [1]⟩), (.int 1, ⟨7, "y".toList, [1]⟩)]).deps = some [7, 7] := by decide

/-- C22, which elements: an accepted assignment with one key element per axis writes element `j` of the right-hand side to the
element NumPy assignment would write it to, and the right-hand side has the shape of the slice.  (A negative int alone is
excluded, see `C22_negative_index`; in a tuple it is rejected.) -/
theorem C22_writes_like_numpy (c : Concat) (key : Key) (v : Rhs) (hrank : key.elems.length = c.shape.length)
    (hneg : key.negInt = false) (h : (setItem c key v).2 = none) :
    ∃ sel, KeySelects c.shape key sel ∧ v.shape = sel.map List.length ∧ (wanted c.shape key).length = v.shape.size ∧
      ∀ j, ValidIdx v.shape j → ValidIdx c.shape (pick sel j) ∧
        (wanted c.shape key)[ravel v.shape j]? = some ((ravel c.shape (pick sel j) : Nat) : Int) := by
  obtain ⟨idx, shp, ht, hsh, hlt⟩ : ∃ idx shp, tgtIndices c.shape key = .ok (idx, shp) ∧ shp = v.shape ∧
      ∀ i ∈ idx, i < c.shape.size := by
    rcases setItem_cases c key v with ⟨e, he⟩ | ⟨idx, shp, ht, hsh, hlt, _⟩
    · rw [he] at h; cases h
    · exact ⟨idx, shp, ht, hsh, hlt⟩
  have hw : wanted c.shape key = idx := by rw [wanted, ht]
  rw [hw, ← hsh]
  clear hw h hsh
  have hnn := (tgt_facts ht).2 hneg
  generalize c.shape = shape at *
  -- reduce to tuple keys
  have tuple : ∀ l, tgtIndices shape (.tuple l) = .ok (idx, shp) →
      ∃ sel, KeySelects shape (.tuple l) sel ∧ shp = sel.map List.length ∧ idx.length = shp.size ∧
      ∀ j, ValidIdx shp j → ValidIdx shape (pick sel j) ∧ idx[ravel shp j]? = some ((ravel shape (pick sel j) : Nat) : Int) := by
    intro l hl
    obtain ⟨h1, nk, ls, src, h2, h3, h4, rfl, rfl⟩ := tgt_tuple hl
    obtain ⟨sel, g1, g2, _, g4, g5, g6, g7, g8⟩ := src_facts h4
    rw [h3] at g7; cases g7
    refine ⟨ls, key_selects h1 h2 h3 g8, rfl, by simpa using g4, ?_⟩
    intro j hj
    have := g5 j hj
    refine ⟨this.1, ?_⟩
    rw [List.getElem?_map, this.2]; rfl
  have one : ∀ (n : Nat) (L : List Int), (∀ i ∈ L, 0 ≤ i ∧ i < n) → L ≠ [] → ∀ e, setTuple [n] [e] = .ok [L] →
      tgtIndices [n] (.tuple [e]) = .ok (L, [L.length]) := by
    intro n L hL hne e he
    rw [tgtIndices, he, ok_bind, if_neg (by simp)]
    have hm : (meshIJ [L]).mapM (ravelMultiIndex [n]) = .ok (L.map Int.toNat) := by
      rw [mapM_ok']
      have : meshIJ [L] = L.map fun x => [x] := by
        simp only [meshIJ, List.map_cons, List.map_nil]
        clear hL hne he; induction L with
        | nil => rfl
        | cons x L ih => rw [List.flatMap_cons, ih]; rfl
      rw [this, List.forall₂_map_left_iff, List.forall₂_map_right_iff]
      refine List.forall₂_same.2 ?_
      intro x hx
      have := hL x hx
      rw [ravelMulti_ok]
      simp [inRange, ravel, this, Shape.size]
    rw [hm, ok_bind]
    simp only [List.map_map]
    have : L.map (Int.ofNat ∘ Int.toNat) = L := by
      conv_rhs => rw [← List.map_id L]
      apply List.map_congr_left
      intro x hx
      have := hL x hx
      simp
      omega
    rw [this]; rfl
  cases key with
  | other => rw [tgtIndices] at ht; cases ht
  | tuple l => exact tuple l ht
  | slice a b s =>
    simp only [Key.elems, List.length_singleton] at hrank
    match shape, hrank with
    | [n], _ =>
      have e : Shape.size [n] = n := by simp [Shape.size]
      rw [e] at hlt
      rw [tgtIndices] at ht
      cases hl : sliceToList a b s n with
      | error e => rw [hl] at ht; cases ht
      | ok L =>
        rw [hl, ok_bind] at ht; cases ht
        have hne := ((sliceToList_eq _ _ _ _ _).1 hl).2.2.2.1
        exact tuple [.slice a b s] (one n _ (fun i hi => ⟨hnn i hi, hlt i hi⟩) hne _ (by
          simp only [setTuple, hl]; rfl))
  | int k =>
    simp only [Key.elems, List.length_singleton] at hrank
    match shape, hrank with
    | [n], _ =>
      have e : Shape.size [n] = n := by simp [Shape.size]
      rw [e] at hlt
      rw [tgtIndices] at ht
      cases ht
      have hk := hnn k (by simp)
      have hkn := hlt k (by simp)
      exact tuple [.int k] (one n [k] (fun i hi => ⟨hnn i hi, hlt i hi⟩) (by simp) _ (by
        have : sliceToList (some k) (some (k + 1)) none n = .ok [k] := by
          rw [sliceToList_eq]
          refine ⟨fun t ht => by cases ht; omega, by simp, ?_, by simp, by simpa using hk⟩
          have : effStop (some (k + 1)) n = k + 1 := by simp only [effStop]; split <;> omega
          rw [this]
          simp [pyRange, List.range_succ]
        simp only [setTuple, this]; rfl))

/-- a history that meets the hypotheses: two accepted assignments, one rejected (shape) and one rejected (out of range) -/
example : accepted (Concat.fresh [2, 2]) [(.tuple [.int 0, .slice none none none], ⟨0, "a".toList, [1, 2]⟩),
      (.tuple [.int 1, .slice none none none], ⟨1, "b".toList, [2]⟩), (.tuple [.slice (some 1) none none, .int 1], ⟨2, "c".toList, [1, 1]⟩),
      (.tuple [.int 2, .int 0], ⟨3, "d".toList, [1, 1]⟩)] = [([0, 1], ⟨0, "a".toList, [1, 2]⟩), ([3], ⟨2, "c".toList, [1, 1]⟩)] := by rfl

/-! ### C23 -/

/-- The assignment was rejected only because it overlaps with elements already assigned. -/
def Overlaps (c : Concat) (key : Key) : Prop := ∃ i ∈ wanted c.shape key, i ∈ c.checked

/-- C23: a rejected assignment that does not overlap with elements already assigned leaves the object as it was. -/
theorem C23_rejected_no_effect_partial (c : Concat) (key : Key) (v : Rhs) (e : IErr) (h : (setItem c key v).2 = some e)
    (hno : ¬ Overlaps c key) : (setItem c key v).1 = c := by
  rcases setItem_cases c key v with ⟨e', he⟩ | ⟨idx, shp, ht, _, _, _, ⟨he, i, hi, hc⟩ | ⟨he, _⟩⟩
  · rw [he]
  · exact absurd ⟨i, by rw [wanted, ht]; exact hi, hc⟩ hno
  · rw [he] at h; cases h

/-- C23: any rejected assignment leaves the dependencies of the output as they were, and the entries of the accepted assignments. -/
theorem C23_dependencies_unchanged (c : Concat) (key : Key) (v : Rhs) (e : IErr) (h : (setItem c key v).2 = some e) :
    (setItem c key v).1.deps = c.deps ∧ ∀ n idx, c.tgt.get? n = some idx → (setItem c key v).1.tgt.get? n = some idx := by
  rcases setItem_cases c key v with ⟨e', he⟩ | ⟨idx, shp, ht, _, _, hnew, ⟨he, i, hi, hc⟩ | ⟨he, _⟩⟩
  · rw [he]; exact ⟨rfl, fun _ _ h => h⟩
  · rw [he]
    refine ⟨rfl, ?_⟩
    intro n idx' hn
    dsimp only
    rw [Dict.get?_set, if_neg, hn]
    rintro rfl
    rw [hnew] at hn; cases hn
  · rw [he] at h; cases h

/-- C23 as stated is false of the code: `x[0:2] = a` then `x[1:3] = b` (rejected, overlap); `x[2:3] = c`, which would have been
accepted before the rejected assignment, is now rejected; so is any other use of `b`; and `b` is recorded as written to elements 1 and 2
although it is not a dependency. -/
theorem C23_overlap_has_effect :
    ∃ (c : Concat) (k1 k2 : Key) (b d : Rhs) (c' : Concat),
      c = runSets (Concat.fresh [3]) [(.slice (some 0) (some 2) none, ⟨0, "a".toList, [2]⟩)] ∧
      setItem c k1 b = (c', some .value) ∧
      (setItem c k2 d).2 = none ∧ (setItem c' k2 d).2 = some .value ∧
      c'.tgt.get? "b".toList = some [1, 2] ∧ c'.deps = some [0] :=
  ⟨_, .slice (some 1) (some 3) none, .slice (some 2) (some 3) none, ⟨1, "b".toList, [2]⟩, ⟨2, "c".toList, [1]⟩, _, rfl, rfl, by decide, by decide,
    by decide, by decide⟩

/-- the hypotheses of C23_rejected_no_effect_partial are met by an assignment after an accepted one -/
example : (setItem (runSets (Concat.fresh [3]) [(.int 0, ⟨0, "a".toList, [1]⟩)]) (.int 5) ⟨1, "b".toList, [1]⟩).2 = some .value := by decide

end Csdl
