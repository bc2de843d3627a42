import Verif.Props.Axes
/-
C45 (output shapes of einsum), C58 (what einsum does not check).
-/
namespace Csdl.Axes
open Csdl

theorem flatten_singletons {α β : Type} (f : α → β) (l : List α) : (l.map fun a => [f a]).flatten = l.map f := by
  induction l with
  | nil => rfl
  | cons a l ih => simp [ih]

theorem axisSize_ok (size : Char → Nat) (reps : List (List Char)) (c : Char) (h : ∃ r ∈ reps, c ∈ r) : axisSize reps (reps.map (·.map size)) c = .ok [size c] := by
  unfold axisSize
  cases hf : reps.findIdx? (fun r => decide (c ∈ r)) with
  | none =>
    obtain ⟨r, hr, hc⟩ := h
    have := List.findIdx?_eq_none_iff.1 hf r hr
    simp [hc] at this
  | some i =>
    simp only
    obtain ⟨hlt, hp, _⟩ := List.findIdx?_eq_some_iff_getElem.1 hf
    have hc : c ∈ reps[i] := by simpa using hp
    have hx : reps[i].idxOf c < reps[i].length := List.idxOf_lt_length_iff.2 hc
    rw [tupleGet_ok (a := reps[i].map size) (by simp [hlt])]
    have hgd : reps.getD i [] = reps[i] := by simp [List.getD_eq_getElem?_getD, hlt]
    rw [hgd]
    change (do let n ← tupleGet (reps[i].map size) (reps[i].idxOf c); pure [n]) = _
    rw [tupleGet_ok (a := size c) (by rw [List.getElem?_map, List.getElem?_eq_getElem hx, List.getElem_idxOf]; rfl)]
    rfl

/-- the shape for consistent operands -/
theorem einsumShape_ok (size : Char → Nat) (reps : List (List Char)) (out : List Char) (shapes : List Shape) (hc : Consistent size reps shapes)
    (ho : ∀ c ∈ out, ∃ r ∈ reps, c ∈ r) : einsumShape (reps ++ [out]) shapes = .ok (if out = [] then [1] else out.map size) := by
  unfold einsumShape
  rw [show (reps ++ [out]).getLastD [] = out by simp [List.getLastD_eq_getLast?], List.dropLast_concat, hc]
  by_cases h : out = []
  · rw [if_pos h, if_pos h]
  · rw [if_neg h, if_neg h, mapM_ok (g := fun c => [size c]) fun c hc => axisSize_ok size reps c (ho c hc)]
    change Except.ok _ = _
    rw [flatten_singletons]

theorem toList_alpha {r : List Char} (hr : ∀ c ∈ r, c.isAlpha) : ∀ acc rep rest, toListGo acc rep (r ++ rest) = toListGo acc (rep ++ r) rest := by
  induction r with
  | nil => intro acc rep rest; simp
  | cons c r ih =>
    intro acc rep rest
    rw [List.cons_append, toListGo, if_pos (hr c (by simp)), ih fun d hd => hr d (by simp [hd])]
    simp

theorem toList_commas (out : List Char) (ho : ∀ c ∈ out, c.isAlpha) : ∀ (reps : List (List Char)), reps ≠ [] → (∀ r ∈ reps, ∀ c ∈ r, c.isAlpha) → ∀ acc,
    toListGo acc [] (commas reps ++ ['-', '>'] ++ out) = acc ++ reps ++ [out] := by
  intro reps
  induction reps with
  | nil => intro h; exact absurd rfl h
  | cons r rs ih =>
    intro _ hr acc
    cases rs with
    | nil =>
      rw [commas, List.append_assoc, toList_alpha (hr r (by simp)), List.nil_append, List.cons_append, toListGo]
      rw [if_neg (by decide), if_pos (by decide), List.cons_append, toListGo, if_neg (by decide), if_neg (by decide), List.nil_append]
      have := toList_alpha ho (acc ++ [r]) [] []
      rw [List.append_nil] at this
      rw [this]
      simp [toListGo]
    | cons r' rs =>
      rw [commas, List.append_assoc, List.append_assoc, toList_alpha (hr r (by simp)), List.nil_append, List.cons_append, toListGo]
      rw [if_neg (by decide), if_pos (by decide), ← List.append_assoc, ih (by simp) (fun q hq => hr q (by simp [hq]))]
      simp
      · simp

theorem toList_filter (s : List Char) : ∀ acc rep, toListGo acc rep (s.filter (· ≠ ' ')) = toListGo acc rep s := by
  induction s with
  | nil => intro acc rep; rfl
  | cons c s ih =>
    intro acc rep
    by_cases hc : c = ' '
    · subst hc
      rw [List.filter_cons_of_neg (by decide), ih]
      conv_rhs => rw [toListGo, if_neg (by decide), if_neg (by decide)]
    · rw [List.filter_cons_of_pos (by simpa using hc), toListGo, toListGo]
      simp only [ih]

/-- **C45.** `einsum` with subscripts `a,b,…->o` (letters; spaces are ignored), operands that agree on the size of every label, and an output whose labels occur in the operands: the output has, for each output label in order,
the size of that label, and shape `(1,)` if there is no output label. -/
theorem C45_einsum_shape (size : Char → Nat) (reps : List (List Char)) (out : List Char) (shapes : List Shape) (subscripts : List Char)
    (hs : subscripts.filter (· ≠ ' ') = commas reps ++ ['-', '>'] ++ out) (hne : reps ≠ [])
    (hr : ∀ r ∈ reps, ∀ c ∈ r, c.isAlpha) (ho : ∀ c ∈ out, ∃ r ∈ reps, c ∈ r) (hc : Consistent size reps shapes) :
    einsum shapes subscripts = .ok (if out = [] then [1] else out.map size) := by
  have hne' : subscripts ≠ [] := by rintro rfl; simp at hs
  unfold einsum
  rw [subscriptsToList, if_neg hne']
  change einsumShape (toListGo [] [] subscripts) shapes = _
  rw [← toList_filter, hs, toList_commas out (fun c h => by obtain ⟨r, h1, h2⟩ := ho c h; exact hr r h1 c h2) reps hne hr]
  exact einsumShape_ok size reps out shapes hc ho

/-- non-vacuity of C45: `'ij, jk -> ik'`. -/
example : ("ij, jk -> ik".toList.filter (· ≠ ' ') = commas ["ij".toList, "jk".toList] ++ ['-', '>'] ++ "ik".toList) ∧
    Consistent (fun c => if c = 'i' then 2 else if c = 'j' then 3 else 4) ["ij".toList, "jk".toList] [[2, 3], [3, 4]] ∧ einsum [[2, 3], [3, 4]] "ij, jk -> ik".toList = .ok [2, 4] := by
  refine ⟨by decide, rfl, by decide⟩

/-! ### the tuple interface -/

section
variable {α : Type} [DecidableEq α]

/-- the axis names after more names are seen -/
def addNames (ks l : List α) : List α := l.foldl (fun ks a => if a ∈ ks then ks else ks ++ [a]) ks

theorem addNames_prefix (l : List α) : ∀ ks : List α, ks <+: addNames ks l := by
  induction l with
  | nil => intro ks; exact List.prefix_rfl
  | cons a l ih =>
    intro ks
    rw [addNames, List.foldl_cons]
    refine List.IsPrefix.trans ?_ (ih _)
    split
    · exact List.prefix_rfl
    · exact List.prefix_append _ _

theorem addNames_append (l m : List α) (ks : List α) : addNames ks (l ++ m) = addNames (addNames ks l) m := by simp [addNames, List.foldl_append]

/-- the names and letters fit together -/
structure Inv (st : NameSt α) : Prop where
  nodup : (Dict.keys st.axisMap).Nodup
  letters : st.axisMap.map (·.2) ++ st.unused = alphabet26

/-- the letter of an axis name -/
def NameSt.letter (st : NameSt α) (a : α) : Char := (st.axisMap.get? a).getD 'a'

/-- what the loop over axis names does -/
structure Named (st : NameSt α) (l : List α) (st' : NameSt α) (cs : List Char) : Prop where
  inv : Inv st'
  keys : Dict.keys st'.axisMap = addNames (Dict.keys st.axisMap) l
  old : ∀ a ∈ Dict.keys st.axisMap, st'.axisMap.get? a = st.axisMap.get? a
  chars : cs = l.map st'.letter

theorem keys_le {st : NameSt α} (h : Inv st) : (Dict.keys st.axisMap).length ≤ 26 := by
  have := congrArg List.length h.letters
  rw [List.length_append, List.length_map] at this
  have h26 : alphabet26.length = 26 := rfl
  have hk : (Dict.keys st.axisMap).length = st.axisMap.length := by simp [Dict.keys]
  omega

theorem nameAxis_spec (st : NameSt α) (a : α) (hi : Inv st) :
    (nameAxis st a = .error .index ∧ 26 < (addNames (Dict.keys st.axisMap) [a]).length) ∨ ∃ st' c, nameAxis st a = .ok (st', c) ∧ Named st [a] st' [c] := by
  unfold nameAxis
  cases hg : st.axisMap.get? a with
  | some c =>
    right
    refine ⟨st, c, rfl, hi, ?_, fun _ _ => rfl, ?_⟩
    · simp [addNames, Dict.get?_mem_keys hg]
    · simp [NameSt.letter, hg]
  | none =>
    have hnm := Dict.get?_none_iff.1 hg
    simp only
    cases hu : st.unused with
    | nil =>
      left
      refine ⟨rfl, ?_⟩
      have hlen := congrArg List.length hi.letters
      rw [hu, List.append_nil, List.length_map] at hlen
      have h26 : alphabet26.length = 26 := rfl
      rw [addNames, List.foldl_cons, List.foldl_nil, if_neg hnm, List.length_append, List.length_singleton, Dict.keys, List.length_map]
      omega
    | cons c u =>
      right
      have hset := Dict.set_append_of_notin hnm c
      refine ⟨_, c, rfl, ⟨Dict.nodup_set hi.nodup a c, ?_⟩, ?_, ?_, ?_⟩
      · have := hi.letters
        rw [hu] at this
        simp only [hset, List.map_append, List.map_cons, List.map_nil, List.append_assoc, List.singleton_append]
        exact this
      · simp [hset, Dict.keys, addNames]
        intro x hx
        exact absurd (List.mem_map.2 ⟨(a, x), hx, rfl⟩) hnm
      · intro b hb
        simp only
        rw [Dict.get?_set, if_neg]
        rintro rfl
        exact hnm hb
      · simp [NameSt.letter, Dict.get?_set]

theorem named_trans {st st1 st2 : NameSt α} {l m : List α} {cs ds : List Char} (h1 : Named st l st1 cs) (h2 : Named st1 m st2 ds) : Named st (l ++ m) st2 (cs ++ ds) := by
  have hmem : ∀ a ∈ l, a ∈ Dict.keys st1.axisMap := by
    intro a ha
    rw [h1.keys]
    have : ∀ (l ks : List α), a ∈ l → a ∈ addNames ks l := by
      intro l
      induction l with
      | nil => intro ks h; cases h
      | cons b l ih =>
        intro ks h
        rw [addNames, List.foldl_cons]
        rcases List.mem_cons.1 h with rfl | h
        · refine (addNames_prefix l _).subset ?_
          split
          · assumption
          · simp
        · exact ih _ h
    exact this l _ ha
  have hold : ∀ a ∈ Dict.keys st.axisMap, a ∈ Dict.keys st1.axisMap := by
    intro a ha; rw [h1.keys]; exact (addNames_prefix l _).subset ha
  refine ⟨h2.inv, by rw [h2.keys, h1.keys, addNames_append], fun a ha => by rw [h2.old a (hold a ha), h1.old a ha], ?_⟩
  rw [List.map_append, h2.chars, h1.chars]
  congr 1
  apply List.map_congr_left
  intro a ha
  rw [NameSt.letter, NameSt.letter, h2.old a (hmem a ha)]

theorem nameAxes_spec (l : List α) : ∀ st : NameSt α, Inv st →
    (nameAxes st l = .error .index ∧ 26 < (addNames (Dict.keys st.axisMap) l).length) ∨ ∃ st' cs, nameAxes st l = .ok (st', cs) ∧ Named st l st' cs := by
  induction l with
  | nil => intro st hi; right; exact ⟨st, [], rfl, hi, rfl, fun _ _ => rfl, rfl⟩
  | cons a l ih =>
    intro st hi
    rw [nameAxes]
    rcases nameAxis_spec st a hi with ⟨he, hlen⟩ | ⟨st1, c, he, hn⟩
    · left
      rw [he]
      refine ⟨rfl, Nat.lt_of_lt_of_le hlen ?_⟩
      have := (addNames_prefix l (addNames (Dict.keys st.axisMap) [a])).length_le
      rw [← addNames_append] at this
      exact this
    · rw [he]
      change (do let q ← nameAxes st1 l; pure (q.1, c :: q.2)) = _ ∧ _ ∨ ∃ st' cs, (do let q ← nameAxes st1 l; pure (q.1, c :: q.2)) = _ ∧ _
      rcases ih st1 hn.inv with ⟨he2, hlen⟩ | ⟨st2, cs, he2, hn2⟩
      · left
        rw [he2]
        refine ⟨rfl, ?_⟩
        rw [hn.keys, ← addNames_append] at hlen
        exact hlen
      · right
        rw [he2]
        exact ⟨st2, c :: cs, rfl, named_trans hn hn2⟩

theorem nameInputs_spec (ts : List (List α)) : ∀ st : NameSt α, Inv st →
    (nameInputs st ts = .error .index ∧ 26 < (addNames (Dict.keys st.axisMap) ts.flatten).length) ∨
    ∃ st' reps, nameInputs st ts = .ok (st', reps) ∧ Named st ts.flatten st' reps.flatten ∧ reps = ts.map (·.map st'.letter) := by
  induction ts with
  | nil => intro st hi; right; exact ⟨st, [], rfl, ⟨hi, rfl, fun _ _ => rfl, rfl⟩, rfl⟩
  | cons t ts ih =>
    intro st hi
    rw [nameInputs]
    rcases nameAxes_spec t st hi with ⟨he, hlen⟩ | ⟨st1, cs, he, hn⟩
    · left
      rw [he]
      refine ⟨rfl, Nat.lt_of_lt_of_le hlen ?_⟩
      rw [List.flatten_cons, addNames_append]
      exact (addNames_prefix _ _).length_le
    · rw [he]
      change (do let q ← nameInputs st1 ts; pure (q.1, cs :: q.2)) = _ ∧ _ ∨ ∃ st' rs, (do let q ← nameInputs st1 ts; pure (q.1, cs :: q.2)) = _ ∧ _
      rcases ih st1 hn.inv with ⟨he2, hlen⟩ | ⟨st2, rs, he2, hn2, hrs⟩
      · left
        rw [he2]
        refine ⟨rfl, ?_⟩
        rw [List.flatten_cons, addNames_append, ← hn.keys]
        exact hlen
      · right
        rw [he2]
        have htr := named_trans hn hn2
        refine ⟨st2, cs :: rs, rfl, htr, ?_⟩
        rw [List.map_cons, ← hrs]
        congr 1
        have h1 := htr.chars
        rw [List.map_append] at h1
        have hl : cs.length = (t.map st2.letter).length := by rw [hn.chars]; simp
        exact (List.append_inj h1 hl).1

theorem inv_init : Inv ({} : NameSt α) := ⟨List.nodup_nil, rfl⟩

theorem letter_inj {st : NameSt α} (hi : Inv st) {a b : α} (ha : a ∈ Dict.keys st.axisMap) (hb : b ∈ Dict.keys st.axisMap) (h : st.letter a = st.letter b) : a = b := by
  obtain ⟨x, hx⟩ := Dict.mem_keys_get? ha
  obtain ⟨y, hy⟩ := Dict.mem_keys_get? hb
  simp only [NameSt.letter, hx, hy, Option.getD_some] at h
  subst h
  have hv : (st.axisMap.map (·.2)).Nodup := by
    have : (st.axisMap.map (·.2)).Sublist alphabet26 := by rw [← hi.letters]; exact List.sublist_append_left _ _
    exact (by decide : alphabet26.Nodup).sublist this
  have h1 := Dict.get?_some_mem hx
  have h2 := Dict.get?_some_mem hy
  have := List.inj_on_of_nodup_map hv h1 h2 rfl
  exact congrArg Prod.fst this

theorem letter_alpha {st : NameSt α} (hi : Inv st) {a : α} (ha : a ∈ Dict.keys st.axisMap) : (st.letter a).isAlpha = true := by
  obtain ⟨x, hx⟩ := Dict.mem_keys_get? ha
  simp only [NameSt.letter, hx, Option.getD_some]
  have h1 : x ∈ alphabet26 := by
    rw [← hi.letters]
    exact List.mem_append_left _ (List.mem_map.2 ⟨_, Dict.get?_some_mem hx, rfl⟩)
  exact (by decide : ∀ x ∈ alphabet26, x.isAlpha = true) x h1

theorem flatten_commas (reps : List (List Char)) : ((reps.map (· ++ [','])).flatten).dropLast = commas reps := by
  induction reps with
  | nil => rfl
  | cons r rs ih =>
    cases rs with
    | nil => simp [commas, List.dropLast_concat]
    | cons r' rs =>
      rw [commas, ← ih, List.map_cons, List.flatten_cons, List.dropLast_append_of_ne_nil (by simp)]
      · simp
      · simp

/-- **C45.** The tuple interface: axis names are mapped to letters, different names to different letters and equal names to the same letter; the list is that of the letters, and the string is
`a,b,…->o`, which the other interface reads as the same list.  Here the last tuple is the output; its names occur in the operands; there are at most 26 names. -/
theorem C45_new_api_letters (ins : List (List α)) (out : List α) (ho : ∀ a ∈ out, a ∈ ins.flatten) (h26 : (distinct ins.flatten).length ≤ 26) :
    ∃ φ : α → Char, (∀ a ∈ ins.flatten, ∀ b ∈ ins.flatten, φ a = φ b → a = b) ∧
      newApiSubscripts (ins ++ [out]) false = .ok (ins.map (·.map φ) ++ [out.map φ], commas (ins.map (·.map φ)) ++ ['-', '>'] ++ out.map φ) ∧
      newApiSubscripts ins true = .ok (ins.map (·.map φ) ++ [[]], commas (ins.map (·.map φ)) ++ ['-', '>']) ∧
      (ins ≠ [] → subscriptsToList (commas (ins.map (·.map φ)) ++ ['-', '>'] ++ out.map φ) = .ok (ins.map (·.map φ) ++ [out.map φ])) := by
  rcases nameInputs_spec ins {} inv_init with ⟨_, hlen⟩ | ⟨st, reps, he, hn, hreps⟩
  · exact absurd hlen (by have : (addNames (Dict.keys ({} : NameSt α).axisMap) ins.flatten).length ≤ 26 := h26; omega)
  · have hk : ∀ a ∈ ins.flatten, a ∈ Dict.keys st.axisMap := by
      intro a ha
      have := hn.chars
      rw [hn.keys]
      have gen : ∀ (l ks : List α), a ∈ l → a ∈ addNames ks l := by
        intro l
        induction l with
        | nil => intro ks h; cases h
        | cons b l ih =>
          intro ks h
          rw [addNames, List.foldl_cons]
          rcases List.mem_cons.1 h with rfl | h
          · refine (addNames_prefix l _).subset ?_
            split
            · assumption
            · simp
          · exact ih _ h
      exact gen _ _ ha
    have hlk : ∀ a ∈ out, lookupAxis st a = .ok (st.letter a) := by
      intro a ha
      obtain ⟨c, hc⟩ := Dict.mem_keys_get? (hk a (ho a ha))
      rw [lookupAxis, hc, NameSt.letter, hc]; rfl
    refine ⟨st.letter, fun a ha b hb h => letter_inj hn.inv (hk a ha) (hk b hb) h, ?_, ?_, ?_⟩
    · unfold newApiSubscripts
      rw [if_neg (by simp)]
      simp only [Bool.false_eq_true, if_false, List.length_append, List.length_singleton, Nat.add_sub_cancel, List.take_left', he, if_true]
      change (do let o ← ((ins ++ [out]).getLastD []).mapM (lookupAxis st); pure (reps ++ [o], ((reps.map (· ++ [','])).flatten).dropLast ++ ['-', '>'] ++ o)) = _
      rw [show (ins ++ [out]).getLastD [] = out by simp [List.getLastD_eq_getLast?], mapM_ok hlk, flatten_commas, hreps]
      rfl
    · unfold newApiSubscripts
      rw [if_neg (by simp)]
      simp only [if_true, List.take_length, he, if_neg (Nat.succ_ne_self _).symm]
      change Except.ok (reps ++ [[]], ((reps.map (· ++ [','])).flatten).dropLast ++ ['-', '>'] ++ []) = _
      rw [flatten_commas, hreps, List.append_nil]
    · intro hne
      rw [subscriptsToList, if_neg (by simp), toList_commas]
      · rfl
      · intro c hc
        obtain ⟨a, ha, rfl⟩ := List.mem_map.1 hc
        exact letter_alpha hn.inv (hk a (ho a ha))
      · simpa using hne
      · intro r hr c hc
        obtain ⟨t, ht, rfl⟩ := List.mem_map.1 hr
        obtain ⟨a, ha, rfl⟩ := List.mem_map.1 hc
        exact letter_alpha hn.inv (hk a (List.mem_flatten.2 ⟨t, ht, ha⟩))

theorem exists_size (l : List α) (φ : α → Char) (hφ : ∀ a ∈ l, ∀ b ∈ l, φ a = φ b → a = b) (size : α → Nat) : ∃ sz : Char → Nat, ∀ a ∈ l, sz (φ a) = size a := by
  refine ⟨fun c => match l.find? (fun a => φ a = c) with | some a => size a | none => 0, ?_⟩
  intro a ha
  cases hf : l.find? (fun b => decide (φ b = φ a)) with
  | none => have := List.find?_eq_none.1 hf a ha; simp at this
  | some b =>
    simp only [hf]
    have h1 := List.find?_some hf
    have h2 := List.mem_of_find?_eq_some hf
    rw [hφ b h2 a ha (by simpa using h1)]

/-- **C45.** The tuple interface gives, for operands that agree on the size of every axis name, the shape with the sizes of the output names; without output tuple the shape `(1,)`. -/
theorem C45_new_api_shape (size : α → Nat) (ins : List (List α)) (out : List α) (ho : ∀ a ∈ out, a ∈ ins.flatten) (h26 : (distinct ins.flatten).length ≤ 26) :
    einsumNewApi (ins.map (·.map size)) (ins ++ [out]) = .ok (if out = [] then [1] else out.map size) ∧
    einsumNewApi (ins.map (·.map size)) ins = .ok [1] := by
  obtain ⟨φ, hφ, h1, h2, _⟩ := C45_new_api_letters ins out ho h26
  obtain ⟨sz, hsz⟩ := exists_size ins.flatten φ hφ size
  have hshapes : Consistent sz (ins.map (·.map φ)) (ins.map (·.map size)) := by
    rw [Consistent, List.map_map]
    apply List.map_congr_left
    intro t ht
    simp only [Function.comp, List.map_map]
    apply List.map_congr_left
    intro a ha
    exact (hsz a (List.mem_flatten.2 ⟨t, ht, ha⟩)).symm
  constructor
  · unfold einsumNewApi
    rw [show decide ((ins.map (·.map size)).length = (ins ++ [out]).length) = false by simp, h1]
    change einsumShape (ins.map (·.map φ) ++ [out.map φ]) (ins.map (·.map size)) = _
    rw [einsumShape_ok sz (ins.map (·.map φ)) (out.map φ) _ hshapes]
    · simp only [List.map_eq_nil_iff]
      split
      · rfl
      · rw [List.map_map]
        congr 1
        exact List.map_congr_left fun a ha => hsz a (ho a ha)
    · intro c hc
      obtain ⟨a, ha, rfl⟩ := List.mem_map.1 hc
      obtain ⟨t, ht, hat⟩ := List.mem_flatten.1 (ho a ha)
      exact ⟨t.map φ, List.mem_map_of_mem ht, List.mem_map_of_mem hat⟩
  · unfold einsumNewApi
    rw [show decide ((ins.map (·.map size)).length = ins.length) = true by simp, h2]
    change einsumShape (ins.map (·.map φ) ++ [[]]) (ins.map (·.map size)) = _
    exact einsumShape_ok sz (ins.map (·.map φ)) [] _ hshapes (by simp)

theorem mapM_error {β γ : Type} {f : β → Except XErr γ} {e : XErr} (l : List β) (hf : ∀ a ∈ l, (∃ c, f a = .ok c) ∨ f a = .error e) (h : ∃ a ∈ l, f a = .error e) : l.mapM f = .error e := by
  induction l with
  | nil => obtain ⟨a, h, _⟩ := h; cases h
  | cons b l ih =>
    rw [List.mapM_cons]
    rcases hf b (List.mem_cons_self ..) with ⟨c, hc⟩ | hc
    · obtain ⟨a, h1, h2⟩ := h
      rcases List.mem_cons.1 h1 with rfl | h1
      · rw [hc] at h2; cases h2
      · rw [hc, ih (fun a ha => hf a (List.mem_cons_of_mem _ ha)) ⟨a, h1, h2⟩]; rfl
    · rw [hc]; rfl

/-- **C45.** The tuple interface rejects an output with an axis name that no operand has (KeyError). -/
theorem C45_new_api_unknown_axis (shapes : List Shape) (ins : List (List α)) (out : List α) (hl : shapes.length = ins.length) (a : α) (ha : a ∈ out) (hn : ∀ t ∈ ins, a ∉ t)
    (h26 : (distinct ins.flatten).length ≤ 26) : einsumNewApi shapes (ins ++ [out]) = .error .key := by
  rcases nameInputs_spec ins {} inv_init with ⟨_, hlen⟩ | ⟨st, reps, he, hs, hreps⟩
  · exact absurd hlen (by have : (addNames (Dict.keys ({} : NameSt α).axisMap) ins.flatten).length ≤ 26 := h26; omega)
  · have hk : a ∉ Dict.keys st.axisMap := by
      rw [hs.keys]
      have gen : ∀ (l ks : List α), a ∉ l → a ∉ ks → a ∉ addNames ks l := by
        intro l
        induction l with
        | nil => intro ks _ h; exact h
        | cons b l ih =>
          intro ks h1 h2
          rw [addNames, List.foldl_cons]
          refine ih _ (fun h => h1 (List.mem_cons_of_mem _ h)) ?_
          split
          · exact h2
          · intro h
            rcases List.mem_append.1 h with h | h
            · exact h2 h
            · exact h1 (List.mem_singleton.1 h ▸ List.mem_cons_self ..)
      refine gen _ _ (fun h => ?_) (fun h => by cases h)
      obtain ⟨t, h1, h2⟩ := List.mem_flatten.1 h
      exact hn t h1 h2
    have hf : ∀ b ∈ out, (∃ c, lookupAxis st b = .ok c) ∨ lookupAxis st b = .error .key := by
      intro b _
      rw [lookupAxis]
      cases st.axisMap.get? b with
      | none => exact .inr rfl
      | some c => exact .inl ⟨c, rfl⟩
    have hae : lookupAxis st a = .error .key := by
      rw [lookupAxis]
      cases h : st.axisMap.get? a with
      | none => rfl
      | some c => exact absurd (Dict.get?_mem_keys h) hk
    unfold einsumNewApi newApiSubscripts
    rw [show decide (shapes.length = (ins ++ [out]).length) = false by simp [hl], if_neg (by simp)]
    simp only [Bool.false_eq_true, if_false, List.length_append, List.length_singleton, Nat.add_sub_cancel, List.take_left', he, if_true]
    change (do let r ← (do let o ← ((ins ++ [out]).getLastD []).mapM (lookupAxis st); pure (reps ++ [o], ((reps.map (· ++ [','])).flatten).dropLast ++ ['-', '>'] ++ o)); einsumShape r.1 shapes) = _
    rw [show (ins ++ [out]).getLastD [] = out by simp [List.getLastD_eq_getLast?], mapM_error out hf ⟨a, ha, hae⟩]
    rfl

/-- **C45.** With more than 26 axis names the tuple interface raises IndexError. -/
theorem C45_new_api_limit (ins : List (List α)) (out : List α) (h26 : 26 < (distinct ins.flatten).length) :
    newApiSubscripts (ins ++ [out]) false = .error .index := by
  rcases nameInputs_spec ins {} inv_init with ⟨he, hlen⟩ | ⟨st, reps, he, hn, hreps⟩
  · unfold newApiSubscripts
    rw [if_neg (by simp)]
    simp only [Bool.false_eq_true, if_false, List.length_append, List.length_singleton, Nat.add_sub_cancel, List.take_left', he]
    rfl
  · have := keys_le hn.inv
    rw [hn.keys] at this
    exact absurd this (by have : 26 < (addNames (Dict.keys ({} : NameSt α).axisMap) ins.flatten).length := h26; omega)

end

/-- non-vacuity of C45_new_api: a matrix product with rows 7, columns 8 and inner axis 9. -/
example : (distinct [7, 9, 9, 8] : List Nat).length ≤ 26 ∧ (newApiSubscripts [[7, 9], [9, 8], [7, 8]] false).toOption = some (["ab".toList, "bc".toList, "ac".toList], "ab,bc->ac".toList) ∧
    (einsumNewApi [[2, 3], [3, 4]] [[7, 9], [9, 8], [7, 8]]).toOption = some [2, 4] := by decide

/-- non-vacuity of C45_new_api_unknown_axis: the output axis 5 is no axis of an operand -/
example : ([[2, 3]] : List Shape).length = [[7, 9]].length ∧ 5 ∈ [7, 5] ∧ (∀ t ∈ [[7, 9]], 5 ∉ t) ∧ (distinct ([[7, 9]] : List (List Nat)).flatten).length ≤ 26 ∧
    (match einsumNewApi [[2, 3]] [[7, 9], [7, 5]] with | .error .key => true | _ => false) = true := by decide

/-! ### C58 -/

/-- **C58 (as far as it holds).** If every output label occurs in some operand then an accepted `einsum` has as many axes as output labels. -/
theorem C58_rank_partial (reps : List (List Char)) (out : List Char) (shapes : List Shape) (ho : ∀ c ∈ out, ∃ r ∈ reps, c ∈ r) (hne : out ≠ []) (sh : Shape)
    (h : einsumShape (reps ++ [out]) shapes = .ok sh) : sh.length = out.length := by
  unfold einsumShape at h
  rw [show (reps ++ [out]).getLastD [] = out by simp [List.getLastD_eq_getLast?], List.dropLast_concat, if_neg hne] at h
  have key : ∀ (o : List Char), (∀ c ∈ o, ∃ r ∈ reps, c ∈ r) → ∀ l, o.mapM (axisSize reps shapes) = .ok l → l.flatten.length = o.length := by
    intro o
    induction o with
    | nil => intro _ l hl; cases hl; rfl
    | cons c o ih =>
      intro hc l hl
      rw [List.mapM_cons] at hl
      cases ha : axisSize reps shapes c with
      | error e => rw [ha] at hl; cases hl
      | ok x =>
        rw [ha] at hl
        cases hm : o.mapM (axisSize reps shapes) with
        | error e => rw [hm] at hl; cases hl
        | ok l' =>
          rw [hm] at hl
          cases hl
          have hx : x.length = 1 := by
            unfold axisSize at ha
            cases hf : reps.findIdx? (fun r => decide (c ∈ r)) with
            | none =>
              obtain ⟨r, hr, hcr⟩ := hc c (by simp)
              have := List.findIdx?_eq_none_iff.1 hf r hr
              simp [hcr] at this
            | some i =>
              rw [hf] at ha
              simp only at ha
              cases h1 : tupleGet shapes i with
              | error e => rw [h1] at ha; cases ha
              | ok s =>
                rw [h1] at ha
                change (do let n ← tupleGet s ((reps.getD i []).idxOf c); pure [n]) = _ at ha
                cases h2 : tupleGet s ((reps.getD i []).idxOf c) with
                | error e => rw [h2] at ha; cases ha
                | ok n => rw [h2] at ha; cases ha; rfl
          rw [List.flatten_cons, List.length_append, hx, ih (fun d hd => hc d (by simp [hd])) l' hm, List.length_cons, Nat.add_comm]
  cases hm : out.mapM (axisSize reps shapes) with
  | error e => rw [hm] at h; cases h
  | ok l =>
    rw [hm] at h
    cases h
    exact key out ho l hm

/-- **C58 is false as stated**: operands that disagree on an axis are accepted; a label that occurs nowhere is dropped from the output; superfluous operands are accepted; so are operands with more axes than labels. -/
theorem C58_refuted :
    einsum [[2, 3], [4, 5]] "ij,jk->ik".toList = .ok [2, 5] ∧ einsum [[2, 3]] "ij->ik".toList = .ok [2] ∧ einsum [[2], [7, 8]] "i->i".toList = .ok [2] ∧
    einsum [[2, 3, 4]] "ij->ji".toList = .ok [3, 2] := by
  refine ⟨by decide, by decide, by decide, by decide⟩

end Csdl.Axes
