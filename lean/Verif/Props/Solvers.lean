import Verif.Spec.Solvers
import Verif.Props.Params
import Mathlib.Tactic.Linarith
import Mathlib.Data.List.Induction
/-!
# C75: solver options
-/
namespace Csdl.Solvers
open Csdl Csdl.Params

/-! ### what a declaration accepts -/

/-- the declaration (as stored) of an option of this kind -/
def declMatches (k : Kind) (d : Decl Val Ty) : Bool :=
  d.check.isNone && !d.allowNone &&
  match k, d.values, d.types, d.upper, d.lower with
  | .any, none, none, none, none => true
  | .int, none, some (.one .int), none, none => true
  | .bool, some l, some (.one .bool), none, none => decide (l = [.bool true, .bool false])
  | .oneOf l, some l', none, none, none => decide (l' = l.map fun s => Val.str s.toList)
  | .unit, none, none, some u, some l => decide (u = .float 1 ∧ l = .float 0)
  | .nonneg, none, none, none, some l => decide (l = .float 0)
  | _, _, _, _, _ => false

theorem eq_bool (v : Val) (b : Bool) : Val.pyEq v (.bool b) = true ↔ v.num = some (if b then 1 else 0) := by
  unfold Val.pyEq
  cases h : v.num with
  | none =>
    have : v ≠ .bool b := by rintro rfl; cases h
    simp only [Val.num, reduceCtorEq, iff_false, decide_eq_true_eq]
    exact fun h => this h.1
  | some q => simp [Val.num]

theorem eq_str (v : Val) (s : Name) : Val.pyEq v (.str s) = true ↔ v = .str s := by
  unfold Val.pyEq
  have h1 : (Val.str s).num = none := rfl
  rw [h1]
  constructor
  · intro h
    cases h' : v.num with
    | none => rw [h'] at h; simp only [decide_eq_true_eq] at h; exact h.1
    | some q => rw [h'] at h; simp only [decide_eq_true_eq] at h; exact h.1
  · rintro rfl
    simp [Val.num]

theorem lt_float (v : Val) (q : Rat) : Val.pyLt v (.float q) = some false ↔ v = .nan ∨ ∃ x, v.num = some x ∧ q ≤ x := by
  cases v <;> simp [Val.pyLt, Val.num]

theorem gt_float (v : Val) (q : Rat) : Val.pyLt (.float q) v = some false ↔ v = .nan ∨ ∃ x, v.num = some x ∧ x ≤ q := by
  cases v <;> simp [Val.pyLt, Val.num]

theorem declMatches_accepts {k : Kind} {d : Decl Val Ty} (h : declMatches k d = true) (v : Val) : assertValid python d v = none ↔ Accepts k v := by
  obtain ⟨def_, values, types, upper, lower, check, an⟩ := d
  unfold declMatches at h
  simp only [Bool.and_eq_true, Option.isNone_iff_eq_none, Bool.not_eq_true'] at h
  obtain ⟨⟨h1, h2⟩, h3⟩ := h
  subst h1 h2
  unfold assertValid
  simp only [Bool.and_false, Bool.false_eq_true, if_false, checkUser, Option.or_none, Option.or_eq_none_iff, checkBound_none]
  split at h3
  · simp [Accepts, checkKind]
  · simp only [checkKind, isInstance, Accepts, reduceCtorEq, false_implies, implies_true, and_true]
    cases v <;> simp [python, Val.hasType]
  · rw [decide_eq_true_eq] at h3
    subst h3
    simp only [checkKind, Accepts, reduceCtorEq, false_implies, implies_true, and_true]
    have e1 := eq_bool v true
    have e2 := eq_bool v false
    simp only [if_true, Bool.false_eq_true, if_false] at e1 e2
    have : (List.any [Val.bool true, Val.bool false] (python.eq v ·)) = true ↔ ∃ q, v.num = some q ∧ (q = 0 ∨ q = 1) := by
      simp only [List.any_cons, List.any_nil, Bool.or_false, Bool.or_eq_true, python, e1, e2]
      constructor
      · rintro (h | h) <;> exact ⟨_, h, by simp⟩
      · rintro ⟨q, h, rfl | rfl⟩ <;> simp [h]
    rw [← this]
    split <;> simp_all
  · rename_i l l'
    rw [decide_eq_true_eq] at h3
    subst h3
    simp only [checkKind, Accepts, reduceCtorEq, false_implies, implies_true, and_true]
    have : (List.any (l.map fun s => Val.str s.toList) (python.eq v ·)) = true ↔ ∃ s ∈ l, v = .str s.toList := by
      simp only [List.any_eq_true, List.mem_map, exists_exists_and_eq_and]
      exact exists_congr fun s => and_congr_right fun _ => eq_str v _
    rw [← this]
    split <;> simp_all
  · rw [decide_eq_true_eq] at h3
    obtain ⟨rfl, rfl⟩ := h3
    simp only [checkKind, Accepts, true_and, Option.some.injEq, forall_eq', python, lt_float, gt_float]
    constructor
    · rintro ⟨h | ⟨x, h, h'⟩, k⟩
      · exact Or.inl h
      · rcases k with k | ⟨y, k, k'⟩
        · exact Or.inl k
        · rw [h] at k; cases k; exact Or.inr ⟨x, h, k', h'⟩
    · rintro (h | ⟨q, h, h1, h2⟩)
      · exact ⟨Or.inl h, Or.inl h⟩
      · exact ⟨Or.inr ⟨q, h, h2⟩, Or.inr ⟨q, h, h1⟩⟩
  · rw [decide_eq_true_eq] at h3
    subst h3
    simp only [checkKind, Accepts, true_and, Option.some.injEq, forall_eq', python, lt_float, reduceCtorEq, false_implies, implies_true]
  · cases h3

/-! ### the options of a new solver are those of the table -/

/-- line by line -/
def rowsMatch : List (Name × Meta Val Ty) → List Row → Bool
  | [], [] => true
  | (n, m) :: l, (s, k, d) :: t => decide (n = s.toList) && decide (m.val = d) && decide (m.set = d.isSome) && declMatches k m.decl && rowsMatch l t
  | _, _ => false

/-- the options declared by the class are those of its table -/
def declared (c : Cls) : Bool :=
  match runAll {} (baseOptions ++ declareOptions c) with
  | .ok p => !p.readOnly && rowsMatch p.dict (table c) && decide ((table c).map (·.1.toList)).Nodup
  | .error _ => false

theorem declared_all (c : Cls) : declared c = true := by
  cases c <;> decide +kernel

/-- the options agree with the table, and have these values -/
structure Inv (c : Cls) (p : Params Val Ty) (cur : Name → Option Val) : Prop where
  writable : p.readOnly = false
  absent : ∀ n, (∀ k d, ¬ HasOption c n k d) → p.dict.get? n = none
  present : ∀ n k d, HasOption c n k d → ∃ m, p.dict.get? n = some m ∧ m.val = cur n ∧ m.set = (cur n).isSome ∧ declMatches k m.decl = true

theorem rowsMatch_get? : ∀ {l : List (Name × Meta Val Ty)} {t : List Row}, rowsMatch l t = true → (t.map (·.1.toList)).Nodup → ∀ n,
    ((∀ s k d, (s, k, d) ∈ t → s.toList ≠ n) → Dict.get? l n = none) ∧
    ∀ s k d, (s, k, d) ∈ t → s.toList = n → ∃ m, Dict.get? l n = some m ∧ m.val = d ∧ m.set = d.isSome ∧ declMatches k m.decl = true
  | [], [], _, _, n => ⟨fun _ => rfl, fun s k d h => by simp at h⟩
  | (x, m) :: l, (s, k, d) :: t, h, hn, n => by
    simp only [rowsMatch, Bool.and_eq_true, decide_eq_true_eq] at h
    obtain ⟨⟨⟨⟨rfl, h2⟩, h3⟩, h4⟩, h5⟩ := h
    rw [List.map_cons, List.nodup_cons] at hn
    obtain ⟨i1, i2⟩ := rowsMatch_get? h5 hn.2 n
    refine ⟨fun hh => ?_, fun s' k' d' hm hs => ?_⟩
    · have := hh s k d (by simp)
      simp only [Dict.get?, this, if_false]
      exact i1 fun s' k' d' h' => hh s' k' d' (List.mem_cons_of_mem _ h')
    · rcases List.mem_cons.1 hm with hm | hm
      · cases hm
        subst hs
        exact ⟨m, by simp [Dict.get?], h2, h3, h4⟩
      · have hne : ¬ s.toList = n := by
          intro he
          refine hn.1 ?_
          rw [he, ← hs]
          exact List.mem_map.2 ⟨_, hm, rfl⟩
        obtain ⟨m', j1, j2⟩ := i2 s' k' d' hm hs
        exact ⟨m', by simp only [Dict.get?, hne, if_false]; exact j1, j2⟩

/-- an option occurs once in the table -/
theorem hasOption_det {c : Cls} {n : Name} {k k' : Kind} {d d' : Option Val} (h : HasOption c n k d) (h' : HasOption c n k' d') : k = k' ∧ d = d' := by
  have hd := declared_all c
  unfold declared at hd
  split at hd
  · simp only [Bool.and_eq_true, decide_eq_true_eq] at hd
    have hn := hd.2
    obtain ⟨s, hs, hm⟩ := h
    obtain ⟨s', hs', hm'⟩ := h'
    have := List.inj_on_of_nodup_map hn hm hm' (by simp [hs, hs'])
    cases this
    exact ⟨rfl, rfl⟩
  · cases hd

/-- the value an option has at first -/
theorem inv_new (c : Cls) : ∃ p, runAll {} (baseOptions ++ declareOptions c) = .ok p ∧ ∃ cur, Inv c p cur ∧ ∀ n k d, HasOption c n k d → cur n = d := by
  have hd := declared_all c
  unfold declared at hd
  split at hd
  · rename_i p hp
    simp only [Bool.and_eq_true, Bool.not_eq_true', decide_eq_true_eq] at hd
    obtain ⟨⟨h1, h2⟩, h3⟩ := hd
    refine ⟨p, hp, fun n => (p.dict.get? n).bind (·.val), ⟨h1, fun n hn => ?_, fun n k d ho => ?_⟩, fun n k d ho => ?_⟩
    · exact (rowsMatch_get? h2 h3 n).1 fun s k d h e => hn k d ⟨s, e, h⟩
    · obtain ⟨s, e, h⟩ := ho
      obtain ⟨m, j1, j2, j3, j4⟩ := (rowsMatch_get? h2 h3 n).2 s k d h e
      refine ⟨m, j1, ?_, ?_, j4⟩
      · show m.val = (p.dict.get? n).bind _; rw [j1]; rfl
      · show m.set = ((p.dict.get? n).bind _).isSome; rw [j1, j3, ← j2]; rfl
    · obtain ⟨s, e, h⟩ := ho
      obtain ⟨m, j1, j2, _⟩ := (rowsMatch_get? h2 h3 n).2 s k d h e
      show (p.dict.get? n).bind _ = d
      rw [j1, ← j2]; rfl
  · cases hd

/-- an assignment, in a state that agrees with the table -/
theorem inv_set {c : Cls} {p : Params Val Ty} {cur : Name → Option Val} (h : Inv c p cur) (n : Name) (v : Val) :
    (∀ k d, HasOption c n k d → Accepts k v → (setItem python p n v).2 = none ∧ Inv c (setItem python p n v).1 (fun x => if x = n then some v else cur x)) ∧
    ((¬ ∃ k d, HasOption c n k d ∧ Accepts k v) → (setItem python p n v).2 ≠ none ∧ (setItem python p n v).1 = p) ∧
    ((∀ k d, ¬ HasOption c n k d) → setItem python p n v = (p, some .key)) := by
  have hcases : ∀ k d, HasOption c n k d → ∃ m, p.dict.get? n = some m ∧ declMatches k m.decl = true ∧
      setItem python p n v = (match assertValid python m.decl v with | some e => (p, some e) | none => ({ p with dict := p.dict.set n ⟨some v, true, m.decl⟩ }, none)) := by
    intro k d ho
    obtain ⟨m, j1, j2, j3, j4⟩ := h.present n k d ho
    refine ⟨m, j1, j4, ?_⟩
    unfold setItem
    rw [j1]
    simp only [h.writable, Bool.false_eq_true, if_false]
    cases assertValid python m.decl v <;> rfl
  have habs : (∀ k d, ¬ HasOption c n k d) → setItem python p n v = (p, some .key) := by
    intro hh
    unfold setItem
    rw [h.absent n hh]
  refine ⟨fun k d ho ha => ?_, fun hh => ?_, habs⟩
  · obtain ⟨m, m1, m2, m3⟩ := hcases k d ho
    rw [(declMatches_accepts m2 v).2 ha] at m3
    simp only at m3
    rw [m3]
    refine ⟨rfl, h.writable, fun x hx => ?_, fun x k' d' hx => ?_⟩
    · show Dict.get? (p.dict.set n _) x = none
      rw [Dict.get?_set, if_neg (fun e : n = x => hx k d (e ▸ ho))]
      exact h.absent x hx
    · show ∃ m', Dict.get? (p.dict.set n _) x = some m' ∧ _
      rw [Dict.get?_set]
      by_cases e : n = x
      · subst e
        obtain ⟨rfl, rfl⟩ := hasOption_det ho hx
        simp only [if_true]
        exact ⟨_, rfl, rfl, rfl, m2⟩
      · rw [if_neg e]
        have e' : ¬ x = n := fun h => e h.symm
        simp only [e', if_false]
        exact h.present x k' d' hx
  · by_cases hex : ∃ k d, HasOption c n k d
    · obtain ⟨k, d, ho⟩ := hex
      obtain ⟨m, m1, m2, m3⟩ := hcases k d ho
      cases hv : assertValid python m.decl v with
      | none => exact absurd ⟨k, d, ho, (declMatches_accepts m2 v).1 hv⟩ hh
      | some e => rw [hv] at m3; rw [m3]; exact ⟨by simp, rfl⟩
    · rw [habs fun k d ho => hex ⟨k, d, ho⟩]
      exact ⟨by simp, rfl⟩

theorem isLast_snoc_acc {k : Kind} {d : Option Val} {n : Name} {l : List (Name × Val)} {v : Val} (h : Accepts k v) : IsLast k d n (l ++ [(n, v)]) (some v) :=
  Or.inl ⟨l, v, [], rfl, h, by simp, rfl⟩

theorem isLast_snoc_skip {k : Kind} {d r : Option Val} {n x : Name} {l : List (Name × Val)} {v : Val} (h : x = n → ¬ Accepts k v) (hl : IsLast k d n l r) : IsLast k d n (l ++ [(x, v)]) r := by
  rcases hl with ⟨l1, w, l2, rfl, h1, h2, h3⟩ | ⟨h1, h2⟩
  · refine Or.inl ⟨l1, w, l2 ++ [(x, v)], by simp, h1, fun u hu => ?_, h3⟩
    rcases List.mem_append.1 hu with hu | hu
    · exact h2 u hu
    · simp only [List.mem_singleton, Prod.mk.injEq] at hu
      obtain ⟨rfl, rfl⟩ := hu
      exact h rfl
  · refine Or.inr ⟨fun u hu => ?_, h2⟩
    rcases List.mem_append.1 hu with hu | hu
    · exact h1 u hu
    · simp only [List.mem_singleton, Prod.mk.injEq] at hu
      obtain ⟨rfl, rfl⟩ := hu
      exact h rfl

/-- the options have the values they should have after these assignments -/
def After (c : Cls) (p : Params Val Ty) (l : List (Name × Val)) : Prop := ∃ cur, Inv c p cur ∧ ∀ n k d, HasOption c n k d → IsLast k d n l (cur n)

theorem isLast_det {k : Kind} {d r r' : Option Val} {n : Name} {l : List (Name × Val)} (h : IsLast k d n l r) (h' : IsLast k d n l r') : r = r' := by
  rcases h with ⟨l1, v, l2, rfl, h1, h2, rfl⟩ | ⟨h1, rfl⟩
  · rcases h' with ⟨m1, w, m2, e, k1, k2, rfl⟩ | ⟨k1, rfl⟩
    · rcases List.append_eq_append_iff.1 e with ⟨a, e1, e2⟩ | ⟨a, e1, e2⟩
      · cases a with
        | nil => simp at e2; rw [e2.1]
        | cons x a =>
          simp only [List.cons_append, List.cons.injEq] at e2
          exact absurd k1 (h2 w (by rw [e2.2]; simp))
      · cases a with
        | nil => simp at e2; rw [e2.1]
        | cons x a =>
          simp only [List.cons_append, List.cons.injEq] at e2
          exact absurd h1 (k2 v (by rw [e2.2]; simp))
    · exact absurd h1 (k1 v (by simp))
  · rcases h' with ⟨m1, w, m2, rfl, k1, k2, rfl⟩ | ⟨k1, rfl⟩
    · exact absurd k1 (h1 w (by simp))
    · rfl

theorem isLast_exists (k : Kind) (d : Option Val) (n : Name) (l : List (Name × Val)) : ∃ r, IsLast k d n l r := by
  induction l using List.reverseRecOn with
  | nil => exact ⟨d, Or.inr ⟨by simp, rfl⟩⟩
  | append_singleton l e ih =>
    obtain ⟨r, hr⟩ := ih
    obtain ⟨x, v⟩ := e
    by_cases h : x = n ∧ Accepts k v
    · obtain ⟨rfl, h⟩ := h
      exact ⟨_, isLast_snoc_acc h⟩
    · exact ⟨r, isLast_snoc_skip (fun h1 h2 => h ⟨h1, h2⟩) hr⟩

theorem after_set {c : Cls} {p : Params Val Ty} {l : List (Name × Val)} (h : After c p l) (n : Name) (v : Val) : After c (setItem python p n v).1 (l ++ [(n, v)]) := by
  obtain ⟨cur, hi, hc⟩ := h
  obtain ⟨h1, h2, _⟩ := inv_set hi n v
  by_cases hex : ∃ k d, HasOption c n k d ∧ Accepts k v
  · obtain ⟨k, d, ho, ha⟩ := hex
    refine ⟨_, (h1 k d ho ha).2, fun x k' d' hx => ?_⟩
    by_cases e : x = n
    · subst e
      obtain ⟨rfl, rfl⟩ := hasOption_det ho hx
      simp only [if_true]
      exact isLast_snoc_acc ha
    · simp only [e, if_false]
      exact isLast_snoc_skip (fun h => absurd h.symm e) (hc x k' d' hx)
  · rw [(h2 hex).2]
    exact ⟨cur, hi, fun x k' d' hx => isLast_snoc_skip (fun e ha => hex ⟨k', d', e ▸ hx, ha⟩) (hc x k' d' hx)⟩

theorem after_assignAll {c : Cls} : ∀ (l' : List (Name × Val)) {p : Params Val Ty} {l : List (Name × Val)}, After c p l → After c (assignAll p l') (l ++ l')
  | [], p, l, h => by simpa [assignAll] using h
  | (n, v) :: l', p, l, h => by
    have := after_assignAll l' (after_set h n v)
    simpa [assignAll] using this

theorem after_update {c : Cls} : ∀ (kw : List (Name × Val)) {p : Params Val Ty} {l : List (Name × Val)}, After c p l →
    ((update python p kw).2 = none ↔ ∀ e ∈ kw, ∃ k d, HasOption c e.1 k d ∧ Accepts k e.2) ∧ ((update python p kw).2 = none → After c (update python p kw).1 (l ++ kw))
  | [], p, l, h => by simpa [update] using h
  | (n, v) :: kw, p, l, h => by
    have ha := after_set h n v
    obtain ⟨cur, hi, _⟩ := h
    obtain ⟨h1, h2, _⟩ := inv_set hi n v
    by_cases hex : ∃ k d, HasOption c n k d ∧ Accepts k v
    · obtain ⟨k, d, ho, hac⟩ := hex
      have e1 := (h1 k d ho hac).1
      have hu : update python p ((n, v) :: kw) = update python (setItem python p n v).1 kw := by
        conv => lhs; unfold update
        rcases hs : setItem python p n v with ⟨p', _ | er⟩
        · rfl
        · rw [hs] at e1; cases e1
      rw [hu]
      obtain ⟨i1, i2⟩ := after_update kw ha
      refine ⟨i1.trans ⟨fun hh e he => ?_, fun hh e he => hh e (List.mem_cons_of_mem _ he)⟩, fun hh => ?_⟩
      · rcases List.mem_cons.1 he with rfl | he
        · exact ⟨k, d, ho, hac⟩
        · exact hh e he
      · have := i2 hh
        simpa using this
    · have e1 := (h2 hex).1
      have hu : (update python p ((n, v) :: kw)).2 ≠ none := by
        unfold update
        rcases hs : setItem python p n v with ⟨p', _ | er⟩
        · rw [hs] at e1; exact absurd rfl e1
        · simp
      exact ⟨⟨fun hh => absurd hh hu, fun hh => absurd (hh (n, v) (by simp)) hex⟩, fun hh => absurd hh hu⟩

theorem after_new (c : Cls) : ∃ p, runAll {} (baseOptions ++ declareOptions c) = .ok p ∧ After c p [] := by
  obtain ⟨p, hp, cur, hi, hc⟩ := inv_new c
  exact ⟨p, hp, cur, hi, fun n k d ho => Or.inr ⟨by simp, hc n k d ho⟩⟩

/-! ### C75 -/

/-- C75, construction (partial: see `C75_bool_accepts_numbers` and `C75_range_accepts_nan` for what "accepts" means): a solver of any class, with any keyword arguments, is constructed exactly when each of them is an
option of the class (in the table) and the option accepts the value. -/
theorem C75_construct_iff_partial (c : Cls) (kwargs : List (Name × Val)) :
    (∃ p, construct c kwargs = .ok p) ↔ ∀ e ∈ kwargs, ∃ k d, HasOption c e.1 k d ∧ Accepts k e.2 := by
  obtain ⟨p, hp, ha⟩ := after_new c
  rw [← (after_update kwargs ha).1]
  unfold construct
  rw [hp]
  dsimp only
  rcases hu : update python p kwargs with ⟨p', _ | e⟩ <;> simp [hu]

/-- C75, reading (partial as above): after any further assignments, accepted or not, reading an option of the class gives the last accepted value given, in the keyword arguments or later, else the default of the table (if
there is none: RuntimeError); reading any other name raises KeyError. -/
theorem C75_read_partial (c : Cls) (kwargs later : List (Name × Val)) (p : Params Val Ty) (h : construct c kwargs = .ok p) (n : Name) :
    (∀ k d r, HasOption c n k d → IsLast k d n (kwargs ++ later) r → getItem (assignAll p later) n = (match r with | some v => .ok (some v) | none => .error .runtime)) ∧
    ((∀ k d, ¬ HasOption c n k d) → getItem (assignAll p later) n = .error .key) := by
  obtain ⟨p0, hp, ha⟩ := after_new c
  have ha' : After c p kwargs := by
    have := (after_update kwargs ha).2
    unfold construct at h
    rw [hp] at h
    dsimp only at h
    rcases hu : update python p0 kwargs with ⟨p', _ | e⟩
    · rw [hu] at h this; cases h; simpa using this rfl
    · rw [hu] at h; cases h
  obtain ⟨cur, hi, hc⟩ := after_assignAll later ha'
  constructor
  · intro k d r ho hr
    obtain ⟨m, j1, j2, j3, _⟩ := hi.present n k d ho
    have hcur : cur n = r := isLast_det (hc n k d ho) hr
    unfold getItem
    rw [j1]
    dsimp only
    rw [j3, j2, hcur]
    cases r <;> rfl
  · intro hh
    unfold getItem
    rw [hi.absent n hh]

/-- C75, writing (partial as above): at any time, an assignment is accepted exactly if the name is an option of the class that accepts the value; otherwise it raises (KeyError if it is not an option of the class) and
changes nothing. -/
theorem C75_assign_iff_partial (c : Cls) (kwargs later : List (Name × Val)) (p : Params Val Ty) (h : construct c kwargs = .ok p) (n : Name) (v : Val) :
    ((setItem python (assignAll p later) n v).2 = none ↔ ∃ k d, HasOption c n k d ∧ Accepts k v) ∧
    ((setItem python (assignAll p later) n v).2 ≠ none → (setItem python (assignAll p later) n v).1 = assignAll p later) ∧
    ((∀ k d, ¬ HasOption c n k d) → (setItem python (assignAll p later) n v).2 = some .key) := by
  obtain ⟨p0, hp, ha⟩ := after_new c
  have ha' : After c p kwargs := by
    have := (after_update kwargs ha).2
    unfold construct at h
    rw [hp] at h
    dsimp only at h
    rcases hu : update python p0 kwargs with ⟨p', _ | e⟩
    · rw [hu] at h this; cases h; simpa using this rfl
    · rw [hu] at h; cases h
  obtain ⟨cur, hi, hc⟩ := after_assignAll later ha'
  obtain ⟨h1, h2, h3⟩ := inv_set hi n v
  refine ⟨⟨fun hh => ?_, fun ⟨k, d, ho, hac⟩ => (h1 k d ho hac).1⟩, fun hh => ?_, fun hh => by rw [h3 hh]⟩
  · by_contra hex
    exact (h2 hex).1 hh
  · by_cases hex : ∃ k d, HasOption c n k d ∧ Accepts k v
    · obtain ⟨k, d, ho, hac⟩ := hex
      exact absurd (h1 k d ho hac).1 hh
    · exact (h2 hex).2

/-- C75: an option is named once in the table of a class, so what it accepts and its default are determined. -/
theorem C75_table_unique {c : Cls} {n : Name} {k k' : Kind} {d d' : Option Val} (h : HasOption c n k d) (h' : HasOption c n k' d') : k = k' ∧ d = d' := hasOption_det h h'

theorem update_append (p : Params Val Ty) (l l' : List (Name × Val)) (h : (update python p l).2 = none) : update python p (l ++ l') = update python (update python p l).1 l' := by
  induction l generalizing p with
  | nil => rfl
  | cons e l ih =>
    obtain ⟨n, v⟩ := e
    rw [List.cons_append]
    rcases hs : setItem python p n v with ⟨p', _ | er⟩
    · have e : ∀ m, update python p ((n, v) :: m) = update python p' m := by intro m; conv => lhs; unfold update; rw [hs]
      rw [e] at h ⊢
      rw [e]
      exact ih p' h
    · unfold update at h; rw [hs] at h; cases h

/-- C75, the error: if the keyword arguments before it are accepted, one that is not an option of the class makes the constructor raise KeyError. -/
theorem C75_unknown_option_key_error (c : Cls) (pre post : List (Name × Val)) (n : Name) (v : Val) (hpre : ∀ e ∈ pre, ∃ k d, HasOption c e.1 k d ∧ Accepts k e.2) (hn : ∀ k d, ¬ HasOption c n k d) :
    construct c (pre ++ (n, v) :: post) = .error .key := by
  obtain ⟨p, hp, ha⟩ := after_new c
  obtain ⟨i1, i2⟩ := after_update pre ha
  have h0 := i1.2 hpre
  obtain ⟨cur, hi, _⟩ := i2 h0
  have hk := (inv_set hi n v).2.2 hn
  unfold construct
  rw [hp]
  dsimp only
  rw [update_append p pre _ h0]
  unfold update
  rw [hk]

/-- C75, single-pass solvers: no class that does not iterate has an iteration limit, a tolerance or a convergence error option, so that setting one raises KeyError. -/
theorem C75_no_iteration_options (c : Cls) (hc : c = .directSolver ∨ c = .linearRunOnce ∨ c = .nonlinearRunOnce ∨ c = .boundsEnforceLS) (n : Name)
    (hn : n = "maxiter".toList ∨ n = "atol".toList ∨ n = "rtol".toList ∨ n = "err_on_non_converge".toList) : ∀ k d, ¬ HasOption c n k d := by
  rintro k d ⟨s, hs, hx⟩
  have : ∀ s ∈ ["maxiter".toList, "atol".toList, "rtol".toList, "err_on_non_converge".toList], ∀ c ∈ [Cls.directSolver, .linearRunOnce, .nonlinearRunOnce, .boundsEnforceLS], s ∉ (table c).map (·.1.toList) := by decide +kernel
  refine this n (by simpa using hn) c (by simpa using hc) ?_
  rw [show n = s.toList from hs.symm]
  exact List.mem_map.2 ⟨_, hx, rfl⟩

/-- C75: Newton's `solve_subsystems` has no default: reading it raises RuntimeError until it is set. -/
theorem C75_newton_solve_subsystems (kwargs : List (Name × Val)) (p : Params Val Ty) (h : construct .newtonSolver kwargs = .ok p) :
    getItem p "solve_subsystems".toList = .error .runtime ↔ ∀ v, ("solve_subsystems".toList, v) ∉ kwargs := by
  have ho : HasOption .newtonSolver "solve_subsystems".toList .bool none := ⟨"solve_subsystems", rfl, by decide +kernel⟩
  have hacc : ∀ v, ("solve_subsystems".toList, v) ∈ kwargs → Accepts .bool v := by
    intro v hv
    obtain ⟨k, d, h1, h2⟩ := (C75_construct_iff_partial _ kwargs).1 ⟨p, h⟩ _ hv
    obtain ⟨rfl, rfl⟩ := hasOption_det ho h1
    exact h2
  constructor
  · intro hg v hv
    obtain ⟨r, hr⟩ := isLast_exists .bool none "solve_subsystems".toList kwargs
    have := (C75_read_partial _ kwargs [] p h "solve_subsystems".toList).1 .bool none r ho (by simpa using hr)
    simp only [assignAll, List.foldl_nil] at this
    rw [this] at hg
    rcases hr with ⟨l1, w, l2, _, _, _, rfl⟩ | ⟨h1, _⟩
    · simp at hg
    · exact h1 v hv (hacc v hv)
  · intro hh
    have := (C75_read_partial _ kwargs [] p h "solve_subsystems".toList).1 .bool none none ho (Or.inr ⟨fun w hw => absurd (by simpa using hw) (hh w), rfl⟩)
    simpa [assignAll] using this

/-- C75, what is missing: an option declared to be a bool accepts every number equal to 0 or 1. -/
theorem C75_bool_accepts_numbers : (∃ p, construct .newtonSolver [("solve_subsystems".toList, .float 1)] = .ok p) ∧ Val.hasType (.float 1) .bool = false :=
  ⟨(C75_construct_iff_partial _ _).2 (by simp only [List.mem_singleton, forall_eq]; exact ⟨.bool, none, ⟨"solve_subsystems", rfl, by decide +kernel⟩, 1, rfl, Or.inr rfl⟩), rfl⟩

/-- C75, what is missing: a range does not exclude nan. -/
theorem C75_range_accepts_nan : ∃ p, construct .armijoGoldsteinLS [("rho".toList, .nan)] = .ok p :=
  (C75_construct_iff_partial _ _).2 (by simp only [List.mem_singleton, forall_eq]; exact ⟨.unit, some (.float (mkRat 1 2)), ⟨"rho", rfl, by decide +kernel⟩, Or.inl rfl⟩)

/-! ### examples -/

/-- accepted -/
example : ∃ p, construct .scipyKrylov [("maxiter".toList, .int 50), ("iprint".toList, .int 2)] = .ok p :=
  (C75_construct_iff_partial _ _).2 (by
    intro e he
    simp only [List.mem_cons, List.not_mem_nil, or_false] at he
    rcases he with rfl | rfl
    · exact ⟨.int, some (.int 1000), ⟨"maxiter", rfl, by decide +kernel⟩, Or.inl ⟨50, rfl⟩⟩
    · exact ⟨.int, some (.int 1), ⟨"iprint", rfl, by decide +kernel⟩, Or.inl ⟨2, rfl⟩⟩)

/-- rejected, by type and by name -/
example : (construct .scipyKrylov [("maxiter".toList, .float 50)]).toOption.isNone = true ∧ (construct .directSolver [("maxiter".toList, .int 50)]).toOption.isNone = true := by decide +kernel

end Csdl.Solvers
