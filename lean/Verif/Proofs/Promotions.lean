import Verif.Model.Promotions
import Verif.Spec.Promotions
import Verif.Proofs.Dict
import Verif.Proofs.Names

namespace Csdl

/-! ### generalities -/

theorem Except.bind_ok {ε α β : Type} {x : Except ε α} {f : α → Except ε β} {b : β} :
    (x >>= f) = .ok b ↔ ∃ a, x = .ok a ∧ f a = .ok b := by
  cases x with
  | error e => simp [bind, Except.bind]
  | ok a => simp [bind, Except.bind]

theorem Except.bind_error {ε α β : Type} {x : Except ε α} {f : α → Except ε β} {e : ε} :
    (x >>= f) = .error e ↔ x = .error e ∨ ∃ a, x = .ok a ∧ f a = .error e := by
  cases x with
  | error e => simp [bind, Except.bind]
  | ok a => simp [bind, Except.bind]

mutual
theorem Model.indAux {P : Model → Prop}
    (h : ∀ l subs, (∀ s ∈ subs.toList, P s.model) → P (.mk l subs)) : ∀ m, P m
  | .mk l subs => h l subs (Subs.indAux h subs)
theorem Subs.indAux {P : Model → Prop}
    (h : ∀ l subs, (∀ s ∈ subs.toList, P s.model) → P (.mk l subs)) :
    ∀ subs : Subs, ∀ s ∈ subs.toList, P s.model
  | .nil => by simp [Subs.toList]
  | .cons n p m rest => by
    intro s hs
    simp only [Subs.toList, List.mem_cons] at hs
    rcases hs with rfl | hs
    · exact Model.indAux h m
    · exact Subs.indAux h rest s hs
end

/-- Induction on the hierarchy. -/
theorem Model.ind {P : Model → Prop}
    (h : ∀ l subs, (∀ s ∈ subs.toList, P s.model) → P (.mk l subs)) (m : Model) : P m :=
  Model.indAux h m

/-! ### the promoted/unpromoted relation of a dictionary -/

def InMap (d : Dict Name (List Name)) (p u : Name) : Prop := ∃ us, d.get? p = some us ∧ u ∈ us

theorem mem_unionSet {a b : List Name} {x : Name} : x ∈ unionSet a b ↔ x ∈ a ∨ x ∈ b := by
  simp [unionSet]; tauto

theorem inMap_step (d : Dict Name (List Name)) (k : Name) (v : List Name) (p u : Name) :
    InMap (addEntry d k v) p u ↔
      InMap d p u ∨ (p = k ∧ u ∈ v) := by
  unfold InMap addEntry
  cases h : d.get? k with
  | none =>
    simp only [Dict.get?_set]
    by_cases hk : k = p
    · subst hk; simp [h]
    · simp [hk, Ne.symm hk]
  | some old =>
    simp only [Dict.get?_set]
    by_cases hk : k = p
    · subst hk; simp [h, mem_unionSet]
    · simp [hk, Ne.symm hk]

theorem mergeInto_inMap (l : List (Name × List Name)) (d : Dict Name (List Name)) (p u : Name) :
    InMap (mergeInto d l) p u ↔ InMap d p u ∨ ∃ us, (p, us) ∈ l ∧ u ∈ us := by
  induction l generalizing d with
  | nil => simp [mergeInto]
  | cons kv l ih =>
    obtain ⟨k, v⟩ := kv
    rw [mergeInto, ih]
    have hs := inMap_step d k v p u
    simp only [hs]
    constructor
    · rintro ((h | ⟨rfl, h⟩) | ⟨us, h, hu⟩)
      · exact Or.inl h
      · exact Or.inr ⟨v, by simp, h⟩
      · exact Or.inr ⟨us, by simp [h], hu⟩
    · rintro (h | ⟨us, h, hu⟩)
      · exact Or.inl (Or.inl h)
      · rcases List.mem_cons.1 h with h | h
        · cases h; exact Or.inl (Or.inr ⟨rfl, hu⟩)
        · exact Or.inr ⟨us, h, hu⟩

theorem mergeInto_nodup (l : List (Name × List Name)) {d : Dict Name (List Name)}
    (hd : d.keys.Nodup) : (mergeInto d l).keys.Nodup := by
  induction l generalizing d with
  | nil => exact hd
  | cons kv l ih =>
    obtain ⟨k, v⟩ := kv
    rw [mergeInto]
    apply ih
    unfold addEntry
    cases d.get? k <;> exact Dict.nodup_set hd _ _

/-- every entry has a non-empty set -/
def NonemptySets (d : Dict Name (List Name)) : Prop := ∀ k us, d.get? k = some us → us ≠ []

theorem mergeInto_nonempty (l : List (Name × List Name)) {d : Dict Name (List Name)}
    (hd : NonemptySets d) (hl : ∀ kv ∈ l, kv.2 ≠ []) : NonemptySets (mergeInto d l) := by
  induction l generalizing d with
  | nil => exact hd
  | cons kv l ih =>
    obtain ⟨k, v⟩ := kv
    rw [mergeInto]
    apply ih
    · intro k' us h
      unfold addEntry at h
      cases hk : d.get? k with
      | none =>
        rw [hk] at h; simp only [Dict.get?_set] at h
        split at h
        · simp at h; subst h; exact hl (k, v) (by simp)
        · exact hd _ _ h
      | some old =>
        rw [hk] at h; simp only [Dict.get?_set] at h
        split at h
        · simp at h; subst h
          have := hd _ _ hk
          simp [unionSet, this]
        · exact hd _ _ h
    · intro kv hkv; exact hl kv (by simp [hkv])

/-! ### splitting a child -/

def isProm (pr : Option (List Name)) (k : Name) : Bool :=
  match pr with
  | none => !decide ('.' ∈ k)
  | some l => decide (k ∈ l)

theorem isProm_iff {pr k} : isProm pr k = true ↔ IsPromoted pr k := by
  cases pr <;> simp [isProm, IsPromoted]

theorem foldl_pop (l : List (Name × List Name)) (f : Name → Name) (d : Dict Name (List Name)) :
    l.foldl (fun d kv => Dict.pop d (f kv.1)) d = d.filter (fun kv => ∀ kv' ∈ l, kv.1 ≠ f kv'.1) := by
  induction l generalizing d with
  | nil => simp
  | cons kv l ih =>
    rw [List.foldl_cons, ih, Dict.pop, List.filter_filter]
    congr 1
    funext x
    rw [Bool.eq_iff_iff]
    simp
    exact and_comm

def upEntry (s : Name) (kv : Name × List Name) : Name × List Name :=
  (kv.1, kv.2.map (prependNamespace s))
def stayEntry (s : Name) (kv : Name × List Name) : Name × List Name :=
  (prependNamespace s kv.1, kv.2.map (prependNamespace s))

theorem notPromoting_eq {c : Child} (h : c.p2u.keys.Nodup) :
    notPromotingFromChild c = c.p2u.map (stayEntry c.name) := by
  rw [notPromotingFromChild, Dict.ofPairs_eq]; rfl
  rw [List.map_map]
  have : (Prod.fst ∘ fun kv : Name × List Name => (prependNamespace c.name kv.1, kv.2.map (prependNamespace c.name)))
      = prependNamespace c.name ∘ Prod.fst := by funext x; rfl
  rw [this, ← List.map_map]
  exact h.map (fun _ _ => prepend_inj_right)

def badPromotes (names : List Name) : Option (List Name) → Bool
  | none => false
  | some l => l.any (fun n => ¬ n ∈ names)

theorem badPromotes_iff {names : List Name} {pr : Option (List Name)} :
    badPromotes names pr = true ↔ ∃ l, pr = some l ∧ ∃ n ∈ l, n ∉ names := by
  cases pr <;> simp [badPromotes]

theorem filter_stay (c : Child) (q : Name → Bool) :
    (c.p2u.map (stayEntry c.name)).filter
      (fun kv => decide (∀ kv' ∈ (promotingFromChild c).filter (fun x : Name × List Name => q x.1),
        kv.1 ≠ prependNamespace c.name kv'.1))
      = (c.p2u.filter (fun kv => !q kv.1)).map (stayEntry c.name) := by
  rw [List.filter_map]
  congr 1
  apply List.filter_congr
  intro kv hkv
  obtain ⟨k, v⟩ := kv
  rw [Function.comp, Bool.eq_iff_iff, decide_eq_true_iff, Bool.not_eq_true']
  constructor
  · intro h
    by_contra hq
    have hq' : q k = true := by simpa using hq
    exact h (k, v.map (prependNamespace c.name))
      (List.mem_filter.2 ⟨List.mem_map.2 ⟨(k, v), hkv, rfl⟩, hq'⟩) rfl
  · rintro h ⟨k', v'⟩ hk' heq
    have := prepend_inj_right heq
    subst this
    simp [h] at hk'

theorem splitChild_eq (names : List Name) {c : Child} (h : c.p2u.keys.Nodup) :
    splitChild names c =
      if badPromotes names c.promotes then .error .invalidPromotes
      else .ok ((c.p2u.filter (fun kv => isProm c.promotes kv.1)).map (upEntry c.name),
                (c.p2u.filter (fun kv => !isProm c.promotes kv.1)).map (stayEntry c.name)) := by
  have hup : ∀ q : Name → Bool, (promotingFromChild c).filter (fun kv => q kv.1)
      = (c.p2u.filter (fun kv => q kv.1)).map (upEntry c.name) := by
    intro q
    have : promotingFromChild c = c.p2u.map (upEntry c.name) := rfl
    rw [this, List.filter_map]; rfl
  unfold splitChild
  cases hp : c.promotes with
  | none =>
    simp only [notPromoting_eq h, foldl_pop]
    have e : (fun kv : Name × List Name => decide (¬ '.' ∈ kv.1)) = fun kv => isProm none kv.1 := by
      funext kv; simp [isProm]
    rw [if_neg (by simp [badPromotes]), e, filter_stay c (isProm none), hup]
  | some l =>
    cases l with
    | nil =>
      simp [notPromoting_eq h, isProm, badPromotes]
    | cons q qs =>
      have eb : badPromotes names (some (q :: qs)) = (q :: qs).any fun n => ¬ n ∈ names := rfl
      rw [eb]
      simp only [notPromoting_eq h, foldl_pop]
      by_cases hany : ((q :: qs).any fun n => ¬ n ∈ names) = true
      · rw [if_pos hany, if_pos hany]
      · rw [if_neg hany, if_neg hany]
        have e : (fun kv : Name × List Name => decide (kv.1 ∈ q :: qs)) = fun kv => isProm (some (q :: qs)) kv.1 := by
          funext kv; simp [isProm]
        rw [e, filter_stay c (isProm (some (q :: qs))), hup]

def mergedChild (p2u : Dict Name (List Name)) (c : Child) : Dict Name (List Name) :=
  mergeInto (mergeInto p2u ((c.p2u.filter (fun kv => isProm c.promotes kv.1)).map (upEntry c.name)))
    ((c.p2u.filter (fun kv => !isProm c.promotes kv.1)).map (stayEntry c.name))

theorem mergeChild_eq (names : List Name) (p2u : Dict Name (List Name)) {c : Child} (h : c.p2u.keys.Nodup) :
    mergeChild names p2u c =
      if badPromotes names c.promotes then .error .invalidPromotes
      else .ok (mergedChild p2u c) := by
  unfold mergeChild
  have h1 : (notPromotingFromChild c).length = (promotingFromChild c).length := by
    rw [notPromoting_eq h]; simp [promotingFromChild]
  rw [splitChild_eq names h]
  simp only [h1, ne_eq, not_true_eq_false, if_false]
  cases (badPromotes names c.promotes) with
  | true => rfl
  | false =>
    have h2 : (c.p2u.filter (fun kv => isProm c.promotes kv.1)).length
        + (c.p2u.filter (fun kv => !isProm c.promotes kv.1)).length = (promotingFromChild c).length := by
      simp only [promotingFromChild, List.length_map]
      rw [← List.length_eq_length_filter_add]
    simp [bind, Except.bind, pure, Except.pure, h2, mergedChild]

theorem mergedChild_inMap (p2u : Dict Name (List Name)) {c : Child} (h : c.p2u.keys.Nodup) (p u : Name) :
    InMap (mergedChild p2u c) p u ↔ InMap p2u p u ∨ ∃ k u', InMap c.p2u k u' ∧ u = prependNamespace c.name u' ∧
      ((IsPromoted c.promotes k ∧ p = k) ∨ (¬ IsPromoted c.promotes k ∧ p = prependNamespace c.name k)) := by
  rw [mergedChild, mergeInto_inMap, mergeInto_inMap, or_assoc]
  apply or_congr_right
  simp only [List.mem_map, List.mem_filter, Prod.exists, upEntry, stayEntry, Prod.mk.injEq]
  constructor
  · rintro (⟨us, ⟨k, v, ⟨hkv, hp⟩, rfl, rfl⟩, hu⟩ | ⟨us, ⟨k, v, ⟨hkv, hp⟩, rfl, rfl⟩, hu⟩)
    · obtain ⟨u', hu', rfl⟩ := List.mem_map.1 hu
      exact ⟨k, u', ⟨v, Dict.mem_get? h hkv, hu'⟩, rfl, Or.inl ⟨isProm_iff.1 hp, rfl⟩⟩
    · obtain ⟨u', hu', rfl⟩ := List.mem_map.1 hu
      refine ⟨k, u', ⟨v, Dict.mem_get? h hkv, hu'⟩, rfl, Or.inr ⟨?_, rfl⟩⟩
      rw [← isProm_iff]; simpa using hp
  · rintro ⟨k, u', ⟨v, hv, hu'⟩, rfl, (⟨hp, rfl⟩ | ⟨hp, rfl⟩)⟩
    · exact Or.inl ⟨_, ⟨p, v, ⟨Dict.get?_some_mem hv, isProm_iff.2 hp⟩, rfl, rfl⟩, List.mem_map.2 ⟨u', hu', rfl⟩⟩
    · refine Or.inr ⟨_, ⟨k, v, ⟨Dict.get?_some_mem hv, ?_⟩, rfl, rfl⟩, List.mem_map.2 ⟨u', hu', rfl⟩⟩
      rw [← isProm_iff] at hp; simpa using hp

theorem mergeChildren_ok {names : List Name} {cs : List Child} (hcs : ∀ c ∈ cs, c.p2u.keys.Nodup)
    {d r : Dict Name (List Name)} (h : mergeChildren names d cs = .ok r) :
    (d.keys.Nodup → r.keys.Nodup) ∧
    (∀ p u, InMap r p u ↔ InMap d p u ∨ ∃ c ∈ cs, ∃ k u', InMap c.p2u k u' ∧ u = prependNamespace c.name u' ∧
      ((IsPromoted c.promotes k ∧ p = k) ∨ (¬ IsPromoted c.promotes k ∧ p = prependNamespace c.name k))) ∧
    (∀ c ∈ cs, ∀ l, c.promotes = some l → ∀ n ∈ l, n ∈ names) ∧
    (NonemptySets d → (∀ c ∈ cs, NonemptySets c.p2u) → NonemptySets r) := by
  induction cs generalizing d with
  | nil =>
    simp only [mergeChildren, Except.ok.injEq] at h; subst h; simp
  | cons c cs ih =>
    rw [mergeChildren, Except.bind_ok] at h
    obtain ⟨d', h1, h2⟩ := h
    have hc := hcs c (by simp)
    rw [mergeChild_eq names d hc] at h1
    split at h1
    · cases h1
    rename_i hval
    simp only [Except.ok.injEq] at h1; subst h1
    obtain ⟨i1, i2, i3, i4⟩ := ih (fun c' h' => hcs c' (by simp [h'])) h2
    refine ⟨fun hd => i1 (mergeInto_nodup _ (mergeInto_nodup _ hd)), ?_, ?_, ?_⟩
    · intro p u
      rw [i2, mergedChild_inMap d hc, or_assoc]
      apply or_congr_right
      simp
    · intro c' h' l hl n hn
      rcases List.mem_cons.1 h' with rfl | h'
      · by_contra hbad
        exact hval (badPromotes_iff.2 ⟨l, hl, n, hn, hbad⟩)
      · exact i3 c' h' l hl n hn
    · intro hd hne
      refine i4 (mergeInto_nonempty _ (mergeInto_nonempty _ hd ?_) ?_) (fun c' h' => hne c' (by simp [h']))
      · intro kv hkv
        simp only [List.mem_map, List.mem_filter] at hkv
        obtain ⟨kv', ⟨hm, _⟩, rfl⟩ := hkv
        have := hne c (by simp) kv'.1 kv'.2 (Dict.mem_get? hc hm)
        simpa [upEntry] using this
      · intro kv hkv
        simp only [List.mem_map, List.mem_filter] at hkv
        obtain ⟨kv', ⟨hm, _⟩, rfl⟩ := hkv
        have := hne c (by simp) kv'.1 kv'.2 (Dict.mem_get? hc hm)
        simpa [stayEntry] using this

theorem mergeChildren_error {names : List Name} {cs : List Child} (hcs : ∀ c ∈ cs, c.p2u.keys.Nodup)
    {d : Dict Name (List Name)} {e : PErr} (h : mergeChildren names d cs = .error e) :
    e = .invalidPromotes ∧ ∃ c ∈ cs, ∃ l, c.promotes = some l ∧ ∃ n ∈ l, n ∉ names := by
  induction cs generalizing d with
  | nil => simp [mergeChildren] at h
  | cons c cs ih =>
    rw [mergeChildren, Except.bind_error] at h
    rcases h with h | ⟨d', _, h⟩
    · rw [mergeChild_eq names d (hcs c (by simp))] at h
      split at h
      · rename_i hv
        exact ⟨by simpa using h.symm, c, by simp, badPromotes_iff.1 hv⟩
      · cases h
    · obtain ⟨h1, c', h2, h3⟩ := ih (fun c' h' => hcs c' (by simp [h'])) h
      exact ⟨h1, c', by simp [h2], h3⟩

/-! ### local part -/

theorem foldl_set_self (ks : List Name) (d : Dict Name (List Name)) (p : Name) :
    (ks.foldl (fun d k => d.set k [k]) d).get? p = if p ∈ ks then some [p] else d.get? p := by
  induction ks generalizing d with
  | nil => simp
  | cons k ks ih =>
    rw [List.foldl_cons, ih, Dict.get?_set]
    by_cases h1 : p ∈ ks
    · simp [h1]
    · by_cases h2 : k = p
      · subst h2; simp
      · simp [h1, h2, Ne.symm h2]

theorem foldl_set_nodup (ks : List Name) {d : Dict Name (List Name)} (h : d.keys.Nodup) :
    (ks.foldl (fun d k => d.set k [k]) d).keys.Nodup := by
  induction ks generalizing d with
  | nil => exact h
  | cons k ks ih => exact ih (Dict.nodup_set h _ _)

theorem localMap_nodup (l : Local) : (localMap l).keys.Nodup :=
  foldl_set_nodup _ (foldl_set_nodup _ (by simp [Dict.keys]))

theorem keys_localSrc (l : Local) (p : Name) :
    p ∈ (localSourceShapes l).keys ↔ ∃ v ∈ l.sources, v.name = p := by
  rw [localSourceShapes, Dict.keys_ofPairs]; simp

theorem keys_localTgt (l : Local) (p : Name) :
    p ∈ (localTargetShapes l).keys ↔ ∃ v ∈ l.declared, v.name = p := by
  rw [localTargetShapes, Dict.keys_ofPairs]; simp

theorem localMap_inMap (l : Local) (p u : Name) :
    InMap (localMap l) p u ↔ u = p ∧ ∃ k, ∃ v ∈ l.vars k, v.name = p := by
  unfold InMap localMap
  simp only [foldl_set_self, Dict.get?]
  have e : (∃ k, ∃ v ∈ l.vars k, v.name = p) ↔
      p ∈ (localSourceShapes l).keys ∨ p ∈ (localTargetShapes l).keys := by
    rw [keys_localSrc, keys_localTgt]
    constructor
    · rintro ⟨k, v, hv, hn⟩
      cases k
      · exact Or.inl ⟨v, hv, hn⟩
      · exact Or.inr ⟨v, hv, hn⟩
    · rintro (⟨v, hv, hn⟩ | ⟨v, hv, hn⟩)
      · exact ⟨.source, v, hv, hn⟩
      · exact ⟨.target, v, hv, hn⟩
  rw [e]
  by_cases h1 : p ∈ (localTargetShapes l).keys
  · simp [h1]
  · by_cases h2 : p ∈ (localSourceShapes l).keys
    · simp [h1, h2]
    · simp [h1, h2]

theorem localMap_nonempty (l : Local) : NonemptySets (localMap l) := by
  intro k us h
  unfold localMap at h
  simp only [foldl_set_self, Dict.get?] at h
  split at h
  · simp at h; simp [← h]
  · split at h
    · simp at h; simp [← h]
    · cases h

/-! ### the checks -/

theorem checkDup_ok {a b : Dict Name Shape} :
    checkDuplicateKeys a b = .ok () ↔ ∀ k ∈ b.keys, k ∉ a.keys := by
  unfold checkDuplicateKeys
  simp only [List.any_eq_true, Dict.has_iff]
  split
  · rename_i h; simp; simpa using h
  · rename_i h; simp; simpa using h

theorem checkDup_error {a b : Dict Name Shape} {e : PErr} :
    checkDuplicateKeys a b = .error e ↔ e = .duplicateSource ∧ ∃ k ∈ b.keys, k ∈ a.keys := by
  unfold checkDuplicateKeys
  simp only [List.any_eq_true, Dict.has_iff]
  split
  · rename_i h
    constructor
    · intro h'; exact ⟨by simpa using h'.symm, h⟩
    · rintro ⟨rfl, _⟩; rfl
  · rename_i h
    constructor
    · intro h'; cases h'
    · rintro ⟨_, h'⟩; exact absurd h' h

theorem matching_ok {a b : Dict Name Shape} (ha : a.keys.Nodup) :
    findNamesWithMatchingShapes a b = .ok () ↔
      ∀ k v w, a.get? k = some v → b.get? k = some w → v.size = w.size := by
  unfold findNamesWithMatchingShapes
  split
  · rename_i h
    simp only [true_iff]
    rw [List.all_eq_true] at h
    intro k v w hv hw
    have := h (k, v) (Dict.get?_some_mem hv)
    simp only [hw, Bool.or_eq_true, beq_iff_eq] at this
    rcases this with rfl | h
    · rfl
    · exact h
  · rename_i h
    simp only [reduceCtorEq, false_iff]
    intro hall
    apply h
    rw [List.all_eq_true]
    rintro ⟨k, v⟩ hkv
    cases hw : b.get? k with
    | none => simp [hw]
    | some w =>
      have := hall k v w (Dict.mem_get? ha hkv) hw
      simp [hw, this]

theorem matching_error {a b : Dict Name Shape} {e : PErr}
    (h : findNamesWithMatchingShapes a b = .error e) : e = .shapeMismatch := by
  unfold findNamesWithMatchingShapes at h
  split at h
  · cases h
  · simpa using h.symm

/-! ### `finish` and `resolveSubs` -/

def nsSrc (l : Local) (psrc : Dict Name Shape) := (localSourceShapes l).update psrc
def nsTgt (l : Local) (ptgt : Dict Name Shape) := (localTargetShapes l).update ptgt

theorem finish_eq (l : Local) (cs : List Child) (psrc ptgt : Dict Name Shape) (pr : Option (List Name)) :
    finish l cs psrc ptgt pr = (do
      checkDuplicateKeys (localSourceShapes l) psrc
      findNamesWithMatchingShapes ptgt (localTargetShapes l)
      findNamesWithMatchingShapes (localSourceShapes l) ptgt
      findNamesWithMatchingShapes psrc (localTargetShapes l)
      let p2u ← mergeChildren ((nsSrc l psrc).keys ++ (nsTgt l ptgt).keys) (localMap l) cs
      pure { p2u := p2u, src := userPromotable pr (nsSrc l psrc), tgt := userPromotable pr (nsTgt l ptgt) }) := by
  cases psrc with
  | nil =>
    cases ptgt with
    | nil => rfl
    | cons _ _ => rfl
  | cons _ _ =>
    cases ptgt with
    | nil => rfl
    | cons _ _ => rfl

theorem finish_ok {l : Local} {cs : List Child} {psrc ptgt : Dict Name Shape} {pr : Option (List Name)} {r : Res}
    (h : finish l cs psrc ptgt pr = .ok r) :
    checkDuplicateKeys (localSourceShapes l) psrc = .ok () ∧
    findNamesWithMatchingShapes ptgt (localTargetShapes l) = .ok () ∧
    findNamesWithMatchingShapes (localSourceShapes l) ptgt = .ok () ∧
    findNamesWithMatchingShapes psrc (localTargetShapes l) = .ok () ∧
    mergeChildren ((nsSrc l psrc).keys ++ (nsTgt l ptgt).keys) (localMap l) cs = .ok r.p2u ∧
    r.src = userPromotable pr (nsSrc l psrc) ∧ r.tgt = userPromotable pr (nsTgt l ptgt) := by
  rw [finish_eq] at h
  simp only [Except.bind_ok] at h
  obtain ⟨_, h1, _, h2, _, h3, _, h4, p2u, h5, h6⟩ := h
  simp only [pure, Except.pure, Except.ok.injEq] at h6
  subst h6
  exact ⟨h1, h2, h3, h4, h5, rfl, rfl⟩

theorem finish_error {l : Local} {cs : List Child} {psrc ptgt : Dict Name Shape} {pr : Option (List Name)} {e : PErr}
    (hcs : ∀ c ∈ cs, c.p2u.keys.Nodup)
    (h : finish l cs psrc ptgt pr = .error e) :
    (e = .duplicateSource ∧ ∃ k ∈ psrc.keys, k ∈ (localSourceShapes l).keys) ∨
    e = .shapeMismatch ∨
    (e = .invalidPromotes ∧ ∃ c ∈ cs, ∃ q, c.promotes = some q ∧
      ∃ n ∈ q, n ∉ (nsSrc l psrc).keys ++ (nsTgt l ptgt).keys) := by
  rw [finish_eq] at h
  simp only [Except.bind_error] at h
  rcases h with h | ⟨_, _, h | ⟨_, _, h | ⟨_, _, h | ⟨_, _, h | ⟨_, _, h⟩⟩⟩⟩⟩
  · exact Or.inl (checkDup_error.1 h)
  · exact Or.inr (Or.inl (matching_error h))
  · exact Or.inr (Or.inl (matching_error h))
  · exact Or.inr (Or.inl (matching_error h))
  · exact Or.inr (Or.inr (mergeChildren_error hcs h))
  · cases h

/-- The checks made while accumulating the children. -/
def Chain : List Res → Dict Name Shape → Dict Name Shape → Prop
  | [], _, _ => True
  | r :: rs, a, b => checkDuplicateKeys r.src a = .ok () ∧ findNamesWithMatchingShapes r.tgt b = .ok () ∧
      Chain rs (a.update r.src) (b.update r.tgt)

theorem resolveSubs_ok : ∀ (subs : Subs) (a b a' b' : Dict Name Shape) (cs : List Child),
    resolveSubs subs a b = .ok (cs, a', b') →
    ∃ rs : List Res, List.Forall₂ (fun s r => resolve s.model s.promotes = .ok r) subs.toList rs ∧
      cs = List.zipWith (fun s r => ⟨s.name, s.promotes, r.p2u⟩) subs.toList rs ∧
      a' = rs.foldl (fun d r => d.update r.src) a ∧ b' = rs.foldl (fun d r => d.update r.tgt) b ∧ Chain rs a b
  | .nil => by
    intro a b a' b' cs h
    simp only [resolveSubs, Except.ok.injEq, Prod.mk.injEq] at h
    obtain ⟨rfl, rfl, rfl⟩ := h
    exact ⟨[], by simp [Subs.toList], by simp [Subs.toList], rfl, rfl, trivial⟩
  | .cons n p m rest => by
    intro a b a' b' cs h
    simp only [resolveSubs, Except.bind_ok] at h
    obtain ⟨r, hr, _, h1, _, h2, ⟨cs1, a1, b1⟩, h3, h4⟩ := h
    simp only [pure, Except.pure, Except.ok.injEq, Prod.mk.injEq] at h4
    obtain ⟨rfl, rfl, rfl⟩ := h4
    obtain ⟨rs, i1, i2, i3, i4, i5⟩ := resolveSubs_ok rest _ _ _ _ _ h3
    refine ⟨r :: rs, ?_, ?_, ?_, ?_, h1, h2, i5⟩
    · simp only [Subs.toList]; exact List.Forall₂.cons hr i1
    · simp [Subs.toList, i2]
    · simp [i3]
    · simp [i4]

theorem resolve_ok {l : Local} {subs : Subs} {pr : Option (List Name)} {r : Res}
    (h : resolve (.mk l subs) pr = .ok r) :
    ∃ cs psrc ptgt, resolveSubs subs [] [] = .ok (cs, psrc, ptgt) ∧ finish l cs psrc ptgt pr = .ok r := by
  simp only [resolve, Except.bind_ok] at h
  obtain ⟨⟨cs, a, b⟩, h1, h2⟩ := h
  exact ⟨cs, a, b, h1, h2⟩

theorem forall₂_mem_left {α β : Type} {R : α → β → Prop} {l : List α} {l' : List β}
    (h : List.Forall₂ R l l') {x : α} (hx : x ∈ l) : ∃ y ∈ l', R x y := by
  induction h with
  | nil => simp at hx
  | cons h1 _ ih =>
    rcases List.mem_cons.1 hx with rfl | hx
    · exact ⟨_, by simp, h1⟩
    · obtain ⟨y, hy, hr⟩ := ih hx; exact ⟨y, by simp [hy], hr⟩

theorem forall₂_mem_right {α β : Type} {R : α → β → Prop} {l : List α} {l' : List β}
    (h : List.Forall₂ R l l') {y : β} (hy : y ∈ l') : ∃ x ∈ l, R x y := by
  induction h with
  | nil => simp at hy
  | cons h1 _ ih =>
    rcases List.mem_cons.1 hy with rfl | hx
    · exact ⟨_, by simp, h1⟩
    · obtain ⟨y, hy, hr⟩ := ih hx; exact ⟨y, by simp [hy], hr⟩

theorem mem_children {subs : List Subgraph} {rs : List Res}
    (h : List.Forall₂ (fun s r => resolve s.model s.promotes = .ok r) subs rs) (c : Child) :
    c ∈ List.zipWith (fun s r => (⟨s.name, s.promotes, r.p2u⟩ : Child)) subs rs ↔
      ∃ s ∈ subs, ∃ r, resolve s.model s.promotes = .ok r ∧ c = ⟨s.name, s.promotes, r.p2u⟩ := by
  induction h with
  | nil => simp
  | @cons s r _ _ h1 _ ih =>
    simp only [List.zipWith_cons_cons, List.mem_cons, ih]
    constructor
    · rintro (rfl | ⟨s', hs', r', hr', rfl⟩)
      · exact ⟨s, by simp, r, h1, rfl⟩
      · exact ⟨s', by simp [hs'], r', hr', rfl⟩
    · rintro ⟨s', hs', r', hr', rfl⟩
      rcases hs' with rfl | hs'
      · rw [h1] at hr'; cases hr'; exact Or.inl rfl
      · exact Or.inr ⟨s', hs', r', hr', rfl⟩

/-! ### the promotion map -/

theorem p2u_facts (m : Model) : ∀ {pr : Option (List Name)} {r : Res}, resolve m pr = .ok r →
    r.p2u.keys.Nodup ∧ NonemptySets r.p2u ∧
    (∀ p u, InMap r.p2u p u ↔ ∃ path k v, PromotedAs m path k v p ∧ u = fullName path v.name) := by
  induction m using Model.ind with
  | h l subs ih =>
    intro pr r h
    obtain ⟨cs, psrc, ptgt, h1, h2⟩ := resolve_ok h
    obtain ⟨rs, f1, rfl, _, _, _⟩ := resolveSubs_ok subs _ _ _ _ _ h1
    obtain ⟨_, _, _, _, g5, _, _⟩ := finish_ok h2
    have hcs : ∀ c ∈ List.zipWith (fun s r => (⟨s.name, s.promotes, r.p2u⟩ : Child)) subs.toList rs, c.p2u.keys.Nodup := by
      intro c hc
      obtain ⟨s, hs, r', hr', rfl⟩ := (mem_children f1 c).1 hc
      exact (ih s hs hr').1
    obtain ⟨m1, m2, _, m4⟩ := mergeChildren_ok hcs g5
    refine ⟨m1 (localMap_nodup l), m4 (localMap_nonempty l) ?_, ?_⟩
    · intro c hc
      obtain ⟨s, hs, r', hr', rfl⟩ := (mem_children f1 c).1 hc
      exact (ih s hs hr').2.1
    · intro p u
      rw [m2, localMap_inMap]
      constructor
      · rintro (⟨rfl, k, v, hv, rfl⟩ | ⟨c, hc, k, u', hin, rfl, hor⟩)
        · exact ⟨[], k, v, .here hv, rfl⟩
        · obtain ⟨s, hs, r', hr', rfl⟩ := (mem_children f1 c).1 hc
          obtain ⟨path, kd, v, hp, rfl⟩ := ((ih s hs hr').2.2 k u').1 hin
          rcases hor with ⟨hpr, rfl⟩ | ⟨hpr, rfl⟩
          · exact ⟨s.name :: path, kd, v, .up hs hp hpr, rfl⟩
          · exact ⟨s.name :: path, kd, v, .stay hs hp hpr, rfl⟩
      · rintro ⟨path, k, v, hp, rfl⟩
        cases hp with
        | here hv => exact Or.inl ⟨rfl, k, v, hv, rfl⟩
        | @up _ _ path _ _ _ s hs hp hpr =>
          obtain ⟨r', _, hr'⟩ := forall₂_mem_left f1 hs
          exact Or.inr ⟨⟨s.name, s.promotes, r'.p2u⟩, (mem_children f1 _).2 ⟨s, hs, r', hr', rfl⟩, p,
            fullName path v.name, ((ih s hs hr').2.2 _ _).2 ⟨path, k, v, hp, rfl⟩, rfl, Or.inl ⟨hpr, rfl⟩⟩
        | @stay _ _ path _ _ p' s hs hp hpr =>
          obtain ⟨r', _, hr'⟩ := forall₂_mem_left f1 hs
          exact Or.inr ⟨⟨s.name, s.promotes, r'.p2u⟩, (mem_children f1 _).2 ⟨s, hs, r', hr', rfl⟩, p',
            fullName path v.name, ((ih s hs hr').2.2 _ _).2 ⟨path, k, v, hp, rfl⟩, rfl, Or.inr ⟨hpr, rfl⟩⟩

end Csdl
