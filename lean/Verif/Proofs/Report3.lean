import Verif.Proofs.Report2

namespace Csdl

/-! ### declared_to -/

theorem mem_addAttr {f : Nat → List Nat} {v w t : Nat} {l : List Nat} : t ∈ addAttr f v l w ↔ t ∈ f w ∨ (w = v ∧ t ∈ l) := by
  unfold addAttr
  split
  · rename_i h
    simp only [List.mem_append, List.mem_filter, decide_eq_true_eq, h, true_and]
    by_cases ht : t ∈ f v <;> simp [ht]
  · rename_i h; simp [h]

theorem nodup_addAttr {f : Nat → List Nat} {v : Nat} {l : List Nat} (hl : l.Nodup) (hf : ∀ w, (f w).Nodup) (w : Nat) : (addAttr f v l w).Nodup := by
  unfold addAttr
  split
  · rw [List.nodup_append]
    refine ⟨hf w, hl.filter _, ?_⟩
    intro a ha b hb
    have := (List.mem_filter.1 hb).2
    simp only [decide_eq_true_eq] at this
    exact fun he => this (he ▸ ha)
  · exact hf w

theorem declaredRedundant_eq (order : List Nat → List Nat) (u : Dict Name Nat) (red : Dict Name (List Nat)) :
    declaredRedundant order u red = (redPairs order u red).foldl (fun f e => addAttr f e.1 [e.2]) fun _ => [] := by
  unfold declaredRedundant redPairs
  generalize (fun _ => [] : Nat → List Nat) = f0
  induction red generalizing f0 with
  | nil => rfl
  | cons kt red ih =>
    rw [List.foldl_cons, List.flatMap_cons, List.foldl_append, ih]
    congr 1
    cases u.get? kt.1 with
    | none => rfl
    | some r => dsimp only; rw [List.foldl_map]

theorem mem_addPairs (L : List (Nat × Nat)) : ∀ (f : Nat → List Nat) (w t : Nat), t ∈ L.foldl (fun f e => addAttr f e.1 [e.2]) f w ↔ t ∈ f w ∨ (w, t) ∈ L := by
  induction L with
  | nil => intro f w t; simp
  | cons e L ih =>
    intro f w t
    rw [List.foldl_cons, ih, mem_addAttr]
    simp only [List.mem_cons, List.not_mem_nil, or_false]
    constructor
    · rintro ((h | ⟨rfl, rfl⟩) | h)
      · exact Or.inl h
      · exact Or.inr (Or.inl rfl)
      · exact Or.inr (Or.inr h)
    · rintro (h | h | h)
      · exact Or.inl (Or.inl h)
      · exact Or.inl (Or.inr ⟨by rw [← h], by rw [← h]⟩)
      · exact Or.inr h

theorem nodup_addPairs (L : List (Nat × Nat)) : ∀ (f : Nat → List Nat), (∀ w, (f w).Nodup) → ∀ w, (L.foldl (fun f e => addAttr f e.1 [e.2]) f w).Nodup := by
  induction L with
  | nil => intro f h w; exact h w
  | cons e L ih => intro f h; rw [List.foldl_cons]; exact ih _ (nodup_addAttr (by simp) h)

/-- one source takes over what its representative target has -/
def takeOver (f : Nat → List Nat) (e : Nat × Nat) : Nat → List Nat := fun w => if w = e.2 then [] else addAttr (addAttr f e.1 [e.2]) e.1 (f e.2) w

theorem declaredSources_eq (u sources : Dict Name Nat) (f : Nat → List Nat) : declaredSources u sources f = (srcPairs u sources).foldl takeOver f := by
  unfold declaredSources srcPairs
  induction sources generalizing f with
  | nil => rfl
  | cons ks sources ih =>
    rw [List.foldl_cons, ih, List.filterMap_cons]
    cases u.get? ks.1 with
    | none => rfl
    | some r => rfl

theorem nodup_takeOver (L : List (Nat × Nat)) : ∀ (f : Nat → List Nat), (∀ w, (f w).Nodup) → ∀ w, (L.foldl takeOver f w).Nodup := by
  induction L with
  | nil => intro f h w; exact h w
  | cons e L ih =>
    intro f h
    rw [List.foldl_cons]
    refine ih _ ?_
    intro w
    unfold takeOver
    split
    · exact .nil
    · exact nodup_addAttr (h _) (nodup_addAttr (by simp) h) w

theorem mem_takeOver (L : List (Nat × Nat)) : ∀ (f : Nat → List Nat), (L.map (·.2)).Nodup → (∀ e ∈ L, ∀ e' ∈ L, e.1 ≠ e'.2) →
    ∀ w t, t ∈ L.foldl takeOver f w ↔ (∀ e ∈ L, e.2 ≠ w) ∧ (t ∈ f w ∨ ∃ b, (w, b) ∈ L ∧ (t = b ∨ t ∈ f b)) := by
  induction L with
  | nil => intro f _ _ w t; simp
  | cons e L ih =>
    intro f hn hd w t
    rw [List.map_cons, List.nodup_cons] at hn
    rw [List.foldl_cons, ih _ hn.2 (fun a ha b hb => hd a (by simp [ha]) b (by simp [hb]))]
    have hne : ∀ e' ∈ L, e'.2 ≠ e.2 := fun e' he' h => hn.1 (List.mem_map.2 ⟨e', he', h⟩)
    have hsame : ∀ b, (∃ a, (a, b) ∈ L) → takeOver f e b = f b := by
      rintro b ⟨a, hb⟩
      unfold takeOver
      rw [if_neg (hne _ hb)]
      have : b ≠ e.1 := fun h => hd e (by simp) (a, b) (by simp [hb]) h.symm
      simp [addAttr, this]
    constructor
    · rintro ⟨h1, h2⟩
      by_cases hw : w = e.2
      · exfalso
        rcases h2 with h2 | ⟨b, h2, h3⟩
        · rw [takeOver, if_pos hw] at h2; cases h2
        · exact hd (w, b) (by simp [h2]) e (by simp) hw
      · refine ⟨?_, ?_⟩
        · intro e' he'
          rcases List.mem_cons.1 he' with rfl | he'
          · exact fun h => hw h.symm
          · exact h1 e' he'
        · rcases h2 with h2 | ⟨b, h2, h3⟩
          · rw [takeOver, if_neg hw, mem_addAttr, mem_addAttr] at h2
            rcases h2 with (h2 | ⟨rfl, h2⟩) | ⟨rfl, h2⟩
            · exact Or.inl h2
            · exact Or.inr ⟨e.2, by simp, Or.inl (List.mem_singleton.1 h2)⟩
            · exact Or.inr ⟨e.2, by simp, Or.inr h2⟩
          · rw [hsame b ⟨w, h2⟩] at h3
            exact Or.inr ⟨b, by simp [h2], h3⟩
    · rintro ⟨h1, h2⟩
      have hw : w ≠ e.2 := fun h => h1 e (by simp) h.symm
      refine ⟨fun e' he' => h1 e' (by simp [he']), ?_⟩
      rcases h2 with h2 | ⟨b, h2, h3⟩
      · left; rw [takeOver, if_neg hw, mem_addAttr, mem_addAttr]; exact Or.inl (Or.inl h2)
      · rcases List.mem_cons.1 h2 with h2 | h2
        · left
          rw [takeOver, if_neg hw, mem_addAttr, mem_addAttr, ← h2]
          rcases h3 with rfl | h3
          · exact Or.inl (Or.inr ⟨rfl, by simp⟩)
          · exact Or.inr ⟨rfl, h3⟩
        · right
          refine ⟨b, h2, ?_⟩
          rw [hsame b ⟨w, h2⟩]
          exact h3

theorem srcPairs_nodup {u sources : Dict Name Nat} (hn : sources.keys.Nodup) (hinj : ∀ k k' b, u.get? k = some b → u.get? k' = some b → k = k') : ((srcPairs u sources).map (·.2)).Nodup := by
  unfold srcPairs
  unfold Dict.keys at hn
  induction sources with
  | nil => simp
  | cons ks S ih =>
    rw [List.map_cons, List.nodup_cons] at hn
    rw [List.filterMap_cons]
    cases hu : u.get? ks.1 with
    | none => exact ih hn.2
    | some r =>
      dsimp only
      rw [List.map_cons, List.nodup_cons]
      refine ⟨?_, ih hn.2⟩
      intro hc
      obtain ⟨e, he, he2⟩ := List.mem_map.1 hc
      obtain ⟨kt, hkt, h1⟩ := List.mem_filterMap.1 he
      cases hu' : u.get? kt.1 with
      | none => rw [hu'] at h1; cases h1
      | some r' =>
        rw [hu'] at h1
        simp only [Option.some.injEq] at h1
        subst h1
        dsimp only at he2
        subst he2
        exact hn.1 (List.mem_map.2 ⟨kt, hkt, hinj _ _ _ hu' hu⟩)

section
variable {I : NHeap} {st : FState}

/-- `declared_to` lists, for every variable, the other variables merged into it by name. -/
theorem declaredTo_spec {order : List Nat → List Nat} (ho : ∀ l x, x ∈ order l ↔ x ∈ l) (hw : st.graph.WF)
    (hs : ∀ a b t, IsSource I st.graph a → IsSource I st.graph b → IsTarget I st.graph t → st.pname I t = st.pname I a → st.pname I a = st.pname I b → a = b)
    {f : Nat → Nat} (h2 : ∀ x s, IsTarget I st.graph x → IsSource I st.graph s → st.pname I s = st.pname I x → f x = s)
    (h3 : ∀ x, IsTarget I st.graph x → (∀ s, IsSource I st.graph s → st.pname I s ≠ st.pname I x) →
        (uniqueTargets I st (tgtNodes I (varNodes I st.graph))).get? (st.pname I x) = some (f x)) :
    ∀ v, (declaredTo I order st v).Nodup ∧ ∀ t, t ∈ declaredTo I order st v ↔ IsTarget I st.graph t ∧ f t = v ∧ t ≠ v := by
  obtain ⟨u1, u2, u3⟩ := uniqueTargets_spec (I := I) (st := st) (tgtNodes I (varNodes I st.graph))
  have hnd : (tgtNodes I (varNodes I st.graph)).Nodup := (hw.nodup.filter _).filter _
  have hdef : declaredTo I order st = declaredSources (uniqueTargets I st (tgtNodes I (varNodes I st.graph))) (Dict.ofPairs ((srcNodes I (varNodes I st.graph)).map fun x => (st.pname I x, x)))
      (declaredRedundant order (uniqueTargets I st (tgtNodes I (varNodes I st.graph))) (groupTargets I st (removeAll (tgtNodes I (varNodes I st.graph))
        ((uniqueTargets I st (tgtNodes I (varNodes I st.graph))).map (·.2))))) := rfl
  generalize hu : uniqueTargets I st (tgtNodes I (varNodes I st.graph)) = u at u1 u2 u3 h3 hdef
  have hrem := fun x => mem_removeAll (u.map (·.2)) hnd x
  generalize hR : removeAll (tgtNodes I (varNodes I st.graph)) (u.map (·.2)) = R at hrem hdef
  obtain ⟨g1, g2⟩ := groupTargets_spec (I := I) (st := st) R
  have g3 := fun t ht => groupTargets_total (I := I) (st := st) R (t := t) ht
  generalize hgr : groupTargets I st R = red at g1 g2 g3 hdef
  have hsn : (Dict.ofPairs ((srcNodes I (varNodes I st.graph)).map fun x => (st.pname I x, x))).keys.Nodup := Dict.nodup_ofPairs _
  have hsg : ∀ k s, (Dict.ofPairs ((srcNodes I (varNodes I st.graph)).map fun x => (st.pname I x, x))).get? k = some s →
      IsSource I st.graph s ∧ st.pname I s = k := by
    intro k s h
    have h' : Dict.get? (Dict.update [] ((srcNodes I (varNodes I st.graph)).map fun x => (st.pname I x, x))) k = some s := h
    rcases Dict.mem_update h' with h1 | h1
    · obtain ⟨y, hy, he⟩ := List.mem_map.1 h1
      cases he
      exact ⟨mem_sources.1 hy, rfl⟩
    · simp [Dict.get?] at h1
  have hsg2 : ∀ s t, IsSource I st.graph s → IsTarget I st.graph t → st.pname I t = st.pname I s →
      (Dict.ofPairs ((srcNodes I (varNodes I st.graph)).map fun x => (st.pname I x, x))).get? (st.pname I s) = some s := by
    intro s t h1 ht hn
    obtain ⟨s', hs'⟩ := Dict.mem_keys_get? (d := Dict.ofPairs ((srcNodes I (varNodes I st.graph)).map fun x => (st.pname I x, x))) (k := st.pname I s) (by
      rw [Dict.keys_ofPairs]; simp only [List.map_map, List.mem_map, Function.comp]; exact ⟨s, mem_sources.2 h1, rfl⟩)
    have := hsg _ _ hs'
    rw [hs', hs s' s t this.1 h1 ht (by rw [hn, this.2]) this.2]
  generalize hS : Dict.ofPairs ((srcNodes I (varNodes I st.graph)).map fun x => (st.pname I x, x)) = S at hsn hsg hsg2 hdef
  have hrep : ∀ r, r ∈ u.map (·.2) ↔ ∃ k, u.get? k = some r := by
    intro r
    rw [List.mem_map]
    constructor
    · rintro ⟨⟨k, x⟩, hm, rfl⟩; exact ⟨k, Dict.mem_get? u3 hm⟩
    · rintro ⟨k, hk⟩; exact ⟨(k, r), Dict.get?_some_mem hk, rfl⟩
  have hut : ∀ k r, u.get? k = some r → IsTarget I st.graph r ∧ st.pname I r = k := by
    intro k r hr
    obtain ⟨h1, h2, _⟩ := u1 k r hr
    exact ⟨mem_targets.1 h1, h2⟩
  have hred : ∀ a b, (a, b) ∈ redPairs order u red ↔ IsTarget I st.graph b ∧ (∀ k, u.get? k ≠ some b) ∧ u.get? (st.pname I b) = some a := by
    intro a b
    rw [mem_redPairs ho g1]
    constructor
    · rintro ⟨k, ts, h1, h2, h3⟩
      obtain ⟨h4, rfl⟩ := (g2 k ts h1 b).1 h2
      obtain ⟨h5, h6⟩ := (hrem b).1 h4
      refine ⟨mem_targets.1 h5, fun k hk => h6 ((hrep b).2 ⟨k, hk⟩), h3⟩
    · rintro ⟨h1, h2, h3⟩
      have hbR : b ∈ R := (hrem b).2 ⟨mem_targets.2 h1, fun hx => by obtain ⟨k, hk⟩ := (hrep b).1 hx; exact h2 k hk⟩
      obtain ⟨ts, hts⟩ := g3 b hbR
      exact ⟨_, ts, hts, (g2 _ _ hts b).2 ⟨hbR, rfl⟩, h3⟩
  have hsrc : ∀ a b, (a, b) ∈ srcPairs u S ↔ IsSource I st.graph a ∧ u.get? (st.pname I a) = some b := by
    intro a b
    rw [mem_srcPairs hsn]
    constructor
    · rintro ⟨k, h1, h2⟩
      obtain ⟨h3, rfl⟩ := hsg k a h1
      exact ⟨h3, h2⟩
    · rintro ⟨h1, h2⟩
      exact ⟨_, hsg2 a b h1 (hut _ _ h2).1 (hut _ _ h2).2, h2⟩
  have hnts : ∀ x, IsTarget I st.graph x → IsSource I st.graph x → False := fun x h1 h2 => h2.2.2 h1.2.2
  have hrepOf : ∀ t, IsTarget I st.graph t → ∃ r, u.get? (st.pname I t) = some r := by
    intro t ht
    have := u2 t (mem_targets.2 ht)
    exact this
  intro v
  rw [hdef, declaredRedundant_eq, declaredSources_eq]
  refine ⟨nodup_takeOver _ _ (nodup_addPairs _ _ fun _ => .nil) v, fun t => ?_⟩
  rw [mem_takeOver _ _ (srcPairs_nodup hsn fun k k' b e1 e2 => (hut _ _ e1).2.symm.trans (hut _ _ e2).2) (by
    rintro ⟨a, b⟩ he ⟨a', b'⟩ he' (rfl : a = b')
    exact hnts a (hut _ _ ((hsrc _ _).1 he').2).1 ((hsrc _ _).1 he).1)]
  simp only [mem_addPairs, List.not_mem_nil, false_or]
  constructor
  · rintro ⟨h4, h5⟩
    rcases h5 with h5 | ⟨b, h5, h6⟩
    · obtain ⟨a1, a2, a3⟩ := (hred v t).1 h5
      have hno : ∀ s, IsSource I st.graph s → st.pname I s ≠ st.pname I t := by
        intro s hs' hn
        exact h4 (s, v) ((hsrc s v).2 ⟨hs', by rw [hn]; exact a3⟩) rfl
      have := h3 t a1 hno
      rw [a3] at this
      injection this with this
      exact ⟨a1, this.symm, by intro he; subst he; exact a2 _ a3⟩
    · obtain ⟨b1, b2⟩ := (hsrc v b).1 h5
      obtain ⟨b3, b4⟩ := hut _ _ b2
      have key : IsTarget I st.graph t ∧ st.pname I t = st.pname I b := by
        rcases h6 with rfl | h6
        · exact ⟨b3, rfl⟩
        · obtain ⟨a1, a2, a3⟩ := (hred b t).1 h6
          exact ⟨a1, (hut _ _ a3).2.symm⟩
      exact ⟨key.1, h2 t v key.1 b1 (by rw [key.2, b4]), fun he => hnts t key.1 (he ▸ b1)⟩
  · rintro ⟨ht, hf, hne⟩
    by_cases hsrc' : ∃ s, IsSource I st.graph s ∧ st.pname I s = st.pname I t
    · obtain ⟨s, hs1, hs2⟩ := hsrc'
      have hfs := h2 t s ht hs1 hs2
      rw [hf] at hfs
      subst hfs
      refine ⟨?_, Or.inr ?_⟩
      · rintro ⟨a, b⟩ he (rfl : b = v)
        exact hnts b (hut _ _ ((hsrc _ _).1 he).2).1 hs1
      · obtain ⟨b, hb⟩ := hrepOf t ht
        refine ⟨b, (hsrc v b).2 ⟨hs1, by rw [hs2]; exact hb⟩, ?_⟩
        by_cases htb : t = b
        · exact Or.inl htb
        · refine Or.inr ((hred b t).2 ⟨ht, fun k hk => htb ?_, hb⟩)
          have := (hut _ _ hk).2
          subst this
          rw [hb] at hk
          injection hk with hk
          exact hk.symm
    · push Not at hsrc'
      have h4 := h3 t ht hsrc'
      rw [hf] at h4
      have hv := hut _ _ h4
      refine ⟨?_, Or.inl ((hred v t).2 ⟨ht, fun k hk => hne ?_, h4⟩)⟩
      · rintro ⟨a, b⟩ he (rfl : b = v)
        obtain ⟨c1, c2⟩ := (hsrc _ _).1 he
        exact hsrc' a c1 ((hut _ _ c2).2.symm.trans hv.2)
      · have := (hut _ _ hk).2
        subst this
        rw [h4] at hk
        injection hk with hk
        exact hk.symm

end

/-! ### the rows of a block -/

theorem concatAll_ok {α β : Type} {f : α → Option (List β)} : ∀ (as : List α), (∀ a ∈ as, ∃ l, f a = some l) → ∃ ls, List.Forall₂ (fun a l => f a = some l) as ls ∧ concatAll f as = some ls.flatten := by
  intro as
  induction as with
  | nil => intro _; exact ⟨[], .nil, rfl⟩
  | cons a as ih =>
    intro h
    obtain ⟨l, hl⟩ := h a (by simp)
    obtain ⟨ls, h1, h2⟩ := ih fun b hb => h b (by simp [hb])
    refine ⟨l :: ls, .cons hl h1, ?_⟩
    unfold concatAll
    rw [hl]
    dsimp only
    rw [h2]
    rfl

/-- the variables written directly below `v` -/
def Below (decl conn : Nat → List Nat) (v t : Nat) : Prop := t ∈ conn v ∨ t ∈ decl v

structure Forest (decl conn : Nat → List Nat) (rk : Nat → Nat) : Prop where
  rank : ∀ v t, Below decl conn v t → rk t < rk v
  parent : ∀ v w t, Below decl conn v t → Below decl conn w t → v = w
  nodupD : ∀ v, (decl v).Nodup
  nodupC : ∀ v, (conn v).Nodup
  disjoint : ∀ v t, t ∈ conn v → t ∉ decl v

theorem Forest.le {decl conn : Nat → List Nat} {rk : Nat → Nat} (h : Forest decl conn rk) {v x : Nat} (hx : Relation.ReflTransGen (Below decl conn) v x) : rk x ≤ rk v := by
  induction hx with
  | refl => exact le_rfl
  | tail _ hb ih => exact (h.rank _ _ hb).le.trans ih

/-- two variables above the same one are above each other -/
theorem Forest.chain {decl conn : Nat → List Nat} {rk : Nat → Nat} (h : Forest decl conn rk) {v w x : Nat} (hv : Relation.ReflTransGen (Below decl conn) v x)
    (hw : Relation.ReflTransGen (Below decl conn) w x) : Relation.ReflTransGen (Below decl conn) v w ∨ Relation.ReflTransGen (Below decl conn) w v := by
  induction hv with
  | refl => exact Or.inr hw
  | @tail b c hb hbc ih =>
    rcases Relation.ReflTransGen.cases_tail hw with rfl | ⟨b', hb', hbc'⟩
    · exact Or.inl (hb.tail hbc)
    · have := h.parent _ _ _ hbc' hbc
      subst this
      exact ih hb'

theorem Forest.siblings {decl conn : Nat → List Nat} {rk : Nat → Nat} (h : Forest decl conn rk) {p v w x : Nat} (h1 : Below decl conn p v) (h2 : Below decl conn p w)
    (hv : Relation.ReflTransGen (Below decl conn) v x) (hw : Relation.ReflTransGen (Below decl conn) w x) : v = w := by
  have key : ∀ a b, Below decl conn p a → Below decl conn p b → Relation.ReflTransGen (Below decl conn) a b → a = b := by
    intro a b ha hb hab
    rcases Relation.ReflTransGen.cases_tail hab with rfl | ⟨q, hq, hqb⟩
    · rfl
    · have := h.parent _ _ _ hqb hb
      subst this
      exact absurd (h.rank _ _ ha) (not_lt.2 (h.le hq))
  rcases h.chain hv hw with hc | hc
  · exact key v w h1 h2 hc
  · exact (key w v h2 h1 hc).symm

theorem nodup_flatten_of {α : Type} {ls : List (List α)} {as : List Nat} {S : Nat → α → Prop} (h : List.Forall₂ (fun a l => l.Nodup ∧ ∀ x ∈ l, S a x) as ls) (hn : as.Nodup)
    (hd : ∀ a ∈ as, ∀ b ∈ as, ∀ x, S a x → S b x → a = b) : ls.flatten.Nodup := by
  induction h with
  | nil => simp
  | @cons a l as ls h1 h2 ih =>
    rw [List.nodup_cons] at hn
    rw [List.flatten_cons, List.nodup_append]
    refine ⟨h1.1, ih hn.2 fun a ha b hb => hd a (by simp [ha]) b (by simp [hb]), ?_⟩
    rintro x hx y hy rfl
    obtain ⟨l', hl', hxl⟩ := List.mem_flatten.1 hy
    obtain ⟨b, hb, hbl⟩ := forall₂_mem_right h2 hl'
    have := hd a (by simp) b (by simp [hb]) x (h1.2 x hx) (hbl.2 x hxl)
    exact hn.1 (this ▸ hb)

theorem writeMerges_ok {I : NHeap} {uns : Nat → Name} {order : List Nat → List Nat} (ho : ∀ l, (order l).Perm l) {decl conn : Nat → List Nat} {rk : Nat → Nat} (h : Forest decl conn rk) :
    ∀ (fuel depth : Nat) (kind : MergeKind) (v : Nat), rk v < fuel → ∃ ls, writeMerges I uns order decl conn fuel depth kind v = some ls ∧ (ls.map MLine.node).Nodup ∧
      (∀ x, x ∈ ls.map MLine.node ↔ Relation.ReflTransGen (Below decl conn) v x) ∧
      (∃ tl, ls = ⟨depth, kind, v, (I v).role, prependNamespace (uns v) (I v).name⟩ :: tl) ∧
      ∀ line ∈ ls, line.role = (I line.node).role ∧ line.full = prependNamespace (uns line.node) (I line.node).name := by
  intro fuel
  induction fuel with
  | zero => intro _ _ v hv; omega
  | succ fuel ih =>
    intro depth kind v hv
    have hsub : ∀ (k : MergeKind) (l : List Nat), (∀ t ∈ l, Below decl conn v t) → l.Nodup → ∃ ls, concatAll (writeMerges I uns order decl conn fuel (depth + 1) k) (order l) = some ls ∧
        (ls.map MLine.node).Nodup ∧ (∀ x, x ∈ ls.map MLine.node ↔ ∃ t ∈ l, Relation.ReflTransGen (Below decl conn) t x) ∧
        ∀ line ∈ ls, line.role = (I line.node).role ∧ line.full = prependNamespace (uns line.node) (I line.node).name := by
      intro k l hl hln
      have hb : ∀ t ∈ order l, Below decl conn v t := fun t ht => hl t ((ho l).mem_iff.1 ht)
      have hok : ∀ t ∈ order l, rk t < fuel := fun t ht => by have := h.rank v t (hb t ht); omega
      obtain ⟨ls, h1, h2⟩ := concatAll_ok (f := writeMerges I uns order decl conn fuel (depth + 1) k) (order l) (fun t ht => by
        obtain ⟨x, hx, _⟩ := ih (depth + 1) k t (hok t ht); exact ⟨x, hx⟩)
      refine ⟨_, h2, ?_, ?_, ?_⟩
      · rw [List.map_flatten]
        refine nodup_flatten_of (as := order l) (S := fun t x => Relation.ReflTransGen (Below decl conn) t x) ?_ ((ho l).nodup_iff.2 hln) (fun a ha b hb' x h3 h4 => h.siblings (hb a ha) (hb b hb') h3 h4)
        rw [List.forall₂_map_right_iff]
        refine forall₂_imp_left ?_ h1
        intro t ht x hx
        obtain ⟨y, hy, h3, h4, _⟩ := ih (depth + 1) k t (hok t ht)
        rw [hx] at hy; cases hy
        exact ⟨h3, fun z hz => (h4 z).1 hz⟩
      · intro x
        rw [List.map_flatten, List.mem_flatten]
        constructor
        · rintro ⟨l', hl', hx⟩
          obtain ⟨y, hy, rfl⟩ := List.mem_map.1 hl'
          obtain ⟨t, ht, hty⟩ := forall₂_mem_right h1 hy
          obtain ⟨y', hy', _, h4, _⟩ := ih (depth + 1) k t (hok t ht)
          rw [hty] at hy'; cases hy'
          exact ⟨t, (ho l).mem_iff.1 ht, (h4 x).1 hx⟩
        · rintro ⟨t, ht, hx⟩
          have ht' := (ho l).mem_iff.2 ht
          obtain ⟨y, hy, hty⟩ := forall₂_mem_left h1 ht'
          obtain ⟨y', hy', _, h4, _⟩ := ih (depth + 1) k t (hok t ht')
          rw [hty] at hy'; cases hy'
          exact ⟨_, List.mem_map.2 ⟨y, hy, rfl⟩, (h4 x).2 hx⟩
      · intro line hline
        obtain ⟨y, hy, hl'⟩ := List.mem_flatten.1 hline
        obtain ⟨t, ht, hty⟩ := forall₂_mem_right h1 hy
        obtain ⟨y', hy', _, _, _, h5⟩ := ih (depth + 1) k t (hok t ht)
        rw [hty] at hy'; cases hy'
        exact h5 line hl'
    obtain ⟨l1, a1, a2, a3, a4⟩ := hsub .connection (conn v) (fun t ht => Or.inl ht) (h.nodupC v)
    obtain ⟨l2, b1, b2, b3, b4⟩ := hsub .promotion (decl v) (fun t ht => Or.inr ht) (h.nodupD v)
    unfold writeMerges
    rw [a1]
    dsimp only
    rw [b1]
    dsimp only
    refine ⟨_, rfl, ?_, ?_, ⟨_, rfl⟩, ?_⟩
    · simp only [List.cons_append, List.map_cons, List.map_append, List.nodup_cons, List.nodup_append, List.mem_append, not_or]
      refine ⟨⟨?_, ?_⟩, a2, b2, ?_⟩
      · intro hc
        obtain ⟨t, ht, hx⟩ := (a3 v).1 hc
        exact absurd (h.rank v t (Or.inl ht)) (not_lt.2 (h.le hx))
      · intro hc
        obtain ⟨t, ht, hx⟩ := (b3 v).1 hc
        exact absurd (h.rank v t (Or.inr ht)) (not_lt.2 (h.le hx))
      · rintro x hx y hy rfl
        obtain ⟨t, ht, hx⟩ := (a3 x).1 hx
        obtain ⟨t', ht', hx'⟩ := (b3 x).1 hy
        have := h.siblings (Or.inl ht) (Or.inr ht') hx hx'
        subst this
        exact h.disjoint v t ht ht'
    · intro x
      simp only [List.cons_append, List.map_cons, List.map_append, List.mem_cons, List.mem_append, a3, b3]
      constructor
      · rintro (rfl | ⟨t, ht, hx⟩ | ⟨t, ht, hx⟩)
        · exact .refl
        · exact .head (Or.inl ht) hx
        · exact .head (Or.inr ht) hx
      · intro hx
        rcases Relation.ReflTransGen.cases_head hx with rfl | ⟨t, ht, hx⟩
        · exact Or.inl rfl
        · rcases ht with ht | ht
          · exact Or.inr (Or.inl ⟨t, ht, hx⟩)
          · exact Or.inr (Or.inr ⟨t, ht, hx⟩)
    · intro line hl
      simp only [List.cons_append, List.mem_cons, List.mem_append] at hl
      rcases hl with rfl | hl | hl
      · exact ⟨rfl, rfl⟩
      · exact a4 line hl
      · exact b4 line hl

end Csdl
