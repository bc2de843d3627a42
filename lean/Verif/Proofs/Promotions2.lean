import Verif.Proofs.Promotions

namespace Csdl

/-- `src` or `tgt` of a result, by kind. -/
def Res.ns (r : Res) : VarKind → Dict Name Shape
  | .source => r.src
  | .target => r.tgt

/-- What the parent accumulates from the results of its submodels. -/
def acc (k : VarKind) (rs : List Res) (a : Dict Name Shape) : Dict Name Shape :=
  rs.foldl (fun d r => d.update (r.ns k)) a

/-! ### error paths -/

theorem resolveSubs_error : ∀ (subs : Subs) (a b : Dict Name Shape) (e : PErr),
    resolveSubs subs a b = .error e →
    ∃ pre s post rs, subs.toList = pre ++ s :: post ∧
      List.Forall₂ (fun s r => resolve s.model s.promotes = .ok r) pre rs ∧
      (resolve s.model s.promotes = .error e ∨
       ∃ r, resolve s.model s.promotes = .ok r ∧
        ((e = .duplicateSource ∧ ∃ k ∈ (acc .source rs a).keys, k ∈ r.src.keys) ∨
         e = .shapeMismatch))
  | .nil => by
    intro a b e h
    simp [resolveSubs] at h
  | .cons n p m rest => by
    intro a b e h
    simp only [resolveSubs, Except.bind_error] at h
    rcases h with h | ⟨r, hr, h⟩
    · exact ⟨[], ⟨n, p, m⟩, rest.toList, [], by simp [Subs.toList], .nil, Or.inl h⟩
    · rcases h with h | ⟨_, _, h⟩
      · exact ⟨[], ⟨n, p, m⟩, rest.toList, [], by simp [Subs.toList], .nil, Or.inr ⟨r, hr, Or.inl (checkDup_error.1 h)⟩⟩
      · rcases h with h | ⟨_, _, h⟩
        · exact ⟨[], ⟨n, p, m⟩, rest.toList, [], by simp [Subs.toList], .nil,
            Or.inr ⟨r, hr, Or.inr (matching_error h)⟩⟩
        · rcases h with h | ⟨⟨_, _, _⟩, _, h⟩
          · obtain ⟨pre, s, post, rs, h1, h2, h3⟩ := resolveSubs_error rest _ _ e h
            exact ⟨⟨n, p, m⟩ :: pre, s, post, r :: rs, by simp [Subs.toList, h1], .cons hr h2, h3⟩
          · cases h

theorem children_nodup {subs : List Subgraph} {rs : List Res}
    (h : List.Forall₂ (fun s r => resolve s.model s.promotes = .ok r) subs rs) :
    ∀ c ∈ List.zipWith (fun s r => (⟨s.name, s.promotes, r.p2u⟩ : Child)) subs rs, c.p2u.keys.Nodup := by
  intro c hc
  obtain ⟨s, hs, r', hr', rfl⟩ := (mem_children h c).1 hc
  exact (p2u_facts s.model hr').1

/-- Every way `resolve` can fail. -/
theorem resolve_error {l : Local} {subs : Subs} {pr : Option (List Name)} {e : PErr}
    (h : resolve (.mk l subs) pr = .error e) :
    (∃ s ∈ subs.toList, resolve s.model s.promotes = .error e) ∨
    e = .shapeMismatch ∨
    (e = .duplicateSource ∧ ∃ pre s post rs r k, subs.toList = pre ++ s :: post ∧
      List.Forall₂ (fun s r => resolve s.model s.promotes = .ok r) pre rs ∧
      resolve s.model s.promotes = .ok r ∧
      k ∈ (acc .source rs []).keys ∧ k ∈ r.src.keys) ∨
    (∃ rs, List.Forall₂ (fun s r => resolve s.model s.promotes = .ok r) subs.toList rs ∧
      ((e = .duplicateSource ∧ ∃ k ∈ (acc .source rs []).keys, k ∈ (localSourceShapes l).keys) ∨
       (e = .invalidPromotes ∧ ∃ s ∈ subs.toList, ∃ q, s.promotes = some q ∧ ∃ n ∈ q,
          n ∉ (nsSrc l (acc .source rs [])).keys ++
              (nsTgt l (acc .target rs [])).keys))) := by
  simp only [resolve, Except.bind_error] at h
  rcases h with h | ⟨⟨cs, a, b⟩, h1, h2⟩
  · obtain ⟨pre, s, post, rs, h1, h2, h3⟩ := resolveSubs_error subs _ _ e h
    rcases h3 with h3 | ⟨r, hr, ⟨rfl, k, hk, hk'⟩ | rfl⟩
    · exact Or.inl ⟨s, by simp [h1], h3⟩
    · exact Or.inr (Or.inr (Or.inl ⟨rfl, pre, s, post, rs, r, k, h1, h2, hr, hk, hk'⟩))
    · exact Or.inr (Or.inl rfl)
  · obtain ⟨rs, f1, rfl, rfl, rfl, _⟩ := resolveSubs_ok subs _ _ _ _ _ h1
    rcases finish_error (children_nodup f1) h2 with ⟨rfl, k, hk, hk'⟩ | rfl | ⟨rfl, c, hc, q, hq, n, hn, hn'⟩
    · exact Or.inr (Or.inr (Or.inr ⟨rs, f1, Or.inl ⟨rfl, k, hk, hk'⟩⟩))
    · exact Or.inr (Or.inl rfl)
    · obtain ⟨s, hs, r', hr', rfl⟩ := (mem_children f1 c).1 hc
      exact Or.inr (Or.inr (Or.inr ⟨rs, f1, Or.inr ⟨rfl, s, hs, q, hq, n, hn, hn'⟩⟩))

/-! ### hierarchy predicates -/

theorem DotFree.sub {l subs} (h : DotFree (.mk l subs)) {s : Subgraph} (hs : s ∈ subs.toList) : DotFree s.model :=
  fun path l' subs' hat => h (s.name :: path) l' subs' (.down hs hat)

theorem DotFree.loc {l subs} (h : DotFree (.mk l subs)) :
    (∀ k, ∀ v ∈ l.vars k, '.' ∉ v.name) ∧ (∀ s ∈ subs.toList, s.name ≠ [] ∧ '.' ∉ s.name) ∧
    (subs.toList.map Subgraph.name).Nodup := h [] l subs (.here _)

theorem DistinctSources.sub {l subs} (h : DistinctSources (.mk l subs)) {s : Subgraph} (hs : s ∈ subs.toList) :
    DistinctSources s.model :=
  fun path l' subs' hat => h (s.name :: path) l' subs' (.down hs hat)

theorem DistinctTargets.sub {l subs} (h : DistinctTargets (.mk l subs)) {s : Subgraph} (hs : s ∈ subs.toList) :
    DistinctTargets s.model :=
  fun path l' subs' hat => h (s.name :: path) l' subs' (.down hs hat)

theorem sub_eq {subs : List Subgraph} (h : (subs.map Subgraph.name).Nodup) {s t : Subgraph}
    (hs : s ∈ subs) (ht : t ∈ subs) (e : s.name = t.name) : s = t :=
  List.inj_on_of_nodup_map h hs ht e

theorem var_eq {vs : List VarInfo} (h : (vs.map VarInfo.name).Nodup) {s t : VarInfo}
    (hs : s ∈ vs) (ht : t ∈ vs) (e : s.name = t.name) : s = t :=
  List.inj_on_of_nodup_map h hs ht e

/-! ### the namespaces -/

def localShapes (l : Local) : VarKind → Dict Name Shape
  | .source => localSourceShapes l
  | .target => localTargetShapes l

theorem localShapes_keys (l : Local) (k : VarKind) (p : Name) :
    p ∈ (localShapes l k).keys ↔ ∃ v ∈ l.vars k, v.name = p := by
  cases k
  · exact keys_localSrc l p
  · exact keys_localTgt l p

theorem localShapes_nodup (l : Local) (k : VarKind) : (localShapes l k).keys.Nodup := by
  cases k <;> exact Dict.nodup_ofPairs _

theorem ofPairs_get?_mem {l : List (Name × Shape)} {p : Name} {sh : Shape} (h : (Dict.ofPairs l).get? p = some sh) :
    (p, sh) ∈ l := by
  rcases Dict.mem_update h with h | h
  · exact h
  · simp [Dict.get?] at h

theorem localShapes_get? {l : Local} {k : VarKind} {p : Name} {sh : Shape}
    (h : (localShapes l k).get? p = some sh) : ∃ v ∈ l.vars k, v.name = p ∧ v.shape = sh := by
  cases k <;>
  · have := ofPairs_get?_mem h
    rw [List.mem_map] at this
    obtain ⟨v, hv, e⟩ := this
    cases e
    exact ⟨v, hv, rfl, rfl⟩

theorem acc_keys (rs : List Res) (k : VarKind) (a : Dict Name Shape) (p : Name) :
    p ∈ (acc k rs a).keys ↔ p ∈ a.keys ∨ ∃ r ∈ rs, p ∈ (r.ns k).keys := by
  induction rs generalizing a with
  | nil => simp [acc]
  | cons r rs ih =>
    have := ih (a.update (r.ns k))
    rw [Dict.keys_update] at this
    change p ∈ (acc k rs (a.update (r.ns k))).keys ↔ _
    rw [this]
    simp [or_assoc]

theorem acc_nodup (rs : List Res) (k : VarKind) {a : Dict Name Shape} (h : a.keys.Nodup) :
    (acc k rs a).keys.Nodup := by
  induction rs generalizing a with
  | nil => exact h
  | cons r rs ih => exact ih (Dict.nodup_update h _)

theorem acc_get? {rs : List Res} {k : VarKind} {a : Dict Name Shape} {p : Name} {sh : Shape}
    (h : (acc k rs a).get? p = some sh) : a.get? p = some sh ∨ ∃ r ∈ rs, (p, sh) ∈ r.ns k := by
  induction rs generalizing a with
  | nil => exact Or.inl h
  | cons r rs ih =>
    rcases ih h with h | ⟨r', hr', h⟩
    · rcases Dict.mem_update h with h | h
      · exact Or.inr ⟨r, by simp, h⟩
      · exact Or.inl h
    · exact Or.inr ⟨r', by simp [hr'], h⟩

theorem userPromotable_keys {pr : Option (List Name)} {d : Dict Name Shape} {p : Name} :
    p ∈ (userPromotable pr d).keys ↔ p ∈ d.keys ∧ (∀ l, pr = some l → p ∈ l) := by
  cases pr with
  | none => simp [userPromotable]
  | some l =>
    simp only [userPromotable, Dict.keys, List.mem_map, List.mem_filter, decide_eq_true_eq]
    constructor
    · rintro ⟨a, ⟨h1, h2⟩, rfl⟩; exact ⟨⟨a, h1, rfl⟩, fun _ e => by cases e; exact h2⟩
    · rintro ⟨⟨a, h1, rfl⟩, h2⟩; exact ⟨a, ⟨h1, h2 l rfl⟩, rfl⟩

theorem userPromotable_nodup {pr : Option (List Name)} {d : Dict Name Shape} (h : d.keys.Nodup) :
    (userPromotable pr d).keys.Nodup := by
  cases pr with
  | none => exact h
  | some l => exact h.sublist (List.Sublist.map _ List.filter_sublist)

theorem userPromotable_mem {pr : Option (List Name)} {d : Dict Name Shape} {x : Name × Shape}
    (h : x ∈ userPromotable pr d) : x ∈ d := by
  cases pr with
  | none => exact h
  | some l => exact (List.mem_filter.1 h).1

theorem promoted_iff {pr : Option (List Name)} {p : Name} (hp : '.' ∉ p) :
    IsPromoted pr p ↔ ∀ l, pr = some l → p ∈ l := by
  cases pr <;> simp [IsPromoted, hp]

/-- Everything known about a successful `resolve`, in one place. -/
theorem resolve_unfold {l : Local} {subs : Subs} {pr : Option (List Name)} {r : Res}
    (h : resolve (.mk l subs) pr = .ok r) :
    ∃ rs, List.Forall₂ (fun s r => resolve s.model s.promotes = .ok r) subs.toList rs ∧
      Chain rs [] [] ∧
      checkDuplicateKeys (localShapes l .source) (acc .source rs []) = .ok () ∧
      findNamesWithMatchingShapes (acc .target rs []) (localShapes l .target) = .ok () ∧
      findNamesWithMatchingShapes (localShapes l .source) (acc .target rs []) = .ok () ∧
      findNamesWithMatchingShapes (acc .source rs []) (localShapes l .target) = .ok () ∧
      (∀ s ∈ subs.toList, ∀ q, s.promotes = some q → ∀ n ∈ q, ∃ k,
        n ∈ ((localShapes l k).update (acc k rs [])).keys) ∧
      ∀ k, r.ns k = userPromotable pr ((localShapes l k).update (acc k rs [])) := by
  obtain ⟨cs, psrc, ptgt, h1, h2⟩ := resolve_ok h
  obtain ⟨rs, f1, rfl, rfl, rfl, f5⟩ := resolveSubs_ok subs _ _ _ _ _ h1
  obtain ⟨g1, g2, g3, g4, g5, g6, g7⟩ := finish_ok h2
  obtain ⟨_, _, m3, _⟩ := mergeChildren_ok (children_nodup f1) g5
  refine ⟨rs, f1, f5, g1, g2, g3, g4, ?_, ?_⟩
  · intro s hs q hq n hn
    obtain ⟨r', _, hr'⟩ := forall₂_mem_left f1 hs
    have := m3 ⟨s.name, s.promotes, r'.p2u⟩ ((mem_children f1 _).2 ⟨s, hs, r', hr', rfl⟩) q hq n hn
    rcases List.mem_append.1 this with h | h
    · exact ⟨.source, h⟩
    · exact ⟨.target, h⟩
  · intro k
    cases k
    · exact g6
    · exact g7

theorem ns_keys_aux {l : Local} {subs : Subs} (hd : DotFree (.mk l subs)) {rs : List Res}
    (f1 : List.Forall₂ (fun s r => resolve s.model s.promotes = .ok r) subs.toList rs) (k : VarKind)
    (ih : ∀ s ∈ subs.toList, ∀ r, resolve s.model s.promotes = .ok r → ∀ p, p ∈ (r.ns k).keys ↔
      '.' ∉ p ∧ (∀ l, s.promotes = some l → p ∈ l) ∧ ∃ path v, PromotedAs s.model path k v p) (p : Name) :
    p ∈ ((localShapes l k).update (acc k rs [])).keys ↔ '.' ∉ p ∧ ∃ path v, PromotedAs (.mk l subs) path k v p := by
  obtain ⟨d1, d2, d3⟩ := hd.loc
  rw [Dict.keys_update, acc_keys, localShapes_keys]
  constructor
  · rintro (⟨v, hv, rfl⟩ | h | ⟨r, hr, h⟩)
    · exact ⟨d1 k v hv, [], v, .here hv⟩
    · simp [Dict.keys] at h
    · obtain ⟨s, hs, hr'⟩ := forall₂_mem_right f1 hr
      obtain ⟨h1, h2, path, v, h3⟩ := (ih s hs r hr' p).1 h
      exact ⟨h1, s.name :: path, v, .up hs h3 ((promoted_iff h1).2 h2)⟩
  · rintro ⟨hp, path, v, h⟩
    cases h with
    | here hv => exact Or.inl ⟨v, hv, rfl⟩
    | @up _ _ path _ _ _ s hs h1 h2 =>
      obtain ⟨r', hr, hr'⟩ := forall₂_mem_left f1 hs
      exact Or.inr (Or.inr ⟨r', hr, (ih s hs r' hr' p).2 ⟨hp, (promoted_iff hp).1 h2, path, v, h1⟩⟩)
    | @stay _ _ path _ _ p' s hs h1 h2 => exact absurd (dot_mem_prepend (d2 s hs).1) hp

theorem ns_keys (m : Model) (hd : DotFree m) : ∀ {pr : Option (List Name)} {r : Res}, resolve m pr = .ok r →
    ∀ k p, p ∈ (r.ns k).keys ↔
      '.' ∉ p ∧ (∀ l, pr = some l → p ∈ l) ∧ ∃ path v, PromotedAs m path k v p := by
  induction m using Model.ind with
  | h l subs ih =>
    intro pr r h k p
    obtain ⟨rs, f1, _, _, _, _, _, _, f2⟩ := resolve_unfold h
    rw [f2 k, userPromotable_keys, ns_keys_aux hd f1 k (fun s hs r hr p => ih s hs (hd.sub hs) hr k p)]
    tauto

/-- The parent's namespace after the submodels are merged, in terms of the specification. -/
theorem ns_parent {l : Local} {subs : Subs} (hd : DotFree (.mk l subs)) {rs : List Res}
    (f1 : List.Forall₂ (fun s r => resolve s.model s.promotes = .ok r) subs.toList rs) (k : VarKind) (p : Name) :
    p ∈ ((localShapes l k).update (acc k rs [])).keys ↔ '.' ∉ p ∧ ∃ path v, PromotedAs (.mk l subs) path k v p :=
  ns_keys_aux hd f1 k (fun s hs r hr p => ns_keys s.model (hd.sub hs) hr k p) p

theorem ns_nodup {m : Model} {pr : Option (List Name)} {r : Res} (h : resolve m pr = .ok r) (k : VarKind) :
    (r.ns k).keys.Nodup := by
  obtain ⟨l, subs⟩ := m
  obtain ⟨rs, _, _, _, _, _, _, _, f2⟩ := resolve_unfold h
  rw [f2 k]
  exact userPromotable_nodup (Dict.nodup_update (localShapes_nodup l k) _)

/-- On success only dot-free names are promoted. -/
theorem promoted_dotfree {l : Local} {subs : Subs} (hd : DotFree (.mk l subs)) {pr : Option (List Name)} {r : Res}
    (h : resolve (.mk l subs) pr = .ok r) {s : Subgraph} (hs : s ∈ subs.toList) {p : Name}
    (hp : IsPromoted s.promotes p) : '.' ∉ p := by
  obtain ⟨rs, f1, _, _, _, _, _, f2, _⟩ := resolve_unfold h
  cases hq : s.promotes with
  | none => rw [hq] at hp; exact hp
  | some q =>
    rw [hq] at hp
    obtain ⟨k, hk⟩ := f2 s hs q hq p hp
    exact ((ns_parent hd f1 k p).1 hk).1

theorem sub_ok {l : Local} {subs : Subs} {pr : Option (List Name)} {r : Res}
    (h : resolve (.mk l subs) pr = .ok r) {s : Subgraph} (hs : s ∈ subs.toList) :
    ∃ r', resolve s.model s.promotes = .ok r' := by
  obtain ⟨rs, f1, _⟩ := resolve_unfold h
  obtain ⟨r', _, h'⟩ := forall₂_mem_left f1 hs
  exact ⟨r', h'⟩

theorem nodup_mid {α : Type} {x y : α} {l : List α} (hx : x ∈ l) (hy : y ∈ l) (hne : x ≠ y) :
    ∃ a b c, l = a ++ x :: (b ++ y :: c) ∨ l = a ++ y :: (b ++ x :: c) := by
  obtain ⟨a, d, rfl⟩ := List.append_of_mem hx
  rcases List.mem_append.1 hy with h | h
  · obtain ⟨a1, a2, rfl⟩ := List.append_of_mem h
    exact ⟨a1, a2, d, Or.inr (by simp)⟩
  · rcases List.mem_cons.1 h with rfl | h
    · exact absurd rfl hne
    · obtain ⟨b, c, rfl⟩ := List.append_of_mem h
      exact ⟨a, b, c, Or.inl rfl⟩

/-- Two different children never export the same source name. -/
theorem chain_disjoint {rs : List Res} {a b : Dict Name Shape} (h : Chain rs a b) :
    ∀ r ∈ rs, ∀ p ∈ a.keys, p ∉ r.src.keys := by
  induction rs generalizing a b with
  | nil => simp
  | cons r rs ih =>
    obtain ⟨h1, _, h3⟩ := h
    intro r' hr' p hp
    rcases List.mem_cons.1 hr' with rfl | hr'
    · exact checkDup_ok.1 h1 p hp
    · exact ih h3 r' hr' p ((Dict.keys_update _ _ _).2 (Or.inl hp))

theorem chain_pair {subs : List Subgraph} {rs : List Res} {a b : Dict Name Shape}
    (f : List.Forall₂ (fun s r => resolve s.model s.promotes = .ok r) subs rs) (h : Chain rs a b)
    (hn : subs.Nodup) :
    ∀ s ∈ subs, ∀ t ∈ subs, s ≠ t → ∀ r r', resolve s.model s.promotes = .ok r →
      resolve t.model t.promotes = .ok r' → ∀ p ∈ r.src.keys, p ∉ r'.src.keys := by
  induction f generalizing a b with
  | nil => simp
  | @cons s0 r0 subs rs h0 f ih =>
    obtain ⟨h1, h2, h3⟩ := h
    obtain ⟨hn1, hn2⟩ := List.nodup_cons.1 hn
    intro s hs t ht hne r r' hr hr' p hp hp'
    rcases List.mem_cons.1 hs with rfl | hs1 <;> rcases List.mem_cons.1 ht with rfl | ht1
    · exact hne rfl
    · rw [h0] at hr; cases hr
      obtain ⟨r'', hm, hr''⟩ := forall₂_mem_left f ht1
      rw [hr'] at hr''; cases hr''
      exact chain_disjoint h3 r' hm p ((Dict.keys_update _ _ _).2 (Or.inr hp)) hp'
    · rw [h0] at hr'; cases hr'
      obtain ⟨r'', hm, hr''⟩ := forall₂_mem_left f hs1
      rw [hr] at hr''; cases hr''
      exact chain_disjoint h3 r hm p ((Dict.keys_update _ _ _).2 (Or.inr hp')) hp
    · exact ih h3 hn2 s hs1 t ht1 hne r r' hr hr' p hp hp'

/-- C05, one direction. -/
theorem one_source (m : Model) (hd : DotFree m) (hs : DistinctSources m) :
    ∀ {pr : Option (List Name)} {r : Res}, resolve m pr = .ok r →
    ∀ {path path' v v' p}, PromotedAs m path .source v p → PromotedAs m path' .source v' p →
      path = path' ∧ v = v' := by
  induction m using Model.ind with
  | h l subs ih =>
    intro pr r h path path' v v' p h1 h2
    obtain ⟨d1, d2, d3⟩ := hd.loc
    obtain ⟨rs, f1, f2, f3, _⟩ := resolve_unfold h
    have key : ∀ (s : Subgraph), s ∈ subs.toList → ∀ path v p, PromotedAs s.model path .source v p → IsPromoted s.promotes p →
        ∃ r', r' ∈ rs ∧ resolve s.model s.promotes = .ok r' ∧ p ∈ r'.src.keys := by
      intro s hs path v p hp hpr
      obtain ⟨r', hm, hr'⟩ := forall₂_mem_left f1 hs
      have hdot := promoted_dotfree hd h hs hpr
      exact ⟨r', hm, hr', (ns_keys s.model (hd.sub hs) hr' .source p).2 ⟨hdot, (promoted_iff hdot).1 hpr, path, v, hp⟩⟩
    have clash : ∀ (s : Subgraph), s ∈ subs.toList → ∀ path v p, PromotedAs s.model path .source v p → IsPromoted s.promotes p →
        ∀ w ∈ l.sources, w.name ≠ p := by
      intro s hs path v p hp hpr w hw e
      obtain ⟨r', hm, _, hk⟩ := key s hs path v p hp hpr
      exact checkDup_ok.1 f3 p ((acc_keys _ _ _ _).2 (Or.inr ⟨r', hm, hk⟩)) ((localShapes_keys l .source p).2 ⟨w, hw, e⟩)
    cases h1 with
    | here hv =>
      generalize he : v.name = p at h2
      cases h2 with
      | here hv' => exact ⟨rfl, var_eq (hs [] l subs (.here _)) hv hv' he⟩
      | up hs' hp hpr => exact absurd he (clash _ hs' _ _ _ hp hpr _ hv)
      | stay hs' hp hpr => exact absurd (dot_mem_prepend (d2 _ hs').1) (he ▸ d1 .source _ hv)
    | @up _ _ path1 _ _ _ s hs1 hp1 hpr1 =>
      generalize he : p = p2 at h2
      cases h2 with
      | here hv' => exact absurd he.symm (clash _ hs1 _ _ _ hp1 hpr1 _ hv')
      | @up _ _ path2 _ _ _ t hs2 hp2 hpr2 =>
        subst he
        by_cases e : s = t
        · subst e
          obtain ⟨r', hr'⟩ := sub_ok h hs1
          obtain ⟨rfl, rfl⟩ := ih s hs1 (hd.sub hs1) (hs.sub hs1) hr' hp1 hp2
          exact ⟨rfl, rfl⟩
        · obtain ⟨r1, _, hr1, hk1⟩ := key s hs1 _ _ _ hp1 hpr1
          obtain ⟨r2, _, hr2, hk2⟩ := key t hs2 _ _ _ hp2 hpr2
          exact absurd hk2 (chain_pair f1 f2 (List.Nodup.of_map _ d3) s hs1 t hs2 e r1 r2 hr1 hr2 p hk1)
      | stay hs2 hp2 hpr2 =>
        exact absurd (he ▸ dot_mem_prepend (d2 _ hs2).1) (promoted_dotfree hd h hs1 hpr1)
    | @stay _ _ path1 _ _ p1 s hs1 hp1 hpr1 =>
      generalize he : prependNamespace s.name p1 = p2 at h2
      cases h2 with
      | here hv' => exact absurd (he ▸ dot_mem_prepend (d2 _ hs1).1) (d1 .source _ hv')
      | up hs2 hp2 hpr2 => exact absurd (he ▸ dot_mem_prepend (d2 _ hs1).1) (promoted_dotfree hd h hs2 hpr2)
      | @stay _ _ path2 _ _ p2 t hs2 hp2 hpr2 =>
        obtain ⟨e1, e2⟩ := prepend_inj (d2 s hs1) (d2 t hs2) he
        have e := sub_eq d3 hs1 hs2 e1
        subst e; subst e2
        obtain ⟨r', hr'⟩ := sub_ok h hs1
        obtain ⟨rfl, rfl⟩ := ih s hs1 (hd.sub hs1) (hs.sub hs1) hr' hp1 hp2
        exact ⟨rfl, rfl⟩

end Csdl
