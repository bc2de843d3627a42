import Verif.Props.Promotions
/-!
# C06: the size-mismatch error is raised only for a size mismatch
-/
namespace Csdl

theorem matching_error' {a b : Dict Name Shape} {e : PErr} (h : findNamesWithMatchingShapes a b = .error e) :
    ∃ p s1 s2, (p, s1) ∈ a ∧ b.get? p = some s2 ∧ s1.size ≠ s2.size := by
  unfold findNamesWithMatchingShapes at h
  split at h
  · cases h
  · next hn =>
    rw [List.all_eq_true] at hn
    simp only [not_forall] at hn
    obtain ⟨⟨p, s1⟩, hm, hx⟩ := hn
    cases hb : b.get? p with
    | none => simp [hb] at hx
    | some s2 =>
      simp only [hb, Bool.or_eq_true, beq_iff_eq, not_or] at hx
      exact ⟨p, s1, s2, hm, hb, hx.2⟩

theorem resolveSubs_shape_error : ∀ (subs : Subs) (a b : Dict Name Shape), resolveSubs subs a b = .error .shapeMismatch →
    (∃ s ∈ subs.toList, resolve s.model s.promotes = .error .shapeMismatch) ∨
    ∃ pre s post rs r, subs.toList = pre ++ s :: post ∧ List.Forall₂ (fun s r => resolve s.model s.promotes = .ok r) pre rs ∧
      resolve s.model s.promotes = .ok r ∧ findNamesWithMatchingShapes r.tgt (acc .target rs b) = .error .shapeMismatch
  | .nil => by
    intro a b h
    simp [resolveSubs] at h
  | .cons n p m rest => by
    intro a b h
    simp only [resolveSubs, Except.bind_error] at h
    rcases h with h | ⟨r, hr, h⟩
    · exact Or.inl ⟨⟨n, p, m⟩, by simp [Subs.toList], h⟩
    · rcases h with h | ⟨_, _, h⟩
      · cases (checkDup_error.1 h).1
      · rcases h with h | ⟨_, _, h⟩
        · exact Or.inr ⟨[], ⟨n, p, m⟩, rest.toList, [], r, by simp [Subs.toList], .nil, hr, h⟩
        · rcases h with h | ⟨⟨_, _, _⟩, _, h⟩
          · rcases resolveSubs_shape_error rest _ _ h with ⟨s, hs, h⟩ | ⟨pre, s, post, rs, r', h1, h2, h3, h4⟩
            · exact Or.inl ⟨s, by simp [Subs.toList, hs], h⟩
            · exact Or.inr ⟨⟨n, p, m⟩ :: pre, s, post, r :: rs, r', by simp [Subs.toList, h1], .cons hr h2, h3, h4⟩
          · cases h

/-- The shapes in the namespace of a resolved model are shapes of variables promoted to it. -/
theorem ns_shape (m : Model) (hd : DotFree m) : ∀ {pr : Option (List Name)} {r : Res}, resolve m pr = .ok r → ∀ {k p sh}, (p, sh) ∈ r.ns k →
    IsPromoted pr p ∧ ∃ path v, PromotedAs m path k v p ∧ v.shape = sh := by
  induction m using Model.ind with
  | h l subs ih =>
    intro pr r h k p sh hm
    have hkeys := (ns_keys _ hd h k p).1 (List.mem_map.2 ⟨_, hm, rfl⟩)
    refine ⟨(promoted_iff hkeys.1).2 hkeys.2.1, ?_⟩
    obtain ⟨rs, f1, _, _, _, _, _, _, f4⟩ := resolve_unfold h
    rw [f4 k] at hm
    have hm := Dict.mem_get? (Dict.nodup_update (localShapes_nodup l k) _) (userPromotable_mem hm)
    rcases Dict.mem_update hm with hg | hg
    · rcases acc_get? (Dict.mem_get? (acc_nodup rs k (by simp [Dict.keys])) hg) with h' | ⟨r', hr', h'⟩
      · simp [Dict.get?] at h'
      · obtain ⟨s, hs, hres⟩ := forall₂_mem_right f1 hr'
        obtain ⟨hp, path, v, hv, e⟩ := ih s hs (hd.sub hs) hres h'
        exact ⟨s.name :: path, v, .up hs hv hp, e⟩
    · obtain ⟨w, hw, e1, e2⟩ := localShapes_get? hg
      subst e1
      exact ⟨[], w, .here hw, e2⟩

/-- The shapes accumulated from submodels are shapes of variables promoted from them. -/
theorem acc_shape {l : Local} {subs : Subs} (hd : DotFree (.mk l subs)) {ss : List Subgraph} {rs : List Res} (hsub : ∀ s ∈ ss, s ∈ subs.toList)
    (f1 : List.Forall₂ (fun s r => resolve s.model s.promotes = .ok r) ss rs) (k : VarKind) {p : Name} {sh : Shape} (h : (acc k rs []).get? p = some sh) :
    ∃ s path v, s ∈ ss ∧ PromotedAs (.mk l subs) (s.name :: path) k v p ∧ v.shape = sh := by
  rcases acc_get? h with h | ⟨r, hr, h⟩
  · simp [Dict.get?] at h
  · obtain ⟨s, hs, hr'⟩ := forall₂_mem_right f1 hr
    obtain ⟨hp, path, v, hv, e⟩ := ns_shape s.model (hd.sub (hsub s hs)) hr' h
    exact ⟨s, path, v, hs, .up (hsub s hs) hv hp, e⟩

theorem shape_error' (m : Model) (hd : DotFree m) : ∀ {pr : Option (List Name)}, resolve m pr = .error .shapeMismatch →
    ∃ path m', At m path m' ∧ ∃ p k1 path1 v1 k2 path2 v2, PromotedAs m' path1 k1 v1 p ∧ PromotedAs m' path2 k2 v2 p ∧ path1 ≠ path2 ∧ v1.shape.size ≠ v2.shape.size ∧ Compared k1 path1 k2 path2 := by
  induction m using Model.ind with
  | h l subs ih =>
    intro pr h
    obtain ⟨_, _, d3⟩ := hd.loc
    simp only [resolve, Except.bind_error] at h
    rcases h with h | ⟨⟨cs, a, b⟩, h1, h2⟩
    · rcases resolveSubs_shape_error subs _ _ h with ⟨s, hs, h⟩ | ⟨pre, s, post, rs, r, e, f1, hr, h⟩
      · obtain ⟨path, m', hat, hrest⟩ := ih s hs (hd.sub hs) h
        exact ⟨s.name :: path, m', .down hs hat, hrest⟩
      · have hs : s ∈ subs.toList := by simp [e]
        obtain ⟨p, s1, s2, hm, hg, hne⟩ := matching_error' h
        obtain ⟨hp, path1, v1, hv1, rfl⟩ := ns_shape s.model (hd.sub hs) hr (k := .target) hm
        obtain ⟨t, path2, v2, ht, hv2, rfl⟩ := acc_shape hd (fun s h => by simp [e, h]) f1 .target hg
        refine ⟨[], _, .here _, p, _, s.name :: path1, v1, _, t.name :: path2, v2, .up hs hv1 hp, hv2, ?_, hne, Or.inl ⟨rfl, rfl⟩⟩
        intro hc
        injection hc with hc _
        rw [e, List.map_append, List.nodup_append] at d3
        exact d3.2.2 t.name (List.mem_map.2 ⟨t, ht, rfl⟩) s.name (by simp) hc.symm
    · obtain ⟨rs, f1, rfl, rfl, rfl, _⟩ := resolveSubs_ok subs _ _ _ _ _ h1
      rw [finish_eq] at h2
      simp only [Except.bind_error] at h2
      -- a mismatch between a name of the submodels and a local name
      have clash : ∀ k1 k2 p s1 s2, (acc k1 rs []).get? p = some s1 → (localShapes l k2).get? p = some s2 → s1.size ≠ s2.size →
          ∃ path m', At (.mk l subs) path m' ∧ ∃ p k1 path1 v1 k2 path2 v2, PromotedAs m' path1 k1 v1 p ∧ PromotedAs m' path2 k2 v2 p ∧ path1 ≠ path2 ∧ v1.shape.size ≠ v2.shape.size ∧ Compared k1 path1 k2 path2 := by
        intro k1 k2 p s1 s2 g1 g2 hne
        obtain ⟨t, path1, v1, _, hv1, rfl⟩ := acc_shape hd (fun s h => h) f1 k1 g1
        obtain ⟨v2, hv2, rfl, rfl⟩ := localShapes_get? g2
        exact ⟨[], _, .here _, v2.name, k1, _, v1, k2, [], v2, hv1, .here hv2, by simp, hne, Or.inr (Or.inr List.nil_prefix)⟩
      have nod : ∀ k, (acc k rs []).keys.Nodup := fun k => acc_nodup rs k (by simp [Dict.keys])
      rcases h2 with h | ⟨_, _, h | ⟨_, _, h | ⟨_, _, h | ⟨_, _, h | ⟨_, _, h⟩⟩⟩⟩⟩
      · cases (checkDup_error.1 h).1
      · obtain ⟨p, s1, s2, hm, hg, hne⟩ := matching_error' h
        exact clash .target .target p s1 s2 (Dict.mem_get? (nod _) hm) hg hne
      · obtain ⟨p, s1, s2, hm, hg, hne⟩ := matching_error' h
        exact clash .target .source p s2 s1 hg (Dict.mem_get? (localShapes_nodup l .source) hm) (Ne.symm hne)
      · obtain ⟨p, s1, s2, hm, hg, hne⟩ := matching_error' h
        exact clash .source .target p s1 s2 (Dict.mem_get? (nod _) hm) hg hne
      · cases (mergeChildren_error (children_nodup f1) h).1
      · cases h

theorem shape_error (m : Model) (hd : DotFree m) {pr : Option (List Name)} (h : resolve m pr = .error .shapeMismatch) :
    ∃ path m', At m path m' ∧ ∃ p k1 path1 v1 k2 path2 v2, PromotedAs m' path1 k1 v1 p ∧ PromotedAs m' path2 k2 v2 p ∧ path1 ≠ path2 ∧ v1.shape.size ≠ v2.shape.size := by
  obtain ⟨path, m', h1, p, k1, path1, v1, k2, path2, v2, h2, h3, h4, h5, _⟩ := shape_error' m hd h
  exact ⟨path, m', h1, p, k1, path1, v1, k2, path2, v2, h2, h3, h4, h5⟩

/-- **C06, converse:** the size-mismatch error is raised only if in some model of the hierarchy two variables, defined in different models, share a name and have different numbers of elements: shapes that differ but have
the same number of elements are never rejected. -/
theorem C06_shape_error_sound (m : Model) (hd : DotFree m) (h : resolve m none = .error .shapeMismatch) :
    ∃ path m', At m path m' ∧ ∃ p k1 path1 v1 k2 path2 v2, PromotedAs m' path1 k1 v1 p ∧ PromotedAs m' path2 k2 v2 p ∧ path1 ≠ path2 ∧ v1.shape.size ≠ v2.shape.size :=
  shape_error m hd h

/-- the hypotheses are met: an input of shape (2, 3) in the main model and a declared variable of shape (3, 2) (accepted) or (3, 3) (rejected) in a submodel -/
example : (resolve (.mk { inputs := [⟨"x".toList, [2, 3]⟩] } (.cons "A".toList none (.mk { declared := [⟨"x".toList, [3, 3]⟩] } .nil) .nil)) none matches .error .shapeMismatch) = true ∧
    (resolve (.mk { inputs := [⟨"x".toList, [2, 3]⟩] } (.cons "A".toList none (.mk { declared := [⟨"x".toList, [3, 2]⟩] } .nil) .nil)) none matches .ok _) = true := by decide

end Csdl
