import Verif.Proofs.Promotions2

namespace Csdl

/-! ### reverse map -/

theorem promoted_det (m : Model) (hd : DotFree m) :
    ∀ {path k k' v v' p p'}, PromotedAs m path k v p → PromotedAs m path k' v' p' → v.name = v'.name → p = p' := by
  induction m using Model.ind with
  | h l subs ih =>
    intro path k k' v v' p p' h1 h2 hn
    obtain ⟨_, _, d3⟩ := hd.loc
    cases h1 with
    | here hv => cases h2 with | here hv' => exact hn
    | @up _ _ path1 _ _ _ s hs1 hp1 hpr1 =>
      generalize he : s.name :: path1 = pp at h2
      cases h2 with
      | here => cases he
      | @up _ _ path2 _ _ _ t hs2 hp2 hpr2 =>
        injection he with e1 e2
        have e := sub_eq d3 hs1 hs2 e1
        subst e; subst e2
        exact ih s hs1 (hd.sub hs1) hp1 hp2 hn
      | @stay _ _ path2 _ _ _ t hs2 hp2 hpr2 =>
        injection he with e1 e2
        have e := sub_eq d3 hs1 hs2 e1
        subst e; subst e2
        have := ih s hs1 (hd.sub hs1) hp1 hp2 hn
        subst this
        exact absurd hpr1 hpr2
    | @stay _ _ path1 _ _ _ s hs1 hp1 hpr1 =>
      generalize he : s.name :: path1 = pp at h2
      cases h2 with
      | here => cases he
      | @up _ _ path2 _ _ _ t hs2 hp2 hpr2 =>
        injection he with e1 e2
        have e := sub_eq d3 hs1 hs2 e1
        subst e; subst e2
        have := ih s hs1 (hd.sub hs1) hp1 hp2 hn
        subst this
        exact absurd hpr2 hpr1
      | @stay _ _ path2 _ _ _ t hs2 hp2 hpr2 =>
        injection he with e1 e2
        have e := sub_eq d3 hs1 hs2 e1
        subst e; subst e2
        rw [ih s hs1 (hd.sub hs1) hp1 hp2 hn]

theorem promoted_good (m : Model) (hd : DotFree m) {path k v p} (h : PromotedAs m path k v p) :
    (∀ s ∈ path, GoodName s) ∧ '.' ∉ v.name := by
  induction h with
  | here hv => exact ⟨by simp, hd.loc.1 _ _ hv⟩
  | up hs _ _ ih =>
    obtain ⟨h1, h2⟩ := ih (hd.sub hs)
    refine ⟨?_, h2⟩
    intro t ht
    rcases List.mem_cons.1 ht with rfl | ht
    · exact hd.loc.2.1 _ hs
    · exact h1 t ht
  | stay hs _ _ ih =>
    obtain ⟨h1, h2⟩ := ih (hd.sub hs)
    refine ⟨?_, h2⟩
    intro t ht
    rcases List.mem_cons.1 ht with rfl | ht
    · exact hd.loc.2.1 _ hs
    · exact h1 t ht

theorem p2u_functional {m : Model} (hd : DotFree m) {pr : Option (List Name)} {r : Res} (h : resolve m pr = .ok r)
    {p p' u : Name} (h1 : InMap r.p2u p u) (h2 : InMap r.p2u p' u) : p = p' := by
  obtain ⟨_, _, f⟩ := p2u_facts m h
  obtain ⟨path1, k1, v1, hp1, e1⟩ := (f p u).1 h1
  obtain ⟨path2, k2, v2, hp2, e2⟩ := (f p' u).1 h2
  obtain ⟨g1, g2⟩ := promoted_good m hd hp1
  obtain ⟨g3, g4⟩ := promoted_good m hd hp2
  obtain ⟨rfl, e⟩ := foldr_inj path1 path2 g1 g3 g2 g4 (e1.symm.trans e2)
  exact promoted_det m hd hp1 hp2 e

theorem foldl_setAll (us : List Name) (p : Name) (d : Dict Name Name) (u : Name) :
    (us.foldl (fun d kk => d.set kk p) d).get? u = if u ∈ us then some p else d.get? u := by
  induction us generalizing d with
  | nil => simp
  | cons x us ih =>
    rw [List.foldl_cons, ih, Dict.get?_set]
    by_cases h1 : u ∈ us
    · simp [h1]
    · by_cases h2 : x = u
      · subst h2; simp
      · simp [h1, h2, Ne.symm h2]

theorem reverse_aux (d : Dict Name (List Name)) (d2 : Dict Name Name) (u p : Name) :
    (d.foldl (fun d2 kv => kv.2.foldl (fun d2 kk => d2.set kk kv.1) d2) d2).get? u = some p →
    (∃ us, (p, us) ∈ d ∧ u ∈ us) ∨ d2.get? u = some p := by
  induction d generalizing d2 with
  | nil => intro h; exact Or.inr h
  | cons kv d ih =>
    intro h
    rcases ih _ h with ⟨us, h1, h2⟩ | h
    · exact Or.inl ⟨us, by simp [h1], h2⟩
    · rw [foldl_setAll] at h
      split at h
      · rename_i hm
        simp at h; subst h
        exact Or.inl ⟨kv.2, by simp, hm⟩
      · exact Or.inr h

theorem reverse_some (d : Dict Name (List Name)) (d2 : Dict Name Name) (u : Name)
    (h : (∃ p us, (p, us) ∈ d ∧ u ∈ us) ∨ (d2.get? u).isSome) :
    ((d.foldl (fun d2 kv => kv.2.foldl (fun d2 kk => d2.set kk kv.1) d2) d2).get? u).isSome := by
  induction d generalizing d2 with
  | nil =>
    rcases h with ⟨p, us, h, _⟩ | h
    · simp at h
    · exact h
  | cons kv d ih =>
    apply ih
    rw [foldl_setAll]
    rcases h with ⟨p, us, h1, h2⟩ | h
    · rcases List.mem_cons.1 h1 with rfl | h1
      · right; simp [h2]
      · exact Or.inl ⟨p, us, h1, h2⟩
    · right; split
      · rfl
      · exact h

theorem reverse_iff {d : Dict Name (List Name)} (hd : d.keys.Nodup)
    (hf : ∀ p p' u, InMap d p u → InMap d p' u → p = p') (u p : Name) :
    (createReverseMap d).get? u = some p ↔ InMap d p u := by
  have key : ∀ p, (createReverseMap d).get? u = some p → InMap d p u := by
    intro p h
    rcases reverse_aux d [] u p h with ⟨us, h1, h2⟩ | h
    · exact ⟨us, Dict.mem_get? hd h1, h2⟩
    · simp [Dict.get?] at h
  constructor
  · exact key p
  · intro h
    obtain ⟨us, h1, h2⟩ := h
    have := reverse_some d [] u (Or.inl ⟨p, us, Dict.get?_some_mem h1, h2⟩)
    rw [Option.isSome_iff_exists] at this
    obtain ⟨p', hp'⟩ := this
    have e := hf p p' u ⟨us, h1, h2⟩ (key p' hp')
    subst e; exact hp'

/-! ### errors -/

theorem acc_spec {l : Local} {subs : Subs} (hd : DotFree (.mk l subs)) {ss : List Subgraph} {rs : List Res}
    (hsub : ∀ s ∈ ss, s ∈ subs.toList)
    (f1 : List.Forall₂ (fun s r => resolve s.model s.promotes = .ok r) ss rs) (k : VarKind) {p : Name}
    (h : p ∈ (acc k rs []).keys) :
    ∃ s ∈ ss, '.' ∉ p ∧ IsPromoted s.promotes p ∧ ∃ path v, PromotedAs s.model path k v p := by
  rcases (acc_keys _ _ _ _).1 h with h | ⟨r, hr, h⟩
  · simp [Dict.keys] at h
  · obtain ⟨s, hs, hr'⟩ := forall₂_mem_right f1 hr
    obtain ⟨h1, h2, h3⟩ := (ns_keys s.model (hd.sub (hsub s hs)) hr' k p).1 h
    exact ⟨s, hs, h1, (promoted_iff h1).2 h2, h3⟩

theorem dup_error (m : Model) (hd : DotFree m) : ∀ {pr : Option (List Name)},
    resolve m pr = .error .duplicateSource →
    ∃ path m', At m path m' ∧ ∃ p path1 v1 path2 v2, PromotedAs m' path1 .source v1 p ∧
      PromotedAs m' path2 .source v2 p ∧ path1 ≠ path2 := by
  induction m using Model.ind with
  | h l subs ih =>
    intro pr h
    obtain ⟨_, _, d3⟩ := hd.loc
    rcases resolve_error h with ⟨s, hs, h⟩ | h | ⟨_, pre, s, post, rs, r, k, e, f, hr, hk, hk'⟩ |
      ⟨rs, f, ⟨_, k, hk, hk'⟩ | ⟨h, _⟩⟩
    · obtain ⟨path, m', hat, hrest⟩ := ih s hs (hd.sub hs) h
      exact ⟨s.name :: path, m', .down hs hat, hrest⟩
    · cases h
    · have hs : s ∈ subs.toList := by simp [e]
      obtain ⟨t, ht, h1, h2, path1, v1, h3⟩ := acc_spec hd (fun s h => by simp [e, h]) f .source hk
      obtain ⟨g1, g2, path2, v2, g3⟩ := (ns_keys s.model (hd.sub hs) hr .source k).1 hk'
      refine ⟨[], _, .here _, k, t.name :: path1, v1, s.name :: path2, v2, .up (by simp [e, ht]) h3 h2,
        .up hs g3 ((promoted_iff g1).2 g2), ?_⟩
      intro hc
      injection hc with hc _
      rw [e, List.map_append, List.nodup_append] at d3
      exact d3.2.2 t.name (List.mem_map.2 ⟨t, ht, rfl⟩) s.name (by simp) hc
    · obtain ⟨t, ht, h1, h2, path1, v1, h3⟩ := acc_spec hd (fun s h => h) f .source hk
      obtain ⟨v, hv, hn⟩ := (keys_localSrc l k).1 hk'
      subst hn
      exact ⟨[], _, .here _, v.name, t.name :: path1, v1, [], v, .up ht h3 h2, .here hv, by simp⟩
    · cases h

theorem inv_error (m : Model) (hd : DotFree m) : ∀ {pr : Option (List Name)},
    resolve m pr = .error .invalidPromotes →
    ∃ path l subs s q n, At m path (.mk l subs) ∧ s ∈ subs.toList ∧ s.promotes = some q ∧ n ∈ q ∧
      ¬ ('.' ∉ n ∧ ∃ path k v, PromotedAs (.mk l subs) path k v n) := by
  induction m using Model.ind with
  | h l subs ih =>
    intro pr h
    rcases resolve_error h with ⟨s, hs, h⟩ | h | ⟨h, _⟩ | ⟨rs, f, ⟨h, _⟩ | ⟨_, s, hs, q, hq, n, hn, hbad⟩⟩
    · obtain ⟨path, l', subs', t, q, n, hat, hrest⟩ := ih s hs (hd.sub hs) h
      exact ⟨s.name :: path, l', subs', t, q, n, .down hs hat, hrest⟩
    · cases h
    · cases h
    · cases h
    · refine ⟨[], l, subs, s, q, n, .here _, hs, hq, hn, ?_⟩
      rintro ⟨hdot, path, k, v, hp⟩
      apply hbad
      have := (ns_parent hd f k n).2 ⟨hdot, path, v, hp⟩
      rw [List.mem_append]
      cases k
      · exact Or.inl this
      · exact Or.inr this

theorem no_size_mismatch (m : Model) : ∀ pr, resolve m pr ≠ .error .sizeMismatch := by
  induction m using Model.ind with
  | h l subs ih =>
    intro pr h
    rcases resolve_error h with ⟨s, hs, h⟩ | h | ⟨h, _⟩ | ⟨rs, f, ⟨h, _⟩ | ⟨h, _⟩⟩
    · exact ih s hs _ h
    all_goals cases h

theorem at_ok {m m' : Model} {path} (hat : At m path m') : ∀ {pr r}, resolve m pr = .ok r → ∃ pr' r', resolve m' pr' = .ok r' := by
  induction hat with
  | here m => intro pr r h; exact ⟨pr, r, h⟩
  | down hs _ ih => intro pr r h; obtain ⟨r', h'⟩ := sub_ok h hs; exact ih h'

theorem at_trans {m m' m'' : Model} {p q} (h1 : At m p m') (h2 : At m' q m'') : At m (p ++ q) m'' := by
  induction h1 with
  | here m => exact h2
  | down hs _ ih => exact .down hs (ih h2)

theorem DotFree.at {m m' : Model} {path} (h : DotFree m) (hat : At m path m') : DotFree m' :=
  fun p l s h' => h (path ++ p) l s (at_trans hat h')

theorem promotes_ok {m : Model} (hd : DotFree m) {pr r} (h : resolve m pr = .ok r) {path l subs}
    (hat : At m path (.mk l subs)) {s : Subgraph} (hs : s ∈ subs.toList) {q} (hq : s.promotes = some q) {n} (hn : n ∈ q) :
    '.' ∉ n ∧ ∃ path k v, PromotedAs (.mk l subs) path k v n := by
  obtain ⟨pr', r', h'⟩ := at_ok hat h
  obtain ⟨rs, f1, _, _, _, _, _, f2, _⟩ := resolve_unfold h'
  obtain ⟨k, hk⟩ := f2 s hs q hq n hn
  obtain ⟨h1, path, v, h2⟩ := (ns_parent (hd.at hat) f1 k n).1 hk
  exact ⟨h1, path, k, v, h2⟩

/-! ### sizes -/

theorem chain_size_aux {rs : List Res} {a b : Dict Name Shape} (h : Chain rs a b)
    (hn : ∀ r ∈ rs, (r.tgt).keys.Nodup) {p : Name} {sh sh' : Shape} (hb : b.get? p = some sh)
    (h' : (acc .target rs b).get? p = some sh') : sh.size = sh'.size := by
  induction rs generalizing a b sh with
  | nil =>
    change b.get? p = some sh' at h'
    rw [hb] at h'; cases h'; rfl
  | cons r rs ih =>
    obtain ⟨_, h2, h3⟩ := h
    have hr := hn r (by simp)
    have hstep := Dict.get?_update b hr p
    cases hg : r.tgt.get? p with
    | none =>
      rw [hg] at hstep
      exact ih h3 (fun r h => hn r (by simp [h])) (hstep.trans hb) h'
    | some sh0 =>
      rw [hg] at hstep
      have e := (matching_ok hr).1 h2 p sh0 sh hg hb
      rw [← e]
      exact ih h3 (fun r h => hn r (by simp [h])) hstep h'

theorem chain_size {rs : List Res} {a b : Dict Name Shape} (h : Chain rs a b)
    (hn : ∀ r ∈ rs, (r.tgt).keys.Nodup) {p : Name} {sh sh' : Shape} {r : Res} (hr : r ∈ rs)
    (hg : r.tgt.get? p = some sh) (h' : (acc .target rs b).get? p = some sh') : sh.size = sh'.size := by
  induction rs generalizing a b with
  | nil => simp at hr
  | cons r0 rs ih =>
    obtain ⟨_, h2, h3⟩ := h
    rcases List.mem_cons.1 hr with rfl | hr
    · have hr0 := hn r (by simp)
      have hstep := Dict.get?_update b hr0 p
      rw [hg] at hstep
      exact chain_size_aux h3 (fun r h => hn r (by simp [h])) hstep h'
    · exact ih h3 (fun r h => hn r (by simp [h])) hr h'

theorem localShapes_of_distinct {l : Local} {k : VarKind} (hd : ((l.vars k).map VarInfo.name).Nodup) {v : VarInfo}
    (hv : v ∈ l.vars k) : (localShapes l k).get? v.name = some v.shape := by
  have hk : v.name ∈ (localShapes l k).keys := (localShapes_keys l k v.name).2 ⟨v, hv, rfl⟩
  obtain ⟨sh, hsh⟩ := Dict.mem_keys_get? hk
  obtain ⟨w, hw, e1, e2⟩ := localShapes_get? hsh
  have := var_eq hd hw hv e1
  subst this
  rw [hsh, e2]

theorem DistinctTargets.consistent {m : Model} (h : DistinctTargets m) : ConsistentTargets m := fun path l subs hat v hv w hw hn => by rw [var_eq (h path l subs hat) hv hw hn]

theorem ConsistentTargets.sub {l : Local} {subs : Subs} (h : ConsistentTargets (.mk l subs)) {s : Subgraph} (hs : s ∈ subs.toList) : ConsistentTargets s.model :=
  fun path l' subs' hat => h (s.name :: path) l' subs' (.down hs hat)

theorem localShapes_consistent {l : Local} (hd : ∀ v ∈ l.declared, ∀ w ∈ l.declared, v.name = w.name → v.shape.size = w.shape.size) {v : VarInfo}
    (hv : v ∈ l.vars .target) : ∃ sh, (localShapes l .target).get? v.name = some sh ∧ sh.size = v.shape.size := by
  have hk : v.name ∈ (localShapes l .target).keys := (localShapes_keys l .target v.name).2 ⟨v, hv, rfl⟩
  obtain ⟨sh, hsh⟩ := Dict.mem_keys_get? hk
  obtain ⟨w, hw, e1, e2⟩ := localShapes_get? hsh
  exact ⟨sh, hsh, by rw [← e2]; exact hd w hw v hv e1⟩

theorem mem_userPromotable_get? {pr : Option (List Name)} {d : Dict Name Shape} (hd : d.keys.Nodup) {p sh}
    (h : (userPromotable pr d).get? p = some sh) : d.get? p = some sh :=
  Dict.mem_get? hd (userPromotable_mem (Dict.get?_some_mem h))

/-- the size registered for a promoted target is the size of each of its variables -/
theorem tgt_sizes (m : Model) (hd : DotFree m) (ht : ConsistentTargets m) :
    ∀ {pr : Option (List Name)} {r : Res}, resolve m pr = .ok r → ∀ {p sh}, r.tgt.get? p = some sh →
    ∀ {path v}, PromotedAs m path .target v p → v.shape.size = sh.size := by
  induction m using Model.ind with
  | h l subs ih =>
    intro pr r h p sh hg path v hp
    obtain ⟨d1, d2, d3⟩ := hd.loc
    have hkeys := (ns_keys _ hd h .target p).1 (Dict.get?_mem_keys hg)
    obtain ⟨rs, f1, f2, f3, g1, g2, g3, _, f4⟩ := resolve_unfold h
    have hr : r.tgt = _ := f4 .target
    rw [hr] at hg
    have hg := mem_userPromotable_get? (Dict.nodup_update (localShapes_nodup l .target) _) hg
    have hn : ∀ r ∈ rs, r.tgt.keys.Nodup := by
      intro r hr
      obtain ⟨s, hs, h'⟩ := forall₂_mem_right f1 hr
      exact ns_nodup h' .target
    have hacc : (acc .target rs []).keys.Nodup := acc_nodup rs .target (by simp [Dict.keys])
    rw [Dict.get?_update _ hacc] at hg
    cases hp with
    | here hv =>
      obtain ⟨shl, hl, hl'⟩ := localShapes_consistent (ht [] l subs (.here _)) hv
      cases ha : (acc .target rs []).get? v.name with
      | none => rw [ha] at hg; simp only [] at hg; rw [hl] at hg; cases hg; exact hl'.symm
      | some sh' =>
        rw [ha] at hg; simp only [Option.some.injEq] at hg; subst hg
        exact hl'.symm.trans ((matching_ok hacc).1 g1 _ _ _ ha hl).symm
    | @up _ _ path1 _ _ _ s hs1 hp1 hpr1 =>
      obtain ⟨r', hm, hr'⟩ := forall₂_mem_left f1 hs1
      have hk : p ∈ r'.tgt.keys :=
        (ns_keys s.model (hd.sub hs1) hr' .target p).2 ⟨hkeys.1, (promoted_iff hkeys.1).1 hpr1, path1, v, hp1⟩
      obtain ⟨sh1, hsh1⟩ := Dict.mem_keys_get? hk
      have e1 := ih s hs1 (hd.sub hs1) (ht.sub hs1) hr' hsh1 hp1
      have hk' : p ∈ (acc .target rs []).keys := (acc_keys rs .target [] p).2 (Or.inr ⟨r', hm, hk⟩)
      obtain ⟨sh2, hsh2⟩ := Dict.mem_keys_get? hk'
      have e2 := chain_size f2 hn hm hsh1 hsh2
      rw [hsh2] at hg; simp only [Option.some.injEq] at hg; subst hg
      exact e1.trans e2
    | stay hs1 hp1 hpr1 => exact absurd (dot_mem_prepend (d2 _ hs1).1) hkeys.1

theorem resolve_none_of_ok {m : Model} {pr r} (h : resolve m pr = .ok r) : ∃ r', resolve m none = .ok r' := by
  obtain ⟨l, subs⟩ := m
  simp only [resolve, Except.bind_ok] at h ⊢
  obtain ⟨⟨cs, a, b⟩, h1, h2⟩ := h
  simp only [finish_eq, Except.bind_ok] at h2 ⊢
  obtain ⟨_, x1, _, x2, _, x3, _, x4, p2u, x5, _⟩ := h2
  exact ⟨_, (cs, a, b), h1, (), x1, (), x2, (), x3, (), x4, p2u, x5, rfl⟩

theorem targets_same_size (m : Model) (hd : DotFree m) (ht : ConsistentTargets m) :
    ∀ {pr : Option (List Name)} {r : Res}, resolve m pr = .ok r →
    ∀ {path path' v v' p}, PromotedAs m path .target v p → PromotedAs m path' .target v' p →
      v.shape.size = v'.shape.size := by
  induction m using Model.ind with
  | h l subs ih =>
    intro pr r h path path' v v' p h1 h2
    obtain ⟨d1, d2, d3⟩ := hd.loc
    obtain ⟨r0, h0⟩ := resolve_none_of_ok h
    by_cases hdot : '.' ∈ p
    · cases h1 with
      | here hv => exact absurd hdot (d1 .target _ hv)
      | up hs hp hpr => exact absurd hdot (promoted_dotfree hd h hs hpr)
      | @stay _ _ path1 _ _ p1 s hs1 hp1 hpr1 =>
        generalize he : prependNamespace s.name p1 = p2 at h2
        cases h2 with
        | here hv' => exact absurd (he ▸ hdot) (d1 .target _ hv')
        | up hs2 hp2 hpr2 => exact absurd (he ▸ hdot) (promoted_dotfree hd h hs2 hpr2)
        | @stay _ _ path2 _ _ p2 t hs2 hp2 hpr2 =>
          obtain ⟨e1, e2⟩ := prepend_inj (d2 s hs1) (d2 t hs2) he
          have e := sub_eq d3 hs1 hs2 e1
          subst e; subst e2
          obtain ⟨r', hr'⟩ := sub_ok h hs1
          exact ih s hs1 (hd.sub hs1) (ht.sub hs1) hr' hp1 hp2
    · have hk := (ns_keys _ hd h0 .target p).2 ⟨hdot, by simp, path, v, h1⟩
      obtain ⟨sh, hsh⟩ := Dict.mem_keys_get? hk
      exact (tgt_sizes _ hd ht h0 hsh h1).trans (tgt_sizes _ hd ht h0 hsh h2).symm

/-- the shape registered for a promoted source is the shape of its variable -/
theorem src_shape (m : Model) (hd : DotFree m) (ht : DistinctSources m) :
    ∀ {pr : Option (List Name)} {r : Res}, resolve m pr = .ok r → ∀ {p sh}, r.src.get? p = some sh →
    ∀ {path v}, PromotedAs m path .source v p → v.shape = sh := by
  induction m using Model.ind with
  | h l subs ih =>
    intro pr r h p sh hg path v hp
    obtain ⟨d1, d2, d3⟩ := hd.loc
    have hkeys := (ns_keys _ hd h .source p).1 (Dict.get?_mem_keys hg)
    obtain ⟨rs, f1, f2, f3, g1, g2, g3, _, f4⟩ := resolve_unfold h
    have hr : r.src = _ := f4 .source
    rw [hr] at hg
    have hg := mem_userPromotable_get? (Dict.nodup_update (localShapes_nodup l .source) _) hg
    rcases Dict.mem_update hg with hg | hg
    · have hacc : (acc .source rs []).keys.Nodup := acc_nodup rs .source (by simp [Dict.keys])
      rcases acc_get? (Dict.mem_get? hacc hg) with h' | ⟨r', hr', h'⟩
      · simp [Dict.get?] at h'
      · obtain ⟨s, hs, hres⟩ := forall₂_mem_right f1 hr'
        have hk : p ∈ r'.src.keys := List.mem_map.2 ⟨_, h', rfl⟩
        obtain ⟨_, k2, path2, v2, hp2⟩ := (ns_keys s.model (hd.sub hs) hres .source p).1 hk
        obtain ⟨rfl, rfl⟩ := one_source _ hd ht h hp (.up hs hp2 ((promoted_iff hkeys.1).2 k2))
        exact ih s hs (hd.sub hs) (ht.sub hs) hres (Dict.mem_get? (ns_nodup hres .source) h') hp2
    · obtain ⟨w, hw, e1, e2⟩ := localShapes_get? hg
      subst e1
      obtain ⟨_, rfl⟩ := one_source _ hd ht h hp (.here hw)
      exact e2

theorem source_target_same_size (m : Model) (hd : DotFree m) (hs : DistinctSources m) (ht : ConsistentTargets m) :
    ∀ {pr : Option (List Name)} {r : Res}, resolve m pr = .ok r →
    ∀ {path path' v v' p}, PromotedAs m path .source v p → PromotedAs m path' .target v' p →
      path ≠ path' → (path <+: path' ∨ path' <+: path) → v.shape.size = v'.shape.size := by
  induction m using Model.ind with
  | h l subs ih =>
    intro pr r h path path' v v' p h1 h2 hne hpre
    obtain ⟨d1, d2, d3⟩ := hd.loc
    obtain ⟨rs, f1, f2, f3, g1, g2, g3, _, f4⟩ := resolve_unfold h
    have hacc : ∀ k, (acc k rs []).keys.Nodup := fun k => acc_nodup rs k (by simp [Dict.keys])
    have hn : ∀ r ∈ rs, r.tgt.keys.Nodup := by
      intro r hr
      obtain ⟨s, hs, h'⟩ := forall₂_mem_right f1 hr
      exact ns_nodup h' .target
    have key : ∀ (s : Subgraph), s ∈ subs.toList → ∀ k path v p, PromotedAs s.model path k v p → IsPromoted s.promotes p →
        ∃ r', r' ∈ rs ∧ resolve s.model s.promotes = .ok r' ∧ p ∈ (r'.ns k).keys ∧ p ∈ (acc k rs []).keys := by
      intro s hs k path v p hp hpr
      obtain ⟨r', hm, hr'⟩ := forall₂_mem_left f1 hs
      have hdot := promoted_dotfree hd h hs hpr
      have := (ns_keys s.model (hd.sub hs) hr' k p).2 ⟨hdot, (promoted_iff hdot).1 hpr, path, v, hp⟩
      exact ⟨r', hm, hr', this, (acc_keys _ _ _ _).2 (Or.inr ⟨r', hm, this⟩)⟩
    cases h1 with
    | here hv =>
      generalize he : v.name = p2 at h2
      cases h2 with
      | here hv' => exact absurd rfl hne
      | @up _ _ path2 _ _ _ t hs2 hp2 hpr2 =>
        subst he
        obtain ⟨r', hm, hr', hk, hk'⟩ := key t hs2 .target _ _ _ hp2 hpr2
        obtain ⟨sh1, hsh1⟩ := Dict.mem_keys_get? hk
        obtain ⟨sh2, hsh2⟩ := Dict.mem_keys_get? hk'
        have e0 := (matching_ok (localShapes_nodup l .source)).1 g2 _ _ _
          (localShapes_of_distinct (k := .source) (hs [] l subs (.here _)) hv) hsh2
        have e1 := chain_size f2 hn hm hsh1 hsh2
        have e2 := tgt_sizes t.model (hd.sub hs2) (ht.sub hs2) hr' hsh1 hp2
        omega
      | stay hs2 hp2 hpr2 => exact absurd (dot_mem_prepend (d2 _ hs2).1) (he ▸ d1 .source _ hv)
    | @up _ _ path1 _ _ _ s hs1 hp1 hpr1 =>
      generalize he : p = p2 at h2
      cases h2 with
      | @here _ _ _ w hw =>
        subst he
        obtain ⟨r', hm, hr', hk, hk'⟩ := key s hs1 .source _ _ _ hp1 hpr1
        obtain ⟨sh2, hsh2⟩ := Dict.mem_keys_get? hk'
        obtain ⟨shl, hl, hl'⟩ := localShapes_consistent (ht [] l subs (.here _)) hw
        have e0 := ((matching_ok (hacc .source)).1 g3 _ _ _ hsh2 hl).trans hl'
        rcases acc_get? hsh2 with h' | ⟨r2, hr2, h'⟩
        · simp [Dict.get?] at h'
        · obtain ⟨t, hst, hres⟩ := forall₂_mem_right f1 hr2
          have hk2 : v'.name ∈ r2.src.keys := List.mem_map.2 ⟨_, h', rfl⟩
          obtain ⟨c1, c2, path2, v2, hp2⟩ := (ns_keys t.model (hd.sub hst) hres .source _).1 hk2
          obtain ⟨_, rfl⟩ := one_source _ hd hs h (.up hs1 hp1 hpr1) (.up hst hp2 ((promoted_iff c1).2 c2))
          rw [src_shape t.model (hd.sub hst) (hs.sub hst) hres (Dict.mem_get? (ns_nodup hres .source) h') hp2]
          exact e0
      | @up _ _ path2 _ _ _ t hs2 hp2 hpr2 =>
        subst he
        have e1 : s.name = t.name := by
          rcases hpre with hh | hh <;> rw [List.cons_prefix_cons] at hh
          · exact hh.1
          · exact hh.1.symm
        have e := sub_eq d3 hs1 hs2 e1
        subst e
        obtain ⟨r', hr'⟩ := sub_ok h hs1
        refine ih s hs1 (hd.sub hs1) (hs.sub hs1) (ht.sub hs1) hr' hp1 hp2 (fun e => hne (by rw [e])) ?_
        simpa [List.cons_prefix_cons] using hpre
      | stay hs2 hp2 hpr2 =>
        exact absurd (he ▸ dot_mem_prepend (d2 _ hs2).1) (promoted_dotfree hd h hs1 hpr1)
    | @stay _ _ path1 _ _ p1 s hs1 hp1 hpr1 =>
      generalize he : prependNamespace s.name p1 = p2 at h2
      cases h2 with
      | here hv' => exact absurd (he ▸ dot_mem_prepend (d2 _ hs1).1) (d1 .target _ hv')
      | up hs2 hp2 hpr2 => exact absurd (he ▸ dot_mem_prepend (d2 _ hs1).1) (promoted_dotfree hd h hs2 hpr2)
      | @stay _ _ path2 _ _ p2 t hs2 hp2 hpr2 =>
        obtain ⟨e1, e2⟩ := prepend_inj (d2 s hs1) (d2 t hs2) he
        have e := sub_eq d3 hs1 hs2 e1
        subst e; subst e2
        obtain ⟨r', hr'⟩ := sub_ok h hs1
        refine ih s hs1 (hd.sub hs1) (hs.sub hs1) (ht.sub hs1) hr' hp1 hp2 (fun e => hne (by rw [e])) ?_
        simpa [List.cons_prefix_cons] using hpre

end Csdl
