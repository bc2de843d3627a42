import Verif.Proofs.Exact
import Verif.Props.Cycle
/-
C104: accepted hierarchies are acceptable.
-/
namespace Csdl

section
variable {H : Objs} {n fuel : Nat} {root : OModel}

theorem DistinctSources.at {m m' : Model} {path : List Name} (h : DistinctSources m) (hat : At m path m') : DistinctSources m' := fun p l s h' => h (path ++ p) l s (at_trans hat h')
theorem ConsistentTargets.at {m m' : Model} {path : List Name} (h : ConsistentTargets m) (hat : At m path m') : ConsistentTargets m' := fun p l s h' => h (path ++ p) l s (at_trans hat h')

theorem named_promoted (hok : ObjectsOk H n root) {x : Nat} {p : Name} (h : NamedVar H root x p) : ∃ path k, PromotedAs (root.toModel H) path k (H.varInfo x) p ∧ (k = .source ↔ (H x).role ≠ .declared) := by
  obtain ⟨path, m, k, w, hm, hx, _, hp, hw⟩ := h
  obtain ⟨k', p', h1, h2⟩ := promoted_var hok hm hx
  obtain rfl := promoted_det _ hok.dotFree h1 hp (by rw [hw]; rfl)
  exact ⟨path, k', h1, h2⟩

theorem decl_ok (hd : DotFree (root.toModel H)) {r : Res} (hr : resolve (root.toModel H) none = .ok r) (sel : Local → Dict Name Nat) {x : Dict Name Nat}
    (hc : collectDecl sel r.p2u (root.toModel H) [] [] = .ok x) : NamesResolve (root.toModel H) sel ∧ DeclaredOnce (root.toModel H) sel := by
  rw [collectDecl_eq] at hc
  obtain ⟨L, h1, h2, _, _⟩ := (foldlM_collect_ok _ _ _ _ _).1 hc
  constructor
  · intro path l subs k d hat hk
    obtain ⟨y, _, h3, _⟩ := forall₂_mem_left h1 ((mem_issuedPre (root.toModel H) path (.mk l subs) (k, d)).2 ⟨l, subs, rfl, hat, hk⟩)
    obtain ⟨n, h4, h5⟩ := (lookupTwice_ok hd hr hat k y.1).1 h3
    exact ⟨n, y.1, h4, h5⟩
  · have hmem : ∀ i ∈ issuedPre sel (root.toModel H), At (root.toModel H) i.1 i.2.1 := by
      rintro ⟨path, m', k⟩ hi
      obtain ⟨l, subs, rfl, hat, _⟩ := (mem_issuedPre _ path m' k).1 hi
      exact hat
    rw [List.Nodup, List.pairwise_map] at h2
    have h1' : List.Forall₂ (fun (y : Name × Nat) (i : List Name × Model × Name × Nat) => At (root.toModel H) i.1 i.2.1 ∧ lookupTwice r.p2u i.2.1 (descend [] i.1) i.2.2.1 = .ok y.1 ∧ i.2.2.2 = y.2) L (issuedPre sel (root.toModel H)) := by
      refine List.Forall₂.flip ?_
      refine (forall₂_congr_mem ?_).1 h1
      exact fun i hi y => ⟨fun h => ⟨hmem i hi, h⟩, fun h => h.2⟩
    refine forall₂_pairwise ?_ h1' h2
    rintro y y' ⟨path, m1, k, d⟩ ⟨path', m2, k', d'⟩ ⟨a1, a2, _⟩ ⟨b1, b2, _⟩ hne n n' p g1 g2 g3 g4
    obtain ⟨l1, s1⟩ := m1
    obtain ⟨l2, s2⟩ := m2
    have e1 := (lookupTwice_ok hd hr a1 k p).2 ⟨n, g1, g2⟩
    have e2 := (lookupTwice_ok hd hr b1 k' p).2 ⟨n', g3, g4⟩
    rw [a2] at e1
    rw [b2] at e2
    exact hne ((Except.ok.inj e1).trans (Except.ok.inj e2).symm)

theorem objective_ok (hd : DotFree (root.toModel H)) {r : Res} (hr : resolve (root.toModel H) none = .ok r) {x : Option (Name × Nat)} (hc : findObjective r.p2u (root.toModel H) [] none = .ok x) :
    NamesResolve (root.toModel H) (fun l => l.objective.toList) ∧ (issuedPre (fun l => l.objective.toList) (root.toModel H)).length ≤ 1 := by
  obtain ⟨c1, c2, c3⟩ := C12_objective_exact _ hd r hr
  constructor
  · intro path l subs k d hat hk
    have hi := (mem_issuedPre (sel := fun l => l.objective.toList) (root.toModel H) path (.mk l subs) (k, d)).2 ⟨l, subs, rfl, hat, hk⟩
    cases x with
    | none => rw [c2.1 hc] at hi; cases hi
    | some y =>
      obtain ⟨path', m', k', n, h1, h2, h3⟩ := (c1 y.1 y.2).1 hc
      rw [h1, List.mem_singleton] at hi
      cases hi
      exact ⟨n, y.1, h2, h3⟩
  · by_contra hlt
    obtain ⟨e, he⟩ := c3 (by omega)
    rw [hc] at he
    cases he

/-- **C104**, one direction. -/
theorem accepted_acceptable (H : Objs) (n fuel : Nat) (root : OModel) (hw : WellBuilt H n root) (hch : NoChain (root.toModel H)) (hct : ConsistentTargets (root.toModel H))
    (hf : ∀ path m, OAt H root path m → (m.outputs ++ m.declared).length + n ≤ fuel) (order : List Nat → List Nat) (ho : ∀ l x, x ∈ order l ↔ x ∈ l) (rep : Rep) (hc : compile H fuel order root = .ok rep) :
    Acceptable H root := by
  have hok := hw.objects
  have hd := hok.dotFree
  have hds := distinctSources_objects hok
  have hacyc := (C71_cycle_reported H n fuel root hok hf order ho hch).1 rep hc
  unfold compile at hc
  obtain ⟨r, hr, hc⟩ := exceptBind hc
  obtain ⟨cs, hcs, hc⟩ := exceptBind hc
  obtain ⟨dv, hdv, hc⟩ := exceptBind hc
  obtain ⟨ob, hob, hc⟩ := exceptBind hc
  obtain ⟨cn, hcn, hc⟩ := exceptBind hc
  obtain ⟨⟨g, kids⟩, hg, hc⟩ := exceptBind hc
  obtain ⟨⟨d, G, done⟩, hflat, hc⟩ := exceptBind hc
  replace hr := raises_ok hr
  replace hdv := raises_ok hdv
  replace hob := raises_ok hob
  replace hcn := raises_ok hcn
  replace hg := raises_ok hg
  replace hflat := raises_ok hflat
  dsimp only at hflat
  unfold constructFlat at hflat
  cases hst : flatten H.info r.p2u (createReverseMap r.p2u) g kids with
  | error e => rw [hst] at hflat; cases hflat
  | ok st =>
    rw [hst] at hflat
    dsimp only at hflat
    obtain ⟨f, pp⟩ := prep hok hf order ho hr hg hst
    generalize hM : mergeAuto H.info order st = M at *
    obtain ⟨L, hL, hnd, hsrc, _, hfree⟩ := C32_connections_partial H.info st r.p2u (createReverseMap r.p2u) M _ pp.wf pp.bip d G done hflat
    have hL' : List.Forall₂ (fun (i : List Name × Name × Name) (e : Nat × Nat) => NodeFor H.info st r.p2u M (fullName i.1 i.2.1) e.1 ∧ NodeFor H.info st r.p2u M (fullName i.1 i.2.2) e.2)
        (issuedPost Local.connections (root.toModel H)) L := by
      unfold ConnPairs at hL
      rw [collect_eq, List.forall₂_map_left_iff] at hL
      refine (forall₂_congr_mem ?_).1 hL
      rintro ⟨path, a, b⟩ hi e
      obtain ⟨l, subs, hat, _⟩ := (mem_issuedPost _ path (a, b)).1 hi
      simp only [descend_full hd hat]
    have den := fun (x : Name) (v : Nat) (h : NodeFor H.info st r.p2u M x v) => nodeFor_denotes hr h
    have hno : NoReuse L := by
      constructor
      · intro e he heq
        obtain ⟨i, hi, h1, h2⟩ := forall₂_mem_right hL' he
        rw [heq] at h1
        exact hch.1 i hi _ (den _ _ h1) (den _ _ h2)
      · refine forall₂_pairwise ?_ hL' hch.2
        intro i j e e' h1 h2 h3 heq
        have := den _ _ h2.1
        rw [heq] at this
        exact h3 _ this (den _ _ h1.2)
    obtain ⟨f', _, _, hf'⟩ := hfree hno
    refine ⟨?_, ?_, ?_, ?_, ?_, decl_ok hd hr _ hdv, decl_ok hd hr _ hcn, objective_ok hd hr hob, hacyc⟩
    · intro path m hat p path1 v1 path2 v2 h1 h2
      obtain ⟨pr', r', h'⟩ := at_ok hat hr
      exact (one_source m (hd.at hat) (hds.at hat) h' h1 h2).1
    · intro path m hat p k1 path1 v1 k2 path2 v2 h1 h2 hne hcmp
      obtain ⟨pr', r', h'⟩ := at_ok hat hr
      cases k1 <;> cases k2
      · exact absurd (one_source m (hd.at hat) (hds.at hat) h' h1 h2).1 hne
      · refine source_target_same_size m (hd.at hat) (hds.at hat) (hct.at hat) h' h1 h2 hne ?_
        rcases hcmp with ⟨h, _⟩ | h
        · cases h
        · exact h
      · refine (source_target_same_size m (hd.at hat) (hds.at hat) (hct.at hat) h' h2 h1 (Ne.symm hne) ?_).symm
        rcases hcmp with ⟨_, h⟩ | h
        · cases h
        · exact h.symm
      · exact targets_same_size m (hd.at hat) (hct.at hat) h' h1 h2
    · intro path l subs hat s hs q hq x hx
      exact promotes_ok hd hr hat hs hq hx
    · intro path m a b hm hab
      have hat := hm.toAt
      rw [OModel.toModel_eq H m] at hat
      have hl : (m.loc H).connections = m.connections := by cases m; rfl
      obtain ⟨e, he, h1, h2⟩ := forall₂_mem_left hL' ((mem_issuedPost (sel := Local.connections) (root.toModel H) path (a, b)).2 ⟨_, _, hat, by rw [hl]; exact hab⟩)
      dsimp only at h1 h2
      obtain ⟨hrole, hsz⟩ := hsrc e he
      have n1 := pp.named e.1 h1.1 h1.2.1 h1.2.2.1
      have n2 := pp.named e.2 h2.1 h2.2.1 h2.2.2.1
      have hr1 : (H e.1).role ≠ .declared := by
        rcases hrole with h | h
        · have h' : (H e.1).role = .input := h
          rw [h']; decide
        · have h' : (H e.1).role = .output := h
          rw [h']; decide
      have same : ∀ v, v ∈ M.nodes → (H v).kind = .var → (H v).name ≠ (H v).auto → ∀ y, NamedVar H root y (st.pname H.info v) → (H y).role ≠ .declared → y = v := by
        intro v v1 v2 v3 y hy hry
        obtain ⟨y1, y2, y3, y4⟩ := pp.nodeOf y _ hy
        have := pp.unique _ y1 _ v1 y2 v2 y3 (Or.inr v3)
        rwa [pp.source y _ hy hry] at this
      refine ⟨_, _, den _ _ h1, den _ _ h2, ⟨e.1, n1, hr1⟩, ⟨e.2, n2⟩, ?_, ?_⟩
      · intro y hy path' m' op hm' hnd' hop hout
        obtain ⟨o1, o2⟩ := pp.outOf path' m' op hm' hnd' hop y hout
        obtain rfl := same e.2 h2.1 h2.2.1 h2.2.2.1 y hy (by rw [o1]; decide)
        exact (hf' e he).2.2 op o2
      · intro x y hx hy
        have hx' : x = e.1 := by
          refine same e.1 h1.1 h1.2.1 h1.2.2.1 x hx.1 ?_
          rcases hx.2 with h | h
          · exact h
          · exact absurd (h e.1 n1) hr1
        subst hx'
        rcases hy.2 with h | h
        · rw [same e.2 h2.1 h2.2.1 h2.2.2.1 y hy.1 h]
          exact hsz
        · refine hsz.trans ?_
          obtain ⟨p1, k1, g1, g2⟩ := named_promoted hok n2
          obtain ⟨p2, k2, g3, g4⟩ := named_promoted hok hy.1
          have e1 : k1 = .target := by
            cases k1 with
            | target => rfl
            | source => exact absurd (h _ n2) (g2.1 rfl)
          have e2 : k2 = .target := by
            cases k2 with
            | target => rfl
            | source => exact absurd (h _ hy.1) (g4.1 rfl)
          subst e1 e2
          exact targets_same_size _ hd hct hr g1 g3
    · rw [List.Nodup, List.pairwise_map] at hnd
      refine forall₂_pairwise ?_ hL'.flip hnd
      intro e e' i j h1 h2 hne q hq hq'
      have a1 := C09_denotation_unique _ hd r hr _ _ _ (den _ _ h1.2) hq
      have a2 := C09_denotation_unique _ hd r hr _ _ _ (den _ _ h2.2) hq'
      exact hne (pp.unique _ h1.2.1 _ h2.2.1 h1.2.2.1 h2.2.2.1 (by rw [a1, a2]) (Or.inl h1.2.2.2.1))
end

end Csdl
