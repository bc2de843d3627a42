import Verif.Spec.Exact
import Verif.Proofs.Accept
import Verif.Props.Promotions2
/-
C72, C104: acceptable hierarchies are accepted.
-/
namespace Csdl

theorem exists_forall₂ {α β : Type} {P : α → β → Prop} (l : List α) (h : ∀ a ∈ l, ∃ b, P a b) : ∃ l', List.Forall₂ P l l' := by
  induction l with
  | nil => exact ⟨[], .nil⟩
  | cons a l ih =>
    obtain ⟨b, hb⟩ := h a (by simp)
    obtain ⟨l', h'⟩ := ih (fun a ha => h a (by simp [ha]))
    exact ⟨b :: l', .cons hb h'⟩

theorem forall₂_pairwise {α β : Type} {P : α → β → Prop} {R : α → α → Prop} {S : β → β → Prop} (hS : ∀ a a' b b', P a b → P a' b' → R a a' → S b b') {l : List α} {l' : List β}
    (h : List.Forall₂ P l l') (hp : l.Pairwise R) : l'.Pairwise S := by
  induction h with
  | nil => exact .nil
  | cons h1 h2 ih =>
    rw [List.pairwise_cons] at hp
    refine .cons ?_ (ih hp.2)
    intro b hb
    obtain ⟨a, ha, hab⟩ := forall₂_mem_right h2 hb
    exact hS _ _ _ _ h1 hab (hp.1 a ha)

section
variable {H : Objs} {n fuel : Nat} {root : OModel}

theorem valid_resolves (hw : WellBuilt H n root) (hv : Acceptable H root) : ∃ r, resolve (root.toModel H) none = .ok r := by
  cases hr : resolve (root.toModel H) none with
  | ok r => exact ⟨r, rfl⟩
  | error e =>
    exfalso
    have hd := hw.objects.dotFree
    cases e with
    | duplicateSource =>
      obtain ⟨path, m', h1, p, p1, v1, p2, v2, h2, h3, h4⟩ := C05_duplicate_error_sound _ hd hr
      exact h4 (hv.oneSource path m' h1 p p1 v1 p2 v2 h2 h3)
    | shapeMismatch =>
      obtain ⟨path, m', h1, p, k1, p1, v1, k2, p2, v2, h2, h3, h4, h5, h6⟩ := shape_error' _ hd hr
      exact h5 (hv.sizes path m' h1 p k1 p1 v1 k2 p2 v2 h2 h3 h4 h6)
    | invalidPromotes =>
      obtain ⟨path, l, subs, s, q, x, h1, h2, h3, h4, h5⟩ := inv_error _ hd hr
      exact h5 (hv.promotes path l subs h1 s h2 q h3 x h4)
    | sizeMismatch => exact C08_size_mismatch_unreachable _ _ hr

theorem valid_decl (hd : DotFree (root.toModel H)) {r : Res} (hr : resolve (root.toModel H) none = .ok r) (sel : Local → Dict Name Nat)
    (h : NamesResolve (root.toModel H) sel ∧ DeclaredOnce (root.toModel H) sel) : ∃ x, collectDecl sel r.p2u (root.toModel H) [] [] = .ok x := by
  cases hc : collectDecl sel r.p2u (root.toModel H) [] [] with
  | ok x => exact ⟨x, rfl⟩
  | error e =>
    exfalso
    rcases C12_errors_sound sel _ hd r hr e hc with ⟨_, path, l, subs, k, d, h1, h2, h3⟩ | ⟨_, pre, mid, post, i, j, x, x', p, h1, h2, h3⟩
    · exact h3 (h.1 path l subs k d h1 h2)
    · have := h.2
      unfold DeclaredOnce at this
      rw [h1, List.pairwise_append] at this
      exact (List.pairwise_cons.1 this.2.1).1 i (by simp) x' x p h3.1 h3.2 h2.1 h2.2

theorem valid_objective (hd : DotFree (root.toModel H)) {r : Res} (hr : resolve (root.toModel H) none = .ok r)
    (h : NamesResolve (root.toModel H) (fun l => l.objective.toList) ∧ (issuedPre (fun l => l.objective.toList) (root.toModel H)).length ≤ 1) :
    ∃ x, findObjective r.p2u (root.toModel H) [] none = .ok x := by
  obtain ⟨e1, e2⟩ := C12_objective_errors _ hd r hr
  cases hc : findObjective r.p2u (root.toModel H) [] none with
  | ok x => exact ⟨x, rfl⟩
  | error e =>
    exfalso
    cases e with
    | unknown =>
      obtain ⟨⟨path, m', k, d⟩, h1, h2⟩ := e1.1 hc
      obtain ⟨l, subs, rfl, hat, hk⟩ := (mem_issuedPre _ path m' (k, d)).1 (List.mem_of_mem_take h1)
      exact h2 (h.1 path l subs k d hat hk)
    | redundant =>
      obtain ⟨i, j, rest, h1, _⟩ := e2.1 hc
      rw [h1] at h
      have := h.2
      simp at this

theorem valid_connections (hw : WellBuilt H n root) (hv : Acceptable H root) {r : Res} (hr : resolve (root.toModel H) none = .ok r) : ∃ x, repConnections (root.toModel H) r.p2u = .ok x := by
  obtain ⟨h1, h2⟩ := C10_error_iff_unknown_name _ hw.objects.dotFree r hr
  rcases h1 with h1 | h1
  · obtain ⟨path, l, subs, a, b, hat, hab, h3⟩ := h2.1 h1
    obtain ⟨m, h4, h5⟩ := OAt.ofAt hat
    rw [OModel.toModel_eq] at h5
    cases h5
    have hl : (m.loc H).connections = m.connections := by cases m; rfl
    obtain ⟨p, q, hp, hq, _⟩ := hv.connections path m a b h4 (by rw [← hl]; exact hab)
    rcases h3 with h3 | h3
    · exact absurd hp (h3 p)
    · exact absurd hq (h3 q)
  · exact h1

/-- what a connection is mapped to -/
structure ConnTo (H : Objs) (root : OModel) (M : Graph) (pn : Nat → Name) (d : NodeMaps) (i : List Name × Name × Name) (e : Nat × Nat) : Prop where
  src : findNode d (fullName i.1 i.2.1) = .ok e.1
  tgt : findNode d (fullName i.1 i.2.2) = .ok e.2
  denSrc : Denotes (root.toModel H) (fullName i.1 i.2.1) (pn e.1)
  denTgt : Denotes (root.toModel H) (fullName i.1 i.2.2) (pn e.2)
  role : (H e.1).role ≠ .declared
  size : (H e.1).shape.size = (H e.2).shape.size
  free : ∀ u, ¬ M.Edge u e.2

/-- what is known of the graph `M` in which the nodes of variables of the same name are merged -/
structure Prep (H : Objs) (root : OModel) (r : Res) (st : FState) (M : Graph) (f : Nat → Nat) : Prop where
  wf : M.WF
  bip : Bipartite H.info M
  unique : ∀ a ∈ M.nodes, ∀ b ∈ M.nodes, (H a).kind = .var → (H b).kind = .var → st.pname H.info a = st.pname H.info b → ((H a).name ≠ (H a).auto ∨ (H b).name ≠ (H b).auto) → a = b
  intoVar : ∀ u v, M.Edge u v → (H v).kind = .var → ∃ path m, OAt H root path m ∧ m.Needs H u ∧ (H u).kind = .op ∧ v ∈ (H u).outs
  outOf : ∀ path m op, OAt H root path m → m.Needs H op → (H op).kind = .op → ∀ y ∈ (H op).outs, (H y).role = .output ∧ M.Edge op y
  /-- the node of a promoted name -/
  nodeOf : ∀ x p, NamedVar H root x p → f x ∈ M.nodes ∧ (H (f x)).kind = .var ∧ st.pname H.info (f x) = p ∧ NamedVar H root (f x) p
  source : ∀ x p, NamedVar H root x p → (H x).role ≠ .declared → f x = x
  named : ∀ x ∈ M.nodes, (H x).kind = .var → (H x).name ≠ (H x).auto → NamedVar H root x (st.pname H.info x)
  inMap : ∀ x ∈ M.nodes, (H x).kind = .var → (H x).name ≠ (H x).auto → ∃ us, r.p2u.get? (st.pname H.info x) = some us
  userNamed : ∀ x p, NamedVar H root x p → (H x).name ≠ (H x).auto

theorem prep (hok : ObjectsOk H n root) (hf : ∀ path m, OAt H root path m → (m.outputs ++ m.declared).length + n ≤ fuel) (order : List Nat → List Nat) (ho : ∀ l x, x ∈ order l ↔ x ∈ l)
    {r : Res} (hr : resolve (root.toModel H) none = .ok r) {g : Graph} {kids : Kids} (hg : root.graphs H fuel = .ok (g, kids)) {st : FState} (hst : flatten H.info r.p2u (createReverseMap r.p2u) g kids = .ok st) :
    ∃ f, Prep H root r st (mergeAuto H.info order st) f := by
  have hd := hok.dotFree
  have hk := hierOk_objects hok hf hg
  have hb := bipartite_objects hok hf hg
  have hrep := represents_objects hok hf hg
  have hn := nodesOk_objects hok hf hg
  obtain ⟨f1, i1, k1, k2, k3, k4⟩ := C30_merge_by_name (root.toModel H) hd (distinctSources_objects hok) r hr H.info g kids st hk hb hrep hst order ho
  obtain ⟨mb, mw⟩ := mergeAuto_bipartite ho (flatten_facts hk hst).1 (flat_bipartite hk hb hst)
  obtain ⟨c3, c3'⟩ := C03_promotion_map_exact (root.toModel H) r hr
  obtain ⟨ρ, hρ⟩ := exists_standsFor hok hf hg
  have hnamed := named_node hok hf hg hρ
  have hnamed' := node_named hok hf hg
  have flatVar := fun x => (isVarOf_flat hk hn hst (x := x))
  generalize hM : mergeAuto H.info order st = M at *
  -- facts about f1, as in `flat_quotient`
  have pname1 : ∀ x, x ∈ st.graph.nodes → (H x).kind = .var → f1 x ∈ M.nodes ∧ (H (f1 x)).kind = .var ∧ st.pname H.info (f1 x) = st.pname H.info x := by
    intro x hx hvx
    refine ⟨(i1.nodes _).2 ⟨x, hx, rfl⟩, ?_⟩
    by_cases ht : IsTarget H.info st.graph x
    · by_cases hsrc : ∃ s, IsSource H.info st.graph s ∧ st.pname H.info s = st.pname H.info x
      · obtain ⟨s, hs', hns⟩ := hsrc
        rw [k2 x s ht hs' hns]; exact ⟨hs'.2.1, hns⟩
      · obtain ⟨t1, t2, _⟩ := k3 x ht (fun s hs' hns => hsrc ⟨s, hs', hns⟩)
        exact ⟨t1.2.1, t2⟩
    · rw [k1 x ht]; exact ⟨hvx, rfl⟩
  have back1 : ∀ x, x ∈ st.graph.nodes → f1 x ∈ st.graph.nodes := by
    intro x hx
    by_cases ht : IsTarget H.info st.graph x
    · by_cases hsrc : ∃ s, IsSource H.info st.graph s ∧ st.pname H.info s = st.pname H.info x
      · obtain ⟨s, hs', hns⟩ := hsrc
        rw [k2 x s ht hs' hns]; exact hs'.1
      · exact (k3 x ht (fun s hs' hns => hsrc ⟨s, hs', hns⟩)).1.1
    · rw [k1 x ht]; exact hx
  have mergedFlat : ∀ a ∈ M.nodes, a ∈ st.graph.nodes := by
    intro a ha
    obtain ⟨x, hx, rfl⟩ := (i1.nodes a).1 ha
    exact back1 x hx
  have k4n : ∀ a ∈ M.nodes, ∀ b ∈ M.nodes, (H a).kind = .var → (H b).kind = .var → st.pname H.info a = st.pname H.info b → ((H a).name ≠ (H a).auto ∨ (H b).name ≠ (H b).auto) → a = b := by
    intro a ha b hb' hka hkb hn' hc
    rcases k4 a ha b hb' hka hkb hn' with h' | ⟨e1, e2, _⟩
    · exact h'
    · rcases hc with hc | hc
      · exact absurd e1 hc
      · exact absurd e2 hc
  have opFix1 : ∀ a, (H a).kind = .op → f1 a = a := by
    intro a hop
    refine k1 a fun ht => ?_
    have : (H a).kind = .var := ht.2.1
    rw [hop] at this; cases this
  have flatB := flat_bipartite hk hb hst
  have stW := (flatten_facts hk hst).1
  -- an edge into a variable of the merged graph
  have intoVar : ∀ u v, M.Edge u v → (H v).kind = .var → ∃ path m, OAt H root path m ∧ m.Needs H u ∧ (H u).kind = .op ∧ v ∈ (H u).outs := by
    intro u v he hkv
    obtain ⟨a, b, he1, rfl, rfl⟩ := (i1.edges u v).1 he
    rcases flatB a b he1 with ⟨_, h2⟩ | ⟨h1, h2⟩
    · rw [opFix1 b h2] at hkv
      have h2' : (H b).kind = .op := h2
      rw [hkv] at h2'; cases h2'
    · rw [opFix1 a h1]
      obtain ⟨path, g1, ks1, hp, he2⟩ := (edge_flat hk hb hn hst).1 he1
      have hrole := hn.outputs path g1 ks1 hp a b he2 h1
      have e1 : f1 b = b := k1 b fun ht => by rw [ht.2.2] at hrole; cases hrole
      rw [e1]
      obtain ⟨m, b1, b2, _⟩ := hier_graphOf hok hf hg hp
      obtain ⟨o1, o2, _⟩ := edge_from_op hok b1 b2 he2 h1
      exact ⟨path, m, b1, o1, h1, o2⟩
  have namedMap : ∀ p x, HasPromotedName (root.toModel H) H.info g kids x p → ∃ us, r.p2u.get? p = some us := by
    rintro p x ⟨path, g', ks', k, w, _, _, _, hw, _⟩
    obtain ⟨us, h1, _⟩ := (c3 p _).2 ⟨path, k, w, hw, rfl⟩
    exact ⟨us, h1⟩
  -- the node of a promoted name
  have nodeOf : ∀ x p, NamedVar H root x p → f1 (ρ x) ∈ M.nodes ∧ (H (f1 (ρ x))).kind = .var ∧ st.pname H.info (f1 (ρ x)) = p ∧ NamedVar H root (f1 (ρ x)) p := by
    intro x p hx
    have hx' := hnamed x p hx
    obtain ⟨x1, x2⟩ := (flatVar (ρ x)).2 hx'.isVarOf
    obtain ⟨a1, a2, a3⟩ := pname1 _ x1 x2
    have hp := hasPromotedName_pname hd hr hk hst hx'
    refine ⟨a1, a2, by rw [a3, hp], ?_⟩
    rcases sameName_cases hd hr hk hrep hst (back1 _ x1) a2 x1 x2 a3 with he | ⟨p', h1, h2⟩ | ⟨_, h2⟩
    · rw [he]; exact hnamed' _ _ hx'
    · have e1 := hasPromotedName_pname hd hr hk hst h2
      rw [hp] at e1; subst e1
      exact hnamed' _ _ h1
    · rw [k1 _ fun ht => h2 ht.2.2]; exact hnamed' _ _ hx'
  have hres := op_results hok hf hg hρ
  refine ⟨fun x => f1 (ρ x), mw, mb, k4n, intoVar, ?_, nodeOf, ?_, ?_, ?_, ?_⟩
  · intro path m op hm hnd hop y hy
    obtain ⟨u1, e1, e2, g', ks', h1, h2⟩ := hres path m hm op hnd hop y hy
    have hrole : (H y).role = .output := hn.outputs path g' ks' h1 op y h2 hop
    refine ⟨hrole, ?_⟩
    have hfy : f1 y = y := k1 y fun ht => by
      have hrole' := ht.2.2
      have : (H y).role = .declared := hrole'
      rw [hrole] at this; cases this
    exact (i1.edges op y).2 ⟨op, y, (edge_flat hk hb hn hst).2 ⟨path, g', ks', h1, h2⟩, opFix1 op hop, hfy⟩
  · rintro x p ⟨path', m', k, w, o1, o2, o3, o4, o5⟩ hrx
    obtain ⟨g', ks', b1, b2, b3⟩ := oat_graphOf hok hf hg o1
    have hnd : x ∉ m'.declared := fun hdx => hrx ((hok.models path' m' o1).declaredRole x hdx).2
    have e1 := ((hρ path' m' o1 x o3).at hok hf o1 b3 hg o3).2.2.2.1 hnd
    show f1 (ρ x) = x
    rw [e1]
    exact k1 x fun ht => hrx ht.2.2
  · intro x hx hkx hnm
    exact hnamed' _ _ (hasPromotedName_of_named hd hr hk hrep hst (mergedFlat x hx) hkx hnm)
  · intro x hx hkx hnm
    exact namedMap _ x (hasPromotedName_of_named hd hr hk hrep hst (mergedFlat x hx) hkx hnm)
  · rintro x p ⟨path, m, k, w, h1, h2, _⟩
    exact (hok.models path m h1).userNamed x h2

variable {r : Res} {st : FState} {M : Graph} {f : Nat → Nat}

theorem Prep.stands (c : Prep H root r st M f) {y : Nat} {q : Name} (hy : NamedVar H root y q) : StandsForName H root (f y) q := by
  obtain ⟨n1, n2, n3, n4⟩ := c.nodeOf y q hy
  refine ⟨n4, ?_⟩
  by_cases hr : (H (f y)).role = .declared
  · refine Or.inr fun z hz => ?_
    by_contra hc
    obtain ⟨z1, z2, z3, z4⟩ := c.nodeOf z q hz
    have := c.unique _ n1 _ z1 n2 z2 (by rw [n3, z3]) (Or.inl (c.userNamed _ _ n4))
    rw [c.source z q hz hc] at this
    rw [this] at hr
    exact hc hr
  · exact Or.inl hr

/-- The representation of an acceptable hierarchy is built. -/
theorem acceptable_accepted (H : Objs) (n fuel : Nat) (root : OModel) (hw : WellBuilt H n root) (hch : NoChain (root.toModel H)) (hv : Acceptable H root) (hf : ∀ path m, OAt H root path m → (m.outputs ++ m.declared).length + n ≤ fuel)
    (order : List Nat → List Nat) (ho : ∀ l x, x ∈ order l ↔ x ∈ l) : ∃ rep, compile H fuel order root = .ok rep := by
  have hok := hw.objects
  have hd := hok.dotFree
  obtain ⟨r, hr⟩ := valid_resolves hw hv
  obtain ⟨cs, hcs⟩ := valid_connections hw hv hr
  obtain ⟨dv, hdv⟩ := valid_decl hd hr _ hv.designVars
  obtain ⟨ob, hob⟩ := valid_objective hd hr hv.objective
  obtain ⟨cn, hcn⟩ := valid_decl hd hr _ hv.constraints
  obtain ⟨g, kids, hg⟩ := objects_graphs hok hf
  have hk := hierOk_objects hok hf hg
  have hb := bipartite_objects hok hf hg
  have hrep := represents_objects hok hf hg
  have hn := nodesOk_objects hok hf hg
  obtain ⟨st, hst⟩ := C29_flatten_total (root.toModel H) hd r hr H.info g kids hrep
  obtain ⟨f, pp⟩ := prep hok hf order ho hr hg hst
  obtain ⟨c3, c3'⟩ := C03_promotion_map_exact (root.toModel H) r hr
  obtain ⟨c4, _⟩ := C04_maps_inverse (root.toModel H) hd r hr
  have hsets := p2u_setsNodup (root.toModel H) hr
  generalize hM : mergeAuto H.info order st = M at *
  -- the index
  obtain ⟨d, hd1, _, _, hd4⟩ := indexNodes_total (I := H.info) (st := st) (p2u := r.p2u) (u2p := createReverseMap r.p2u) (g := M) M.nodes (d := {}) pp.wf.nodup (by
      intro v hvm hkv
      refine ⟨length_le_one (Graph.nodup_preds pp.wf.edges_nodup v) ?_, ?_⟩
      · intro a ha b hb'
        rw [Graph.mem_preds] at ha hb'
        obtain ⟨p1, m1, a1, a2, a3, a4⟩ := pp.intoVar a v ha hkv
        obtain ⟨p2, m2, b1, b2, b3, b4⟩ := pp.intoVar b v hb' hkv
        exact hw.oneOperation p1 m1 p2 m2 a b v a1 b1 a2 b2 a3 b3 a4 b4
      · intro hnm
        obtain ⟨us, h1⟩ := pp.inMap v hvm hkv hnm
        exact ⟨us, h1, hsets _ _ h1, fun u hu => (c4 _ u).2 ⟨us, h1, hu⟩⟩)
    (fun v hv' w hw h1 h2 h0 h3 => pp.unique v hv' w hw h1 h2 h3 (Or.inl h0)) (by intro v _ _ _ us _ u _; rfl)
  obtain ⟨hmaps, _⟩ := indexNodes_ok M.nodes (fun _ h => h) ⟨by simp [Dict.get?], by simp [Dict.get?]⟩ hd1
  have found : ∀ key p x, Denotes (root.toModel H) key p → NamedVar H root x p → findNode d key = .ok (f x) := by
    intro key p x hden hx
    obtain ⟨n1, n2, n3, n4⟩ := pp.nodeOf x p hx
    obtain ⟨q1, q2⟩ := hd4 _ n1 n2 (pp.userNamed _ _ n4)
    rw [n3] at q1 q2
    have same : ∀ w, NodeFor H.info st r.p2u M key w → w = f x := by
      intro w hw
      have := C09_denotation_unique _ hd r hr _ _ _ (nodeFor_denotes hr hw) hden
      exact pp.unique w hw.1 _ n1 hw.2.1 n2 (by rw [this, n3]) (Or.inl hw.2.2.1)
    have some' : ∃ w, findNode d key = .ok w := by
      unfold findNode
      cases h1 : d.p2n.get? key with
      | some w => exact ⟨w, rfl⟩
      | none =>
        dsimp only
        cases hden with
        | promoted _ => rw [q1] at h1; cases h1
        | full hw =>
          obtain ⟨us, h2, h3⟩ := (c3 p _).2 ⟨_, _, _, hw, rfl⟩
          rw [q2 us h2 _ h3]
          exact ⟨_, rfl⟩
    obtain ⟨w, hw⟩ := some'
    rw [hw, same w (findNode_ok hmaps hw)]
  -- the connections
  have hconn : ∀ i ∈ issuedPost Local.connections (root.toModel H), ∃ e, ConnTo H root M (st.pname H.info) d i e := by
    rintro ⟨path, a, b⟩ hi
    obtain ⟨l, subs, hat, hab⟩ := (mem_issuedPost _ path (a, b)).1 hi
    obtain ⟨m, h4, h5⟩ := OAt.ofAt hat
    rw [OModel.toModel_eq] at h5
    cases h5
    have hl : (m.loc H).connections = m.connections := by cases m; rfl
    obtain ⟨p, q, hp, hq, ⟨x, hx, hrx⟩, ⟨y, hy⟩, hout, hsz⟩ := hv.connections path m a b h4 (by rw [← hl]; exact hab)
    obtain ⟨x1, x2, x3, x4⟩ := pp.nodeOf x p hx
    obtain ⟨y1, y2, y3, y4⟩ := pp.nodeOf y q hy
    have hxx := pp.source x p hx hrx
    refine ⟨(f x, f y), found _ _ _ hp hx, found _ _ _ hq hy, by rw [x3]; exact hp, by rw [y3]; exact hq, by rw [hxx]; exact hrx, hsz _ _ (pp.stands hx) (pp.stands hy), ?_⟩
    intro u he
    obtain ⟨p1, m1, a1, a2, a3, a4⟩ := pp.intoVar u _ he y2
    exact hout _ y4 p1 m1 u a1 a2 a3 a4
  obtain ⟨L, hL⟩ := exists_forall₂ _ hconn
  have hmerge : ∃ x, mergeConnections H.info st r.p2u (createReverseMap r.p2u) M (collectConnections (root.toModel H) []) = .ok x := by
    refine C32_accepts H.info st r.p2u (createReverseMap r.p2u) M _ d L hd1 ?_ ?_ ?_ ?_ ⟨?_, ?_⟩
    · rw [collect_eq, List.forall₂_map_left_iff]
      refine (forall₂_congr_mem (R := fun (i : List Name × Name × Name) (e : Nat × Nat) => findNode d (fullName i.1 i.2.1) = .ok e.1 ∧ findNode d (fullName i.1 i.2.2) = .ok e.2) ?_).1 (hL.imp fun i e h => ⟨h.src, h.tgt⟩)
      rintro ⟨path, a, b⟩ hi e
      obtain ⟨l, subs, hat, _⟩ := (mem_issuedPost _ path (a, b)).1 hi
      simp only [descend_full hd hat]
    · rw [List.Nodup, List.pairwise_map]
      refine forall₂_pairwise ?_ hL hv.oneConnection
      intro i j e e' h1 h2 h3 heq
      have := h2.denTgt
      rw [← heq] at this
      exact h3 _ h1.denTgt this
    · intro e he
      obtain ⟨i, _, h⟩ := forall₂_mem_right hL he
      exact ⟨h.role, h.size⟩
    · intro e he
      obtain ⟨i, _, h⟩ := forall₂_mem_right hL he
      exact h.free
    · intro e he heq
      obtain ⟨i, hi, h⟩ := forall₂_mem_right hL he
      have := h.denSrc
      rw [heq] at this
      exact hch.1 i hi _ this h.denTgt
    · refine forall₂_pairwise ?_ hL hch.2
      intro i j e e' h1 h2 h3 heq
      have := h2.denSrc
      rw [heq] at this
      exact h3 _ this h1.denTgt
  obtain ⟨⟨d', G, done⟩, hx⟩ := hmerge
  have hflat : constructFlat H.info order r.p2u (createReverseMap r.p2u) g kids (collectConnections (root.toModel H) []) = .ok (d', G, done) := by
    unfold constructFlat
    rw [hst]; dsimp only
    rw [hM]; exact hx
  obtain ⟨F, q⟩ := obj_quotient hok hf ho hch hr hg hflat
  obtain ⟨l, hl, _⟩ := C24_acyclic_ok G q.wf (fun hc => hv.acyclic (q.cyclic.1 hc))
  refine ⟨⟨r.p2u, cs, dv, ob, cn, d', G, done, l⟩, ?_⟩
  unfold compile
  simp only [hr, hcs, hdv, hob, hcn, hg, hflat, hl, raises, bind, Except.bind, pure, Except.pure]
end


end Csdl
