import Verif.Proofs.Report4
import Verif.Props.Compile

namespace Csdl

/-- what the identification `f` identifies -/
theorem FlatQuotient.same_iff {m : Model} {I : NHeap} {g : Graph} {kids : Kids} {d : NodeMaps} {g' : Graph} {done : Dict Nat Nat} {f : Nat → Nat} (q : FlatQuotient m I g kids d g' done f)
    {x y : Nat} (hx : IsVarOf I g kids x) (hy : IsVarOf I g kids y) : f x = f y ↔ Relation.EqvGen (Identified m I g kids) x y := by
  have hl : ∀ x, IsVarOf I g kids x → Relation.EqvGen (Identified m I g kids) (f x) x := by
    intro x hx
    refine Quot.eqvGen_exact (q.least (Quot (Identified m I g kids)) (Quot.mk _) ?_ ?_ x hx)
    · intro x y p h1 h2
      exact Quot.sound (.name p h1 h2)
    · intro path l subs a b p p' hat hab hp hp' x y h1 h2
      exact Quot.sound (.connection path l subs a b p p' hat hab hp hp' h1 h2)
  constructor
  · intro e
    exact .trans _ _ _ (.symm _ _ (hl x hx)) (e ▸ hl y hy)
  · intro e
    clear hx hy
    induction e with
    | rel a b hab =>
      cases hab with
      | name p h1 h2 => exact q.shared a b p h1 h2
      | connection path l subs s t p p' hat hst hp hp' h1 h2 => exact q.connected path l subs s t p p' hat hst hp hp' a b h1 h2
    | refl a => rfl
    | symm a b _ ih => exact ih.symm
    | trans a b c _ _ ih1 ih2 => exact ih1.trans ih2

theorem eqvGen_cases {α : Type} {R : α → α → Prop} {x y : α} (h : Relation.EqvGen R x y) : x = y ∨ ((∃ z, R x z ∨ R z x) ∧ ∃ z, R y z ∨ R z y) := by
  induction h with
  | rel a b hab => exact Or.inr ⟨⟨b, Or.inl hab⟩, a, Or.inr hab⟩
  | refl a => exact Or.inl rfl
  | symm a b _ ih => exact ih.elim (fun h => Or.inl h.symm) fun h => Or.inr ⟨h.2, h.1⟩
  | trans a b c _ _ ih1 ih2 =>
    rcases ih1 with rfl | ih1
    · exact ih2
    · rcases ih2 with rfl | ih2
      · exact Or.inr ih1
      · exact Or.inr ⟨ih1.1, ih2.2⟩

section
variable {H : Objs} {n fuel : Nat} {root : OModel} {g : Graph} {kids : Kids}

theorem identified_joined (hok : ObjectsOk H n root) (hf : Enough H n fuel root) (hg : root.graphs H fuel = .ok (g, kids)) {a b : Nat}
    (h : Identified (root.toModel H) H.info g kids a b) : Joined H root a b := by
  have hnamed' := node_named hok hf hg
  rcases h with ⟨p, h1, h2⟩ | ⟨path, l, subs, s, t, p, p', hat, hst, hp, hp', h1, h2⟩
  · exact .name p (hnamed' a p h1) (hnamed' b p h2)
  · obtain ⟨m, h3, h4⟩ := OAt.ofAt hat
    rw [OModel.toModel_eq] at h4
    cases h4
    have hl : (m.loc H).connections = m.connections := by cases m; rfl
    exact .connection path m s t p p' h3 (by rw [← hl]; exact hst) hp hp' (hnamed' a p h1) (hnamed' b p' h2)

/-- variables that are nodes are the same by promotions and connections exactly if `f` identifies them -/
theorem joined_iff (hok : ObjectsOk H n root) (hf : Enough H n fuel root) (hg : root.graphs H fuel = .ok (g, kids)) {d : NodeMaps} {g' : Graph} {done : Dict Nat Nat} {f : Nat → Nat}
    (q : FlatQuotient (root.toModel H) H.info g kids d g' done f) {x y : Nat} (hx : IsVarOf H.info g kids x) (hy : IsVarOf H.info g kids y) :
    Relation.EqvGen (Joined H root) x y ↔ f x = f y := by
  constructor
  · obtain ⟨ρ, hρ⟩ := exists_standsFor hok hf hg
    have hfix : ∀ x, IsVarOf H.info g kids x → ρ x = x := by
      rintro x ⟨path, g1, ks1, hp, hm, hv⟩
      obtain ⟨m, b1, b2, b3⟩ := hier_graphOf hok hf hg hp
      have hu := uses_of_var hok b1 b2 hm (by rw [show (H x).kind = .var from hv]; simp)
      obtain ⟨a1, a2, _⟩ := (hρ path m b1 x hu).at hok hf b1 b3 hg hu
      exact b2.byName _ a1 _ hm a2
    have hnamed := named_node hok hf hg hρ
    intro e
    rw [← hfix x hx, ← hfix y hy]
    clear hx hy
    induction e with
    | rel a b hab =>
      cases hab with
      | name p h1 h2 => exact q.shared _ _ p (hnamed a p h1) (hnamed b p h2)
      | connection path m s t p p' hat hst hp hp' h1 h2 =>
        have h3 := hat.toAt
        rw [OModel.toModel_eq H m] at h3
        exact q.connected path _ _ s t p p' h3 (by cases m; exact hst) hp hp' _ _ (hnamed a p h1) (hnamed b p' h2)
    | refl a => rfl
    | symm a b _ ih => exact ih.symm
    | trans a b c _ _ ih1 ih2 => exact ih1.trans ih2
  · intro e
    exact ((q.same_iff hx hy).1 e).mono fun _ _ => identified_joined hok hf hg

theorem mergeConnectionList_keys {I : NHeap} {d : NodeMaps} : ∀ {cs : List (Name × Name × Name)} {acc r : Graph × Dict Nat Nat}, acc.2.keys.Nodup → mergeConnectionList I d cs acc = .ok r → r.2.keys.Nodup := by
  intro cs
  induction cs with
  | nil => intro acc r h he; cases he; exact h
  | cons c cs ih =>
    intro acc r h he
    unfold mergeConnectionList at he
    split at he
    · cases he
    · rename_i acc' ha
      refine ih ?_ he
      unfold mergeConnection at ha
      split at ha
      · cases ha
      · split at ha
        · cases ha
        · split at ha
          · cases ha
          · split at ha
            · cases ha
            · cases ha
              exact Dict.nodup_set h _ _

theorem mergeConnections_keys {I : NHeap} {st : FState} {p2u u2p} {g : Graph} {cs} {r : NodeMaps × Graph × Dict Nat Nat} (h : mergeConnections I st p2u u2p g cs = .ok r) : r.2.2.keys.Nodup := by
  unfold mergeConnections at h
  split at h
  · cases h
  · split at h
    · cases h
    · rename_i r' hr
      cases h
      exact mergeConnectionList_keys (acc := (g, [])) .nil hr

/-- which variables have rows -/
theorem rows_iff {I : NHeap} {m : Model} {secs : List HSection} (hs : List.Forall₂ (SecAt I m) (([], g) :: kids.walk []) secs) {x : Nat} :
    Rows secs x ↔ IsVarOf I g kids x ∧ (I x).name ≠ (I x).auto := by
  have hmem : ∀ (g' : Graph) v, v ∈ (varNodes I g').filter (named I) ↔ v ∈ g'.nodes ∧ (I v).kind = .var ∧ (I v).name ≠ (I v).auto := by
    intro g' v
    rw [List.mem_filter, varNodes, List.mem_filter]
    simp only [named, decide_eq_true_eq, and_assoc]
  constructor
  · rintro ⟨sec, hsec, line, hl, rfl⟩
    obtain ⟨e, he, h1⟩ := forall₂_mem_right hs hsec
    obtain ⟨v, hv, hrow⟩ := forall₂_mem_right h1.rows hl
    obtain ⟨v1, v2, v3⟩ := (hmem e.2 v).1 hv
    obtain ⟨q, hq, k, w, level, p1, p2, p3, rfl⟩ := hrow
    refine ⟨?_, v3⟩
    rcases List.mem_cons.1 he with rfl | he
    · exact ⟨[], g, kids, Or.inl ⟨rfl, rfl, rfl⟩, v1, v2⟩
    · obtain ⟨path, ks', _, _, h2⟩ := kids.walk_at he
      exact ⟨_, e.2, ks', Or.inr h2, v1, v2⟩
  · rintro ⟨⟨path, g1, ks1, hp, hm, hv⟩, hn⟩
    have he : (path, g1) ∈ ([], g) :: kids.walk [] := by
      rcases hp with ⟨rfl, rfl, rfl⟩ | hp
      · simp
      · have := hp.walk []
        rw [List.nil_append] at this
        exact List.mem_cons_of_mem _ this
    obtain ⟨sec, hsec, h1⟩ := forall₂_mem_left hs he
    obtain ⟨line, hl, hrow⟩ := forall₂_mem_left h1.rows ((hmem g1 x).2 ⟨hm, hv, hn⟩)
    obtain ⟨q, hq, k, w, level, p1, p2, p3, rfl⟩ := hrow
    exact ⟨sec, hsec, _, hl, rfl⟩

/-- `GraphRepresentation` with and without the files -/
theorem compileA_of {order : List Nat → List Nat} {depth : Nat} {rep : Rep} (hc : compile H fuel order root = .ok rep) :
    ∃ r g kids, resolve (root.toModel H) none = .ok r ∧ root.graphs H fuel = .ok (g, kids) ∧
      constructFlat H.info order r.p2u (createReverseMap r.p2u) g kids (collectConnections (root.toModel H) []) = .ok (rep.maps, rep.graph, rep.done) ∧
      ∀ rpt, constructFlatA H.info order depth r.p2u (createReverseMap r.p2u) g kids (collectConnections (root.toModel H) []) = .ok ((rep.maps, rep.graph, rep.done), rpt) →
        compileA H fuel order depth root = .ok (rep, rpt) := by
  unfold compile at hc
  obtain ⟨r, h1, hc⟩ := exceptBind hc
  obtain ⟨cs, h2, hc⟩ := exceptBind hc
  obtain ⟨dv, h3, hc⟩ := exceptBind hc
  obtain ⟨ob, h4, hc⟩ := exceptBind hc
  obtain ⟨cn, h5, hc⟩ := exceptBind hc
  obtain ⟨gk, h6, hc⟩ := exceptBind hc
  obtain ⟨f, h7, hc⟩ := exceptBind hc
  obtain ⟨l, h8, hc⟩ := exceptBind hc
  cases hc
  refine ⟨r, gk.1, gk.2, raises_ok h1, raises_ok h6, raises_ok h7, ?_⟩
  intro rpt hA
  dsimp only at hA
  unfold compileA
  simp only [h1, h2, h3, h4, h5, h6, hA, raisesA, Except.mapError, bind, Except.bind, pure, Except.pure]
  rw [h8]

theorem constructFlatA_sound {I : NHeap} {order : List Nat → List Nat} {depth : Nat} {p2u u2p} {cs} {f rpt} (h : constructFlatA I order depth p2u u2p g kids cs = .ok (f, rpt)) :
    constructFlat I order p2u u2p g kids cs = .ok f := by
  unfold constructFlatA at h
  split at h
  · cases h
  · rename_i st secs hf
    split at h
    · cases h
    · rename_i r hm
      split at h
      · cases h
      · cases h
        unfold constructFlat
        rw [flattenA_sound hf]
        exact hm

theorem mapError_ok {α β γ : Type} {f : α → β} {x : Except α γ} {b : γ} (h : x.mapError f = .ok b) : x = .ok b := by
  cases x with
  | error e => cases h
  | ok b => cases h; rfl

theorem compileA_sound {order : List Nat → List Nat} {depth : Nat} {rep : Rep} {rpt : Report} (h : compileA H fuel order depth root = .ok (rep, rpt)) : compile H fuel order root = .ok rep := by
  unfold compileA at h
  obtain ⟨r, h1, h⟩ := exceptBind h
  obtain ⟨cs, h2, h⟩ := exceptBind h
  obtain ⟨dv, h3, h⟩ := exceptBind h
  obtain ⟨ob, h4, h⟩ := exceptBind h
  obtain ⟨cn, h5, h⟩ := exceptBind h
  obtain ⟨gk, h6, h⟩ := exceptBind h
  obtain ⟨f, h7, h⟩ := exceptBind h
  obtain ⟨l, h8, h⟩ := exceptBind h
  cases h
  have h7' : constructFlat H.info order r.p2u (createReverseMap r.p2u) gk.1 gk.2 (collectConnections (root.toModel H) []) = .ok f.1 := by
    refine constructFlatA_sound (depth := depth) (rpt := f.2) ?_
    cases hx : constructFlatA H.info order depth r.p2u (createReverseMap r.p2u) gk.1 gk.2 (collectConnections (root.toModel H) []) with
    | ok f' => rw [hx] at h7; cases h7; rfl
    | error e => rw [hx] at h7; cases e <;> cases h7
  unfold compile
  rw [mapError_ok h1]
  show (raises _ _ >>= _) = _
  rw [mapError_ok h2]
  show (raises _ _ >>= _) = _
  rw [mapError_ok h3]
  show (raises _ _ >>= _) = _
  rw [mapError_ok h4]
  show (raises _ _ >>= _) = _
  rw [mapError_ok h5]
  show (raises _ _ >>= _) = _
  rw [mapError_ok h6]
  show (raises _ _ >>= _) = _
  rw [h7']
  show (raises _ (flatSort f.1.2.1) >>= _) = _
  rw [mapError_ok h8]
  rfl

/-- the row of a variable -/
theorem row_of {I : NHeap} {m : Model} {secs : List HSection} (hs : List.Forall₂ (SecAt I m) (([], g) :: kids.walk []) secs) {path : List Name} {g1 : Graph} {ks1 : Kids} (hp : HierAt g kids path g1 ks1)
    {x : Nat} (hm : x ∈ g1.nodes) (hv : (I x).kind = .var) (hn : (I x).name ≠ (I x).auto) :
    ∃ sec ∈ secs, ∃ row ∈ sec.lines, row.node = x ∧ row.role = (I x).role ∧ row.full = fullName path (I x).name := by
  have he : (path, g1) ∈ ([], g) :: kids.walk [] := by
    rcases hp with ⟨rfl, rfl, rfl⟩ | hp
    · simp
    · have := hp.walk []
      rw [List.nil_append] at this
      exact List.mem_cons_of_mem _ this
  obtain ⟨sec, hsec, h1⟩ := forall₂_mem_left hs he
  obtain ⟨line, hl, hrow⟩ := forall₂_mem_left h1.rows (x := x) (by
    rw [List.mem_filter, varNodes, List.mem_filter]
    simp only [named, decide_eq_true_eq, and_assoc]
    exact ⟨hm, hv, hn⟩)
  obtain ⟨q, hq, k, w, level, p1, p2, p3, rfl⟩ := hrow
  exact ⟨sec, hsec, _, hl, rfl, rfl, rfl⟩

theorem flatMap_nodup {α β : Type} {A : List α} {B : List β} {N : β → List Nat} {S : α → Nat → Prop} (h : List.Forall₂ (fun a b => (N b).Nodup ∧ ∀ x ∈ N b, S a x) A B) (hn : A.Nodup)
    (hd : ∀ a ∈ A, ∀ b ∈ A, ∀ x, S a x → S b x → a = b) : (B.flatMap N).Nodup := by
  induction h with
  | nil => simp
  | @cons a b A B h1 h2 ih =>
    rw [List.nodup_cons] at hn
    rw [List.flatMap_cons, List.nodup_append]
    refine ⟨h1.1, ih hn.2 fun a ha b hb => hd a (by simp [ha]) b (by simp [hb]), ?_⟩
    rintro x hx y hy rfl
    obtain ⟨b', hb', hxb⟩ := List.mem_flatMap.1 hy
    obtain ⟨a', ha', hab⟩ := forall₂_mem_right h2 hb'
    have := hd a (by simp) a' (by simp [ha']) x (h1.2 x hx) (hab.2 x hxb)
    exact hn.1 (this ▸ ha')

theorem report_ok (hok : ObjectsOk H n root) (hf : Enough H n fuel root) {order : List Nat → List Nat} (hop : ∀ l, (order l).Perm l) (hno : NoChain (root.toModel H)) {depth : Nat}
    (hdep : (issuedPost Local.connections (root.toModel H)).length + 2 ≤ depth) {rep : Rep} (hc : compile H fuel order root = .ok rep) :
    ∃ rpt g kids, compileA H fuel order depth root = .ok (rep, rpt) ∧ root.graphs H fuel = .ok (g, kids) ∧
      List.Forall₂ (SecAt H.info (root.toModel H)) (([], g) :: kids.walk []) rpt.sections ∧ BlocksShow H root rep rpt.sections rpt.blocks := by
  have ho : ∀ l x, x ∈ order l ↔ x ∈ l := fun l x => (hop l).mem_iff
  obtain ⟨r, g, kids, hr, hg, hflat, hA⟩ := compileA_of (depth := depth) hc
  have hd := hok.dotFree
  have hk := hierOk_objects hok hf hg
  have hb := bipartite_objects hok hf hg
  have hrep := represents_objects hok hf hg
  have hnd := nodesOk_objects hok hf hg
  obtain ⟨f, q, st, f1, f2, L, hst, P, hlen, hiss⟩ := flat_quotient_parts (root.toModel H) hd (distinctSources_objects hok) r hr H.info g kids hk hb hrep hnd order ho _ _ _ hflat hno
  have hm : mergeConnections H.info st r.p2u (createReverseMap r.p2u) (mergeAuto H.info order st) (collectConnections (root.toModel H) []) = .ok (rep.maps, rep.graph, rep.done) := by
    unfold constructFlat at hflat
    rw [hst] at hflat
    exact hflat
  have hdn : rep.done.keys.Nodup := mergeConnections_keys hm
  have hw := (flatten_facts hk hst).1
  have hs := flat_sources_target hd (distinctSources_objects hok) hr hk hrep hst
  obtain ⟨secs, hsec, hsecs⟩ := flattenA_ok hd hr hk hrep hst
  have hflatVar := fun x => isVarOf_flat hk hnd hst (x := x)
  have hforest := P.forest hdn hw ho hs
  have hnamed' := node_named hok hf hg
  have hR1 : ∀ v t, t ∈ connectedTo rep.done v → ShownAs H root v t .connection := by
    intro v t ht
    have := (P.done v t).1 ((mem_connectedTo hdn).1 ht)
    obtain ⟨path, l, subs, a, b, p, q, hat, hab, hp, hq, h1, h2⟩ := hiss _ this
    obtain ⟨m, h3, h4⟩ := OAt.ofAt hat
    rw [OModel.toModel_eq] at h4
    cases h4
    exact .connection path m a b p q h3 (by cases m; exact hab) hp hq (hnamed' _ p h1) (hnamed' _ q h2)
  have hR2 : ∀ v t, t ∈ declaredTo H.info order st v → ShownAs H root v t .promotion := by
    intro v t ht
    obtain ⟨h1, h2, h3⟩ := ((declaredTo_spec ho hw hs P.source1 P.target1 v).2 t).1 ht
    have hv : v ∈ st.graph.nodes ∧ (H.info v).kind = .var ∧ st.pname H.info v = st.pname H.info t := by
      by_cases hsr : ∃ s, IsSource H.info st.graph s ∧ st.pname H.info s = st.pname H.info t
      · obtain ⟨s, hs1, hs2⟩ := hsr
        have := P.source1 t s h1 hs1 hs2
        rw [h2] at this
        subst this
        exact ⟨hs1.1, hs1.2.1, hs2⟩
      · push Not at hsr
        obtain ⟨a, b⟩ := P.target_image h1 hsr
        rw [h2] at a b
        exact ⟨a.1, a.2.1, b⟩
    rcases sameName_cases hd hr hk hrep hst hv.1 hv.2.1 h1.1 h1.2.1 hv.2.2 with h4 | ⟨p, h4, h5⟩ | ⟨_, h4⟩
    · exact absurd h4.symm h3
    · exact .promotion p (hnamed' _ p h4) (hnamed' _ p h5)
    · exact absurd h1.2.2 h4
  obtain ⟨bs, hbs, hall⟩ := writeBlocks_ok (I := H.info) (uns := st.uns) hop hforest (fuel := depth) (fun v => by have := rankOf_le (mergeAuto H.info order st) L v; omega) hR1 hR2 rep.graph.nodes
  have hcomp : compileA H fuel order depth root = .ok (rep, ⟨secs, bs⟩) := by
    apply hA
    unfold constructFlatA
    rw [hsec]
    dsimp only
    rw [hm]
    dsimp only
    rw [hbs]
  refine ⟨⟨secs, bs⟩, g, kids, hcomp, hg, hsecs, ?_⟩
  -- the nodes of blocks
  have hnode : ∀ v b, v ∈ rep.graph.nodes → (H v).kind = .var → BlockFor H.info st.uns (declaredTo H.info order st) (connectedTo rep.done) (ShownAs H root) v b →
      ∀ x, x ∈ b.nodes ↔ IsVarOf H.info g kids x ∧ f x = v := by
    intro v b hv hkv hb' x
    rw [hb'.nodes x]
    have hin : ∀ x, Relation.ReflTransGen (Below (declaredTo H.info order st) (connectedTo rep.done)) v x → x ∈ st.graph.nodes ∧ (H.info x).kind = .var := by
      intro x hx
      rcases Relation.ReflTransGen.cases_tail hx with h0 | ⟨w, _, hwx⟩
      · rw [h0]
        obtain ⟨path, g1, ks1, hp, hm1⟩ := q.nodes v hv
        exact (hflatVar v).2 ⟨path, g1, ks1, hp, hm1, hkv⟩
      · rcases P.below hdn hw ho hs hwx with h | ⟨h, _⟩
        · obtain ⟨path, l, subs, a, b, p, q, _, _, _, _, _, h2⟩ := hiss _ h
          exact (hflatVar _).2 h2.isVarOf
        · exact ⟨h.1, h.2.1⟩
    constructor
    · intro h
      exact ⟨(hflatVar x).1 (hin x h), (P.class_of hdn hw ho hs hv (hin x h).1).1 h⟩
    · rintro ⟨h1, h2⟩
      exact (P.class_of hdn hw ho hs hv ((hflatVar x).2 h1).1).2 h2
  have hmemV : ∀ v, v ∈ (rep.graph.nodes.filter fun v => ¬ ((H.info v).kind ≠ .var ∨ (connectedTo rep.done v = [] ∧ declaredTo H.info order st v = []))) ↔
      v ∈ rep.graph.nodes ∧ (H v).kind = .var ∧ ∃ t, Below (declaredTo H.info order st) (connectedTo rep.done) v t := by
    intro v
    rw [List.mem_filter, decide_eq_true_eq, not_or, not_not, and_congr_right_iff]
    intro _
    refine and_congr_right fun _ => ?_
    constructor
    · intro h
      by_cases h1 : connectedTo rep.done v = []
      · obtain ⟨t, ht⟩ := List.exists_mem_of_ne_nil _ (fun h2 => h ⟨h1, h2⟩)
        exact ⟨t, Or.inr ht⟩
      · obtain ⟨t, ht⟩ := List.exists_mem_of_ne_nil _ h1
        exact ⟨t, Or.inl ht⟩
    · rintro ⟨t, ht⟩ ⟨h1, h2⟩
      rcases ht with ht | ht
      · rw [h1] at ht; cases ht
      · rw [h2] at ht; cases ht
  have hblock : ∀ b ∈ bs, ∃ v, v ∈ rep.graph.nodes ∧ (H v).kind = .var ∧ (∃ t, Below (declaredTo H.info order st) (connectedTo rep.done) v t) ∧
      BlockFor H.info st.uns (declaredTo H.info order st) (connectedTo rep.done) (ShownAs H root) v b := by
    intro b hb'
    obtain ⟨v, hv, h1⟩ := forall₂_mem_right hall hb'
    obtain ⟨v1, v2, v3⟩ := (hmemV v).1 hv
    exact ⟨v, v1, v2, v3, h1⟩
  -- members of blocks have names given by the user
  have huser : ∀ x y, IsVarOf H.info g kids x → IsVarOf H.info g kids y → f x = f y → x ≠ y → (H.info x).name ≠ (H.info x).auto := by
    intro x y hx hy he hne
    rcases eqvGen_cases ((q.same_iff hx hy).1 he) with h | ⟨⟨z, h⟩, _⟩
    · exact absurd h hne
    · have : ∃ p, HasPromotedName (root.toModel H) H.info g kids x p := by
        rcases h with h | h
        · rcases h with ⟨p, h1, h2⟩ | ⟨path, l, subs, s, t, p, p', hat, hst, hp, hp', h1, h2⟩
          · exact ⟨p, h1⟩
          · exact ⟨p, h1⟩
        · rcases h with ⟨p, h1, h2⟩ | ⟨path, l, subs, s, t, p, p', hat, hst, hp, hp', h1, h2⟩
          · exact ⟨p, h2⟩
          · exact ⟨p', h2⟩
      obtain ⟨p, hp⟩ := this
      have h1 := hasPromotedName_pname hd hr hk hst hp
      obtain ⟨_, _, _, _, _, _, _, _, hpa, _⟩ := hp
      exact named_of_promoted hd hr hk hrep hst ((hflatVar x).2 hx).1 ((hflatVar x).2 hx).2 hpa h1
  have hother : ∀ b ∈ bs, ∀ x ∈ b.nodes, (H.info x).name ≠ (H.info x).auto := by
    intro b hb' x hx
    obtain ⟨v, v1, v2, ⟨t, ht⟩, h1⟩ := hblock b hb'
    have hmem := hnode v b v1 v2 h1
    obtain ⟨x1, x2⟩ := (hmem x).1 hx
    obtain ⟨t1, t2⟩ := (hmem t).1 ((h1.nodes t).2 (.single ht))
    obtain ⟨u1, u2⟩ := (hmem v).1 ((h1.nodes v).2 .refl)
    have hvt : v ≠ t := fun e => P.no_parent hdn hw ho hs v1 (w := v) (by rw [← e] at ht; exact ht)
    by_cases hxv : x = v
    · exact huser x t x1 t1 (x2.trans t2.symm) (by rw [hxv]; exact hvt)
    · exact huser x v x1 u1 (x2.trans u2.symm) hxv
  constructor
  · intro b hb' line hl
    obtain ⟨v, v1, v2, _, h1⟩ := hblock b hb'
    have hx : line.node ∈ b.nodes := List.mem_map.2 ⟨line, hl, rfl⟩
    obtain ⟨⟨path, g1, ks1, hp, hm1, hv1⟩, _⟩ := (hnode v b v1 v2 h1 _).1 hx
    obtain ⟨sec, hs1, row, hr1, e1, e2, e3⟩ := row_of hsecs hp hm1 hv1 (hother b hb' _ hx)
    obtain ⟨l1, l2⟩ := h1.lines line hl
    refine ⟨sec, hs1, row, hr1, e1, e2.trans l1.symm, ?_⟩
    rw [e3, l2]
    obtain ⟨m', hm'⟩ := hrep.paths path g1 ks1 hp
    have hgood := at_good' hd hm'
    obtain ⟨u1, _⟩ := (flatten_facts hk hst).2.2.2 path g1 ks1 hp _ hm1 hv1
    rw [u1, descend_prepend path (fun s hs => (hgood s hs).1)]
    simp [prependNamespace, fullName]
  · refine flatMap_nodup (S := fun v x => f x = v) (forall₂_imp_left ?_ hall) (q.wf.nodup.filter _) (fun a _ b _ x h1 h2 => h1.symm.trans h2)
    intro v hv b h1
    obtain ⟨v1, v2, _⟩ := (hmemV v).1 hv
    exact ⟨h1.nodup, fun x hx => ((hnode v b v1 v2 h1 x).1 hx).2⟩
  · intro x y hx hy
    obtain ⟨hx, _⟩ := (rows_iff hsecs).1 hx
    obtain ⟨hy, _⟩ := (rows_iff hsecs).1 hy
    rw [joined_iff hok hf hg q hx hy]
    constructor
    · intro he
      by_cases hxy : x = y
      · exact Or.inl hxy
      · refine Or.inr ?_
        obtain ⟨fx1, fx2⟩ := q.vars x hx
        have hxr := (P.class_of hdn hw ho hs fx1 ((hflatVar x).2 hx).1).2 rfl
        have hyr := (P.class_of hdn hw ho hs fx1 ((hflatVar y).2 hy).1).2 he.symm
        have hbel : ∃ t, Below (declaredTo H.info order st) (connectedTo rep.done) (f x) t := by
          rcases Relation.ReflTransGen.cases_head hxr with h | ⟨t, ht, _⟩
          · rcases Relation.ReflTransGen.cases_head hyr with h' | ⟨t, ht, _⟩
            · exact absurd (h.symm.trans h') hxy
            · exact ⟨t, ht⟩
          · exact ⟨t, ht⟩
        obtain ⟨b, hb', h1⟩ := forall₂_mem_left hall ((hmemV (f x)).2 ⟨fx1, fx2, hbel⟩)
        exact ⟨b, hb', (h1.nodes x).2 hxr, (h1.nodes y).2 hyr⟩
    · rintro (rfl | ⟨b, hb', h1, h2⟩)
      · rfl
      · obtain ⟨v, v1, v2, _, h3⟩ := hblock b hb'
        rw [((hnode v b v1 v2 h3 x).1 h1).2, ((hnode v b v1 v2 h3 y).1 h2).2]
  · intro b hb'
    obtain ⟨v, _, _, _, h1⟩ := hblock b hb'
    exact h1.nested
  · intro b hb'
    obtain ⟨v, v1, v2, _, h1⟩ := hblock b hb'
    obtain ⟨tl, htl⟩ := h1.head
    refine ⟨_, by rw [htl]; rfl, ?_⟩
    intro x hx
    constructor
    · intro hxg
      have := (P.final hdn hw ho hs hxg).2.2
      rw [((hnode v b v1 v2 h1 x).1 hx).2] at this
      exact this.symm
    · intro h
      rw [h]
      exact v1
  · intro b hb'
    obtain ⟨v, v1, v2, _, h1⟩ := hblock b hb'
    have hmem := hnode v b v1 v2 h1
    obtain ⟨u1, u2⟩ := (hmem v).1 ((h1.nodes v).2 .refl)
    rw [h1.warning]
    constructor
    · intro hrole line hl
      obtain ⟨⟨path, g1, ks1, hp, hm1, hv1⟩, e2⟩ := (hmem line.node).1 (List.mem_map.2 ⟨line, hl, rfl⟩)
      rw [(h1.lines line hl).1]
      obtain ⟨_, _, _, _, _, h3⟩ := q.closest v u1 (by rw [u2]; exact hrole)
      exact (h3 path g1 ks1 line.node hp hm1 hv1 (by rw [e2, u2])).1
    · intro h
      obtain ⟨tl, htl⟩ := h1.head
      exact h _ (by rw [htl]; exact List.mem_cons_self)

end

end Csdl
