import Verif.Proofs.Compile
import Verif.Props.BuildGraph
/-
The graph of one model object, and the hierarchy of the graphs of all model objects.
-/
namespace Csdl

theorem OAt.det {H : Objs} {m : OModel} {path m1} (h1 : OAt H m path m1) : ∀ {m2}, DotFree (m.toModel H) → OAt H m path m2 → m1 = m2 := by
  induction h1 with
  | here m => intro m2 _ h2; cases h2; rfl
  | @down m s path m' hs _ ih =>
    intro m2 hd h2
    generalize hp : (H s.id).name :: path = P at h2
    cases h2 with
    | here => cases hp
    | @down _ s' path' m'' hs' h2 =>
      injection hp with e1 e2
      subst e2
      have hnd : (m.osubs.toList.map fun x => (H x.id).name).Nodup := by
        rw [OModel.toModel_eq] at hd
        have := (hd [] _ _ (.here _)).2.2
        rw [OSubs.toSubs_toList] at this
        simpa [Function.comp_def] using this
      rw [OModel.subs_eq] at hs hs'
      have : s = s' := List.inj_on_of_nodup_map hnd hs hs' e1
      subst this
      refine ih ?_ h2
      intro p l subs hp
      refine hd ((H s.id).name :: p) l subs ?_
      rw [OModel.toModel_eq]
      refine At.down (s := ⟨(H s.id).name, s.promotes, s.model.toModel H⟩) ?_ hp
      rw [OSubs.toSubs_toList, List.mem_map]
      exact ⟨s, hs, rfl⟩

/-- the graph of one model object, in terms of the objects -/
structure GraphOf (H : Objs) (m : OModel) (g : Graph) : Prop where
  wf : g.WF
  nodes : ∀ a ∈ g.nodes, a ∈ m.subs.map OSub.id ∨ m.Uses H a
  subs : ∀ i ∈ m.subs.map OSub.id, i ∈ g.nodes
  byName : ∀ a ∈ g.nodes, ∀ b ∈ g.nodes, (H a).name = (H b).name → a = b
  uses : ∀ x, m.Uses H x → ∃ r ∈ g.nodes, (H r).name = (H x).name ∧ (H r).kind = (H x).kind ∧ ((H x).kind = .op → r = x)
  edge : ∀ u v, m.Needs H u → m.Needs H v → DependsOn H.heap v u → ∀ a ∈ g.nodes, ∀ b ∈ g.nodes, (H a).name = (H u).name → (H b).name = (H v).name → g.Edge a b
  edges : ∀ a b, g.Edge a b → ∃ u v, m.Needs H u ∧ m.Needs H v ∧ DependsOn H.heap v u ∧ (H a).name = (H u).name ∧ (H b).name = (H v).name ∧
    (H a).kind = (H u).kind ∧ (H b).kind = (H v).kind ∧ ((H u).kind = .op → a = u) ∧ ((H v).kind = .op → b = v)

theorem graphOf {H : Objs} {n fuel : Nat} {m : OModel} (hm : ModelOk H n m) (hn : (m.subs.map fun s => (H s.id).name).Nodup)
    (hf : (m.outputs ++ m.declared).length + n ≤ fuel) :
    ∃ st, buildGraph H.heap (m.subs.map OSub.id) m.inputs m.outputs m.declared fuel = .ok st ∧ GraphOf H m st.graph := by
  obtain ⟨st, hst, hi⟩ := buildGraph_inv hm.names hm.bounded hf
  have hk := hm.names
  obtain ⟨a1, a2, _, _, _, _, a7⟩ := addModels_spec (h := H.heap) (m.subs.map OSub.id) ({}, []) [] (by simp [Dict.get?]) (by simp [Dict.get?]) (by simp [Dict.get?]) rfl Graph.wf_empty
  have hin : ∀ k r, (Dict.ofPairs (m.inputs.map fun i => ((H.heap i).name, i))).get? k = some r → (H.heap r).name = k ∧ r ∈ m.inputs := by
    intro k r hr
    have hr' : Dict.get? (Dict.update [] (m.inputs.map fun i => ((H.heap i).name, i))) k = some r := hr
    rcases Dict.mem_update hr' with h1 | h1
    · obtain ⟨i, hi, he⟩ := List.mem_map.1 h1
      cases he
      exact ⟨rfl, hi⟩
    · simp [Dict.get?] at h1
  have hself : ∀ a ∈ st.graph.nodes, st.nodes.get? (H.heap a).name = some a := by
    intro a ha
    rcases (hi.nodes a).1 ha with h1 | ⟨b, h1 | h1⟩
    · exact hi.baseNodes a h1
    · obtain ⟨u, v, _, h2, _⟩ := (hi.edges _ _).1 h1
      rw [hi.names _ _ h2]; exact h2
    · obtain ⟨u, v, _, _, h2⟩ := (hi.edges _ _).1 h1
      rw [hi.names _ _ h2]; exact h2
  have hby : ∀ a ∈ st.graph.nodes, ∀ b ∈ st.graph.nodes, (H a).name = (H b).name → a = b := by
    intro a ha b hb hab
    have h1 := hself a ha
    have h2 := hself b hb
    have hab' : (H.heap a).name = (H.heap b).name := hab
    rw [hab', h2] at h1
    cases h1; rfl
  have hedges : ∀ a b, st.graph.Edge a b → ∃ u v, m.Needs H u ∧ m.Needs H v ∧ DependsOn H.heap v u ∧ (H a).name = (H u).name ∧ (H b).name = (H v).name ∧
    (H a).kind = (H u).kind ∧ (H b).kind = (H v).kind ∧ ((H u).kind = .op → a = u) ∧ ((H v).kind = .op → b = v) := by
    intro a b hab
    obtain ⟨u, v, hE, h1, h2⟩ := (hi.edges a b).1 hab
    obtain ⟨hu, hv, hd⟩ := linkOf_iff.1 hE
    obtain ⟨p1, p2, p3⟩ := hi.rep hk hu h1
    obtain ⟨q1, q2, q3⟩ := hi.rep hk hv h2
    exact ⟨u, v, hu, hv, hd, p1, q1, p2, q2, p3, q3⟩
  have hnode : ∀ u, m.Needs H u → (∃ w, m.Needs H w ∧ (DependsOn H.heap u w ∨ DependsOn H.heap w u)) →
      ∃ r ∈ st.graph.nodes, st.nodes.get? (H u).name = some r ∧ (H r).name = (H u).name ∧ (H r).kind = (H u).kind ∧ ((H u).kind = .op → r = u) := by
    rintro u hu ⟨w, hw, hd | hd⟩
    · have hE := (linkOf_iff (h := H.heap) (leaves := m.outputs ++ m.declared)).2 ⟨hw, hu, hd⟩
      obtain ⟨_, _, ⟨a, ha⟩, ⟨b, hb⟩⟩ := hi.present _ _ hE
      have he := (hi.edges a b).2 ⟨_, _, hE, ha, hb⟩
      exact ⟨b, hi.wf.right _ _ he, hb, hi.rep hk hu hb⟩
    · have hE := (linkOf_iff (h := H.heap) (leaves := m.outputs ++ m.declared)).2 ⟨hu, hw, hd⟩
      obtain ⟨_, _, ⟨a, ha⟩, ⟨b, hb⟩⟩ := hi.present _ _ hE
      have he := (hi.edges a b).2 ⟨_, _, hE, ha, hb⟩
      exact ⟨a, hi.wf.left _ _ he, ha, hi.rep hk hu ha⟩
  -- names of inputs are different
  have hinn : (m.inputs.map fun i => (H.heap i).name).Nodup := by
    refine List.Nodup.map_on ?_ (List.nodup_append.1 hm.sources).1
    intro x hx y hy e
    rcases hm.sourceNames x (by simp [OModel.vars, hx]) y (by simp [OModel.vars, hy]) e with h1 | ⟨h1, _⟩
    · exact h1
    · have r1 := hm.inputRole x hx
      rw [(hm.declaredRole x h1).2] at r1; cases r1
  have hinit : ∀ x ∈ m.inputs, x ∈ st.graph.nodes := by
    intro x hx
    refine (hi.nodes x).2 (Or.inl (Or.inr ?_))
    rw [Dict.ofPairs_eq (by simpa [Dict.keys, Function.comp_def] using hinn)]
    exact Dict.mem_get? (by simpa [Dict.keys, Function.comp_def] using hinn) (List.mem_map.2 ⟨x, hx, rfl⟩)
  refine ⟨st, hst, hi.wf, ?_, ?_, hby, ?_, ?_, hedges⟩
  · intro a ha
    rcases (hi.nodes a).1 ha with (h1 | h1) | ⟨b, h1⟩
    · rcases a2 _ _ h1 with h2 | h2
      · cases h2
      · exact Or.inl h2
    · exact Or.inr (Or.inl (hin _ _ h1).2)
    · right
      have hc := hi.content _ _ (hself a ha)
      have huv : ∃ u, m.Needs H u ∧ (H u).name = (H a).name ∧ (∃ w, m.Needs H w ∧ (DependsOn H.heap u w ∨ DependsOn H.heap w u)) ∧ (H a).kind = (H u).kind := by
        rcases h1 with h1 | h1
        · obtain ⟨u, v, hu, hv, hd, e1, e2, e3, _⟩ := hedges _ _ h1
          exact ⟨u, hu, e1.symm, ⟨v, hv, Or.inr hd⟩, e3⟩
        · obtain ⟨u, v, hu, hv, hd, e1, e2, e3, e4, _⟩ := hedges _ _ h1
          exact ⟨v, hv, e2.symm, ⟨u, hu, Or.inl hd⟩, e4⟩
      obtain ⟨u, hu, e1, hw, e2⟩ := huv
      rcases hc with hc | hc | hc
      · exact absurd e1.symm (hk.subNames a hc u (Or.inl hu))
      · exact Or.inl hc
      · exact Or.inr ⟨hc, u, ⟨hu, hw⟩, e1⟩
  · intro i hi'
    obtain ⟨r, hr⟩ := a7 i hi'
    have hrs : r ∈ m.subs.map OSub.id := by
      rcases a2 _ _ hr with h2 | h2
      · cases h2
      · exact h2
    have : i = r := by
      obtain ⟨s, hs, rfl⟩ := List.mem_map.1 hi'
      obtain ⟨s', hs', rfl⟩ := List.mem_map.1 hrs
      rw [List.inj_on_of_nodup_map hn hs hs' (a1 _ _ hr).symm]
    subst this
    exact (hi.nodes i).2 (Or.inl (Or.inl hr))
  · rintro x (hx | ⟨hx, y, ⟨hy, hw⟩, e⟩)
    · exact ⟨x, hinit x hx, rfl, rfl, fun _ => rfl⟩
    · obtain ⟨r, h1, h2, h3, h4, h5⟩ := hnode y hy hw
      obtain ⟨p1, p2, p3⟩ := hi.rep hk hx (by rw [show (H.heap x).name = (H y).name from e.symm]; exact h2)
      exact ⟨r, h1, p1, p2, p3⟩
  · intro u v hu hv hd a ha b hb e1 e2
    have hE := (linkOf_iff (h := H.heap) (leaves := m.outputs ++ m.declared)).2 ⟨hu, hv, hd⟩
    refine (hi.edges a b).2 ⟨u, v, hE, ?_, ?_⟩
    · rw [show (H.heap u).name = (H.heap a).name from e1.symm]; exact hself a ha
    · rw [show (H.heap v).name = (H.heap b).name from e2.symm]; exact hself b hb


theorem DotFree.subNames {H : Objs} {root : OModel} (hd : DotFree (root.toModel H)) {path m} (h : OAt H root path m) : (m.subs.map fun s => (H s.id).name).Nodup := by
  have hat := h.toAt
  rw [OModel.toModel_eq H m] at hat
  have := (hd path _ _ hat).2.2
  rw [OSubs.toSubs_toList] at this
  rw [OModel.subs_eq]
  simpa [Function.comp_def] using this

section
variable {H : Objs} {n fuel : Nat} {root : OModel} {g : Graph} {kids : Kids}

/-- enough steps for the construction of all graphs -/
def Enough (H : Objs) (n fuel : Nat) (root : OModel) : Prop := ∀ path m, OAt H root path m → (m.outputs ++ m.declared).length + n ≤ fuel

theorem graphOf_graphs (hok : ObjectsOk H n root) (hf : Enough H n fuel root) {path m g' ks'} (h : OAt H root path m) (hg : m.graphs H fuel = .ok (g', ks')) : GraphOf H m g' := by
  obtain ⟨st, h1, h2⟩ := graphOf (hok.models path m h) (hok.dotFree.subNames h) (hf path m h)
  obtain ⟨_, st', h3, rfl⟩ := graphs_ok hg
  rw [h1] at h3
  cases h3
  exact h2

theorem hier_graphOf (hok : ObjectsOk H n root) (hf : Enough H n fuel root) (hg : root.graphs H fuel = .ok (g, kids)) {path g' ks'} (hp : HierAt g kids path g' ks') :
    ∃ m, OAt H root path m ∧ GraphOf H m g' ∧ m.graphs H fuel = .ok (g', ks') := by
  obtain ⟨m, h1, h2⟩ := hierAt_oat hg hp
  exact ⟨m, h1, graphOf_graphs hok hf h1 h2, h2⟩

theorem oat_graphOf (hok : ObjectsOk H n root) (hf : Enough H n fuel root) (hg : root.graphs H fuel = .ok (g, kids)) {path m} (h : OAt H root path m) :
    ∃ g' ks', HierAt g kids path g' ks' ∧ GraphOf H m g' ∧ m.graphs H fuel = .ok (g', ks') := by
  obtain ⟨g', ks', h1, h2⟩ := oat_hierAt h hok.dotFree hg
  exact ⟨g', ks', h1, graphOf_graphs hok hf h h2, h2⟩

/-- two variables of a model with the same name -/
theorem sameVar (hok : ObjectsOk H n root) {path m} (h : OAt H root path m) {x y : Nat} (hx : x ∈ m.inputs ∨ m.Needs H x) (hy : y ∈ m.inputs ∨ m.Needs H y)
    (kx : (H x).kind = .var) (ky : (H y).kind = .var) (e : (H x).name = (H y).name) : x = y ∨ (x ∈ m.declared ∧ y ∈ m.declared) := by
  have hv : ∀ z, (z ∈ m.inputs ∨ m.Needs H z) → z ∉ m.vars → m.Needs H z := by
    rintro z (hz | hz) hn
    · exact absurd (by simp [OModel.vars, hz]) hn
    · exact hz
  by_cases hxv : x ∈ m.vars
  · by_cases hyv : y ∈ m.vars
    · exact (hok.models path m h).sourceNames x hxv y hyv e
    · exact Or.inl (((hok.auto path m h y (hv y hy hyv) ky hyv).2 path m h x (Or.inl hxv) e).resolve_right fun h' => h'.1 rfl)
  · refine Or.inl (((hok.auto path m h x (hv x hx hxv) kx hxv).2 path m h y ?_ e.symm).resolve_right fun h' => h'.1 rfl).symm
    rcases hy with hy | hy
    · exact Or.inl (by simp [OModel.vars, hy])
    · exact Or.inr ⟨hy, ky⟩

theorem uses_cases {m : OModel} {x : Nat} (h : m.Uses H x) : x ∈ m.inputs ∨ m.Needs H x := h.imp id And.left

theorem owns_of_node {m : OModel} {g' : Graph} (hgo : GraphOf H m g') {a : Nat} (ha : a ∈ g'.nodes) : m.Owns H a := by
  rcases hgo.nodes a ha with h | h | h
  · exact Or.inr (Or.inr h)
  · exact Or.inl h
  · exact Or.inr (Or.inl h.1)

theorem uses_of_var (hok : ObjectsOk H n root) {path m} (h : OAt H root path m) {g' : Graph} (hgo : GraphOf H m g') {a : Nat} (ha : a ∈ g'.nodes) (hk : (H a).kind ≠ .model) : m.Uses H a := by
  rcases hgo.nodes a ha with h1 | h1
  · obtain ⟨s, hs, rfl⟩ := List.mem_map.1 h1
    exact absurd ((hok.models path m h).subKinds s hs) hk
  · exact h1

theorem hierOk_objects (hok : ObjectsOk H n root) (hf : Enough H n fuel root) (hg : root.graphs H fuel = .ok (g, kids)) : HierOk g kids := by
  have hwf : ∀ path g' ks', HierAt g kids path g' ks' → g'.WF := by
    intro path g' ks' hp
    obtain ⟨m, _, h2, _⟩ := hier_graphOf hok hf hg hp
    exact h2.wf
  have hsep : ∀ path g' ks' path' g'' ks'', HierAt g kids path g' ks' → HierAt g kids path' g'' ks'' → ∀ x ∈ g'.nodes, x ∈ g''.nodes → path = path' := by
    intro path g' ks' path' g'' ks'' h h' x hx hx'
    obtain ⟨m, a1, a2, _⟩ := hier_graphOf hok hf hg h
    obtain ⟨m', b1, b2, _⟩ := hier_graphOf hok hf hg h'
    exact hok.separate path m path' m' a1 b1 x (owns_of_node a2 hx) (owns_of_node b2 hx')
  refine ⟨hwf, ?_, ?_⟩
  · rw [List.nodup_append]
    refine ⟨(hwf _ _ _ (Or.inl ⟨rfl, rfl, rfl⟩)).nodup, allNodes_nodup kids ?_ (kids_names kids (graphs_ok hg).1).1 ?_, ?_⟩
    · intro path g' ks' hp
      obtain ⟨m, _, _, h3⟩ := hier_graphOf hok hf hg (Or.inr hp)
      exact ⟨(hwf _ _ _ (Or.inr hp)).nodup, (kids_names ks' (graphs_ok h3).1).1⟩
    · intro path g' ks' path' g'' ks'' h h'
      exact hsep _ _ _ _ _ _ (Or.inr h) (Or.inr h')
    · intro a ha b hb hab
      subst hab
      obtain ⟨n', path, g', ks', h1, h2, _⟩ := mem_allNodes hb
      have := hsep _ _ _ _ _ _ (Or.inl ⟨rfl, rfl, rfl⟩) (Or.inr h1) a ha h2
      cases this
  · intro path g' ks' hp i hi
    obtain ⟨m, _, h2, h3⟩ := hier_graphOf hok hf hg hp
    refine h2.subs i ?_
    rw [OModel.subs_eq]
    exact kids_ids ks' (graphs_ok h3).1 i hi

/-- links are between variables and operations; results are outputs -/
theorem link_kinds {m : OModel} (hm : ModelOk H n m) {u v : Nat} (hu : m.Needs H u) (hv : m.Needs H v) (hd : DependsOn H.heap v u) :
    ((H u).kind = .var ∧ (H v).kind = .op ∧ u ∈ (H v).deps) ∨ ((H u).kind = .op ∧ (H v).kind = .var ∧ v ∈ (H u).outs ∧ (H v).role = .output) := by
  rcases hd with hd | ⟨hop, hd⟩
  · have hd' : u ∈ (H v).deps := hd
    cases hk : (H v).kind with
    | model => exact absurd hk (hm.names.kinds v hv)
    | op => exact Or.inl ⟨(hm.opDeps v hv hk).1 u hd', rfl, hd'⟩
    | var =>
      obtain ⟨h1, h2⟩ := hm.varDeps v hv hk u hd'
      exact Or.inr ⟨h1, rfl, h2, ((hm.opDeps u hu h1).2 v h2).2⟩
  · have hop' : (H u).kind = .op := hop
    have hd' : v ∈ (H u).outs := hd
    exact Or.inr ⟨hop', ((hm.opDeps u hu hop').2 v hd').1, hd', ((hm.opDeps u hu hop').2 v hd').2⟩

theorem output_not_declared {m : OModel} (hm : ModelOk H n m) {v : Nat} (h : (H v).role = .output) : v ∉ m.declared := fun hc => by
  rw [(hm.declaredRole v hc).2] at h; cases h

/-- an edge from an operation -/
theorem edge_from_op (hok : ObjectsOk H n root) {path m} (h : OAt H root path m) {g' : Graph} (hgo : GraphOf H m g') {a b : Nat} (he : g'.Edge a b) (hop : (H a).kind = .op) :
    m.Needs H a ∧ b ∈ (H a).outs ∧ (H b).kind = .var ∧ (H b).role = .output ∧ m.Needs H b := by
  have hm := hok.models path m h
  obtain ⟨u, v, hu, hv, hd, e1, e2, e3, e4, e5, e6⟩ := hgo.edges a b he
  have := e5 (by rw [← e3]; exact hop)
  subst this
  rcases link_kinds hm hu hv hd with ⟨k1, _⟩ | ⟨_, k2, k3, k4⟩
  · rw [hop] at k1; cases k1
  · have hb := hgo.wf.right _ _ he
    have hbu := uses_cases (uses_of_var hok h hgo hb (by rw [e4, k2]; simp))
    have : b = v := by
      rcases sameVar hok h hbu (Or.inr hv) (by rw [e4, k2]) k2 e2 with h1 | h1
      · exact h1
      · exact absurd h1.2 (output_not_declared hm k4)
    subst this
    exact ⟨hu, k3, k2, k4, hv⟩

theorem bipartite_objects (hok : ObjectsOk H n root) (hf : Enough H n fuel root) (hg : root.graphs H fuel = .ok (g, kids)) : AllBipartite H.info g kids := by
  intro path g' ks' hp a b he
  obtain ⟨m, h1, h2, _⟩ := hier_graphOf hok hf hg hp
  obtain ⟨u, v, hu, hv, hd, e1, e2, e3, e4, e5, e6⟩ := h2.edges a b he
  show ((H a).kind = .var ∧ (H b).kind = .op) ∨ ((H a).kind = .op ∧ (H b).kind = .var)
  rw [e3, e4]
  rcases link_kinds (hok.models path m h1) hu hv hd with ⟨k1, k2, _⟩ | ⟨k1, k2, _⟩
  · exact Or.inl ⟨k1, k2⟩
  · exact Or.inr ⟨k1, k2⟩

theorem nodesOk_objects (hok : ObjectsOk H n root) (hf : Enough H n fuel root) (hg : root.graphs H fuel = .ok (g, kids)) : NodesOk H.info g kids := by
  constructor
  · intro path g' ks' hp i hi
    obtain ⟨m, h1, h2, h3⟩ := hier_graphOf hok hf hg hp
    obtain ⟨s, hs, rfl⟩ := List.mem_map.1 (kids_ids ks' (graphs_ok h3).1 i hi)
    exact (hok.models path m h1).subKinds s (by rw [OModel.subs_eq]; exact hs)
  · intro path g' ks' hp a b he hop
    obtain ⟨m, h1, h2, h3⟩ := hier_graphOf hok hf hg hp
    exact (edge_from_op hok h1 h2 he hop).2.2.2.1

/-- the variables a model object defines, as the promotion code sees them -/
theorem vars_loc {m : OModel} (hm : ModelOk H n m) {c : Nat} (hc : c ∈ m.vars) :
    ∃ k, H.varInfo c ∈ (m.loc H).vars k ∧ (k = .source ↔ (H c).role ≠ .declared) := by
  have hl : m.loc H = ⟨m.inputs.map H.varInfo, m.outputs.map H.varInfo, m.declared.map H.varInfo, (m.loc H).connections, (m.loc H).designVars, (m.loc H).constraints, (m.loc H).objective⟩ := by
    cases m; rfl
  simp only [OModel.vars, List.mem_append] at hc
  rcases hc with (hc | hc) | hc
  · refine ⟨.source, ?_, by simp [hm.inputRole c hc]⟩
    rw [hl]; simp only [Local.vars, Local.sources, List.mem_append, List.mem_map]; exact Or.inl ⟨c, hc, rfl⟩
  · refine ⟨.source, ?_, by simp [(hm.outputRole c hc).2]⟩
    rw [hl]; simp only [Local.vars, Local.sources, List.mem_append, List.mem_map]; exact Or.inr ⟨c, hc, rfl⟩
  · refine ⟨.target, ?_, by simp [(hm.declaredRole c hc).2]⟩
    rw [hl]; simp only [Local.vars, List.mem_map]; exact ⟨c, hc, rfl⟩

theorem loc_vars {m : OModel} {k : VarKind} {w : VarInfo} (h : w ∈ (m.loc H).vars k) : ∃ c ∈ m.vars, w = H.varInfo c := by
  have hl : m.loc H = ⟨m.inputs.map H.varInfo, m.outputs.map H.varInfo, m.declared.map H.varInfo, (m.loc H).connections, (m.loc H).designVars, (m.loc H).constraints, (m.loc H).objective⟩ := by
    cases m; rfl
  rw [hl] at h
  cases k with
  | source =>
    simp only [Local.vars, Local.sources, List.mem_append, List.mem_map] at h
    rcases h with ⟨c, hc, rfl⟩ | ⟨c, hc, rfl⟩
    · exact ⟨c, by simp [OModel.vars, hc], rfl⟩
    · exact ⟨c, by simp [OModel.vars, hc], rfl⟩
  | target =>
    simp only [Local.vars, List.mem_map] at h
    obtain ⟨c, hc, rfl⟩ := h
    exact ⟨c, by simp [OModel.vars, hc], rfl⟩

/-- a promoted variable is a variable of a model object -/
theorem promoted_obj {path k w p} (h : PromotedAs (root.toModel H) path k w p) : ∃ m, OAt H root path m ∧ ∃ c ∈ m.vars, w = H.varInfo c := by
  generalize hM : root.toModel H = M at h
  induction h generalizing root with
  | @here l subs k v hv =>
    rw [OModel.toModel_eq] at hM
    cases hM
    exact ⟨root, .here _, loc_vars hv⟩
  | @up l subs path k v p s hs _ _ ih =>
    rw [OModel.toModel_eq] at hM
    cases hM
    rw [OSubs.toSubs_toList, List.mem_map] at hs
    obtain ⟨x, hx, rfl⟩ := hs
    obtain ⟨m, h1, h2⟩ := ih rfl
    exact ⟨m, .down (by rw [OModel.subs_eq]; exact hx) h1, h2⟩
  | @stay l subs path k v p s hs _ _ ih =>
    rw [OModel.toModel_eq] at hM
    cases hM
    rw [OSubs.toSubs_toList, List.mem_map] at hs
    obtain ⟨x, hx, rfl⟩ := hs
    obtain ⟨m, h1, h2⟩ := ih rfl
    exact ⟨m, .down (by rw [OModel.subs_eq]; exact hx) h1, h2⟩

theorem promoted_var (hok : ObjectsOk H n root) {path m} (h : OAt H root path m) {c : Nat} (hc : c ∈ m.vars) :
    ∃ k p, PromotedAs (root.toModel H) path k (H.varInfo c) p ∧ (k = .source ↔ (H c).role ≠ .declared) := by
  obtain ⟨k, h1, h2⟩ := vars_loc (hok.models path m h) hc
  have hat := h.toAt
  rw [OModel.toModel_eq H m] at hat
  obtain ⟨p, hp⟩ := promoted_total hat h1
  exact ⟨k, p, hp, h2⟩

theorem vars_of_named {m : OModel} (hm : ModelOk H n m) {v : Nat} (hu : m.Uses H v) (hk : (H v).kind = .var) (hn : (H v).name ≠ (H v).auto) : v ∈ m.vars := by
  rcases uses_cases hu with h | h
  · simp [OModel.vars, h]
  · by_contra hc
    exact hn (hm.autoNamed v h hk hc)

theorem auto_needs {m : OModel} (hm : ModelOk H n m) {v : Nat} (hu : m.Uses H v) (hn : (H v).name = (H v).auto) : m.Needs H v ∧ v ∉ m.vars := by
  have hv : v ∉ m.vars := fun hc => hm.userNamed v hc hn
  rcases uses_cases hu with h | h
  · exact absurd (by simp [OModel.vars, h]) hv
  · exact ⟨h, hv⟩

theorem represents_objects (hok : ObjectsOk H n root) (hf : Enough H n fuel root) (hg : root.graphs H fuel = .ok (g, kids)) : Represents (root.toModel H) H.info g kids := by
  refine ⟨?_, ?_, ?_, ?_, ?_⟩
  · intro path g' ks' hp
    obtain ⟨m, h1, _⟩ := hierAt_oat hg hp
    exact ⟨_, h1.toAt⟩
  · intro path g' ks' hp v hv hk hn
    obtain ⟨m, h1, h2, _⟩ := hier_graphOf hok hf hg hp
    have hk' : (H v).kind = .var := hk
    have hvv := vars_of_named (hok.models path m h1) (uses_of_var hok h1 h2 hv (by rw [hk']; simp)) hk' hn
    obtain ⟨k, p, hp', hr⟩ := promoted_var hok h1 hvv
    exact ⟨k, _, p, hp', rfl, hr⟩
  · intro path g1 k1 g2 k2 h1 h2 v hv v' hv' hk hk' hr hr' hn
    obtain ⟨m, a1, a2, a3⟩ := hier_graphOf hok hf hg h1
    obtain ⟨m', b1, b2, b3⟩ := hier_graphOf hok hf hg h2
    have := a1.det hok.dotFree b1
    subst this
    rw [a3] at b3
    cases b3
    exact a2.byName v hv v' hv' hn
  · intro path g' ks' hp v hv hk hn
    obtain ⟨m, h1, h2, _⟩ := hier_graphOf hok hf hg hp
    have hk' : (H v).kind = .var := hk
    obtain ⟨a1, a2⟩ := auto_needs (hok.models path m h1) (uses_of_var hok h1 h2 hv (by rw [hk']; simp)) hn
    obtain ⟨b1, b2⟩ := hok.auto path m h1 v a1 hk' a2
    refine ⟨b1, ?_⟩
    intro path' k w p hw e
    obtain ⟨m', h1', c, hc, rfl⟩ := promoted_obj hw
    have := (b2 path' m' h1' c (Or.inl hc) e).resolve_right fun h' => h'.2.1 hc
    subst this
    exact (hok.models path' m' h1').userNamed c hc hn
  · intro path g1 k1 path' g2 k2 h1 h2 v hv v' hv' hk hk' hn hn' e
    obtain ⟨m, a1, a2, a3⟩ := hier_graphOf hok hf hg h1
    obtain ⟨m', b1, b2, b3⟩ := hier_graphOf hok hf hg h2
    have hkv : (H v).kind = .var := hk
    have hkv' : (H v').kind = .var := hk'
    obtain ⟨c1, c2⟩ := auto_needs (hok.models path m a1) (uses_of_var hok a1 a2 hv (by rw [hkv]; simp)) hn
    obtain ⟨d1, d2⟩ := auto_needs (hok.models path' m' b1) (uses_of_var hok b1 b2 hv' (by rw [hkv']; simp)) hn'
    rcases (hok.auto path m a1 v c1 hkv c2).2 path' m' b1 v' (Or.inr ⟨d1, hkv'⟩) e.symm with h' | h'
    · exact Or.inl h'.symm
    · exact Or.inr ⟨fun h0 => h'.1 h0.symm, h'.2.2⟩

theorem distinctSources_objects (hok : ObjectsOk H n root) : DistinctSources (root.toModel H) := by
  intro path l subs hat
  obtain ⟨m, h1, h2⟩ := OAt.ofAt hat
  rw [OModel.toModel_eq] at h2
  cases h2
  have hm := hok.models path m h1
  have hl : (m.loc H).sources = (m.inputs ++ m.outputs).map H.varInfo := by cases m; simp [OModel.loc, Local.sources, OModel.inputs, OModel.outputs]
  rw [hl, List.map_map]
  refine List.Nodup.map_on ?_ hm.sources
  intro x hx y hy e
  have hin : ∀ z ∈ m.inputs ++ m.outputs, z ∈ m.vars ∧ (H z).role ≠ .declared := by
    intro z hz
    rcases List.mem_append.1 hz with h | h
    · exact ⟨by simp [OModel.vars, h], by rw [hm.inputRole z h]; simp⟩
    · exact ⟨by simp [OModel.vars, h], by rw [(hm.outputRole z h).2]; simp⟩
  rcases hm.sourceNames x (hin x hx).1 y (hin y hy).1 e with h | ⟨h, _⟩
  · exact h
  · exact absurd (hm.declaredRole x h).2 (hin x hx).2

end

end Csdl
