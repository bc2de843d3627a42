import Verif.Proofs.Compile2
import Verif.Proofs.Declared
/-!
# C70: from model objects to values
-/
namespace Csdl

theorem raises_ok {ε α : Type} {f : ε → BuildErr} {x : Except ε α} {a : α} (h : raises f x = .ok a) : x = .ok a := by
  cases x with
  | error e => cases h
  | ok b => cases h; rfl

theorem compile_ok {H : Objs} {fuel : Nat} {order : List Nat → List Nat} {root : OModel} {rep : Rep} (h : compile H fuel order root = .ok rep) :
    ∃ r g kids, resolve (root.toModel H) none = .ok r ∧ root.graphs H fuel = .ok (g, kids) ∧
      constructFlat H.info order r.p2u (createReverseMap r.p2u) g kids (collectConnections (root.toModel H) []) = .ok (rep.maps, rep.graph, rep.done) ∧
      flatSort rep.graph = .ok rep.sorted ∧ rep.p2u = r.p2u := by
  unfold compile at h
  obtain ⟨r, h1, h⟩ := exceptBind h
  obtain ⟨cs, h2, h⟩ := exceptBind h
  obtain ⟨dv, h3, h⟩ := exceptBind h
  obtain ⟨ob, h4, h⟩ := exceptBind h
  obtain ⟨cn, h5, h⟩ := exceptBind h
  obtain ⟨gk, h6, h⟩ := exceptBind h
  obtain ⟨f, h7, h⟩ := exceptBind h
  obtain ⟨l, h8, h⟩ := exceptBind h
  cases h
  exact ⟨r, gk.1, gk.2, raises_ok h1, raises_ok h6, raises_ok h7, raises_ok h8, rfl⟩

/-- execution depends on the arguments of the nodes of the list only -/
theorem execAll_congr {V : Type} {g : Graph} {A B : Interp V} (l : List Nat) (h1 : A.isOp = B.isOp) (h2 : A.fn = B.fn) (h3 : ∀ n ∈ l, A.isOp n = true → A.args n = B.args n) :
    ∀ σ, execAll g A σ l = execAll g B σ l := by
  induction l with
  | nil => intro σ; rfl
  | cons a l ih =>
    intro σ
    have he : execNode g A σ a = execNode g B σ a := by
      funext v
      unfold execNode
      rw [← h1, ← h2]
      by_cases ho : A.isOp a = true
      · rw [h3 a (by simp) ho]
      · simp [ho]
    unfold execAll at ih ⊢
    rw [List.foldl_cons, List.foldl_cons, he]
    exact ih (fun n hn => h3 n (List.mem_cons_of_mem _ hn)) _

theorem foldl_contract_wf (L : List (Nat × Nat)) : ∀ {G : Graph}, G.WF → (L.foldl (fun g e => g.contract e.1 e.2) G).WF := by
  induction L with
  | nil => intro G h; exact h
  | cons e L ih => intro G h; exact ih (Graph.wf_contract h _ _)

theorem constructFlat_wf {I : NHeap} {order : List Nat → List Nat} (ho : ∀ l x, x ∈ order l ↔ x ∈ l) {p2u : Dict Name (List Name)} {u2p : Dict Name Name}
    {g : Graph} {kids : Kids} (hk : HierOk g kids) (hb : AllBipartite I g kids) {cs : List (Name × Name × Name)} {d : NodeMaps} {g' : Graph} {done : Dict Nat Nat}
    (h : constructFlat I order p2u u2p g kids cs = .ok (d, g', done)) : g'.WF := by
  unfold constructFlat at h
  cases hf : flatten I p2u u2p g kids with
  | error e => rw [hf] at h; cases h
  | ok st =>
    rw [hf] at h; dsimp only at h
    obtain ⟨mb, mw⟩ := mergeAuto_bipartite ho (flatten_facts hk hf).1 (flat_bipartite hk hb hf)
    unfold mergeConnections at h
    generalize mergeAuto I order st = G at h mb mw
    cases h1 : indexNodes I st p2u u2p G G.nodes {} with
    | error e => rw [h1] at h; cases h
    | ok d1 =>
      rw [h1] at h; dsimp only at h
      cases h2 : mergeConnectionList I d1 cs (G, []) with
      | error e => rw [h2] at h; cases h
      | ok acc =>
        rw [h2] at h; cases h
        obtain ⟨hd, _⟩ := indexNodes_ok G.nodes (fun _ h => h) ⟨by simp [Dict.get?], by simp [Dict.get?]⟩ h1
        obtain ⟨L, _, b2, _⟩ := mergeConnectionList_ok hd cs h2
        rw [b2]
        exact foldl_contract_wf L mw

section
variable {H : Objs} {n fuel : Nat} {root : OModel} {g : Graph} {kids : Kids}

/-- the graph node `r` stands for the variable or operation `x` -/
def StandsFor (H : Objs) (root : OModel) (g : Graph) (kids : Kids) (x r : Nat) : Prop :=
  ∃ path m g' ks', OAt H root path m ∧ HierAt g kids path g' ks' ∧ GraphOf H m g' ∧ m.Uses H x ∧ r ∈ g'.nodes ∧ (H r).name = (H x).name

theorem exists_standsFor (hok : ObjectsOk H n root) (hf : Enough H n fuel root) (hg : root.graphs H fuel = .ok (g, kids)) :
    ∃ ρ : Nat → Nat, ∀ path m, OAt H root path m → ∀ x, m.Uses H x → StandsFor H root g kids x (ρ x) := by
  have : ∀ x, ∃ r, (∃ path m, OAt H root path m ∧ m.Uses H x) → StandsFor H root g kids x r := by
    intro x
    by_cases h : ∃ path m, OAt H root path m ∧ m.Uses H x
    · obtain ⟨path, m, h1, h2⟩ := h
      obtain ⟨g', ks', h3, h4, _⟩ := oat_graphOf hok hf hg h1
      obtain ⟨r, h5, h6, _⟩ := h4.uses x h2
      exact ⟨r, fun _ => ⟨path, m, g', ks', h1, h3, h4, h2, h5, h6⟩⟩
    · exact ⟨0, fun hc => absurd hc h⟩
  choose ρ hρ using this
  exact ⟨ρ, fun path m h x hx => hρ x ⟨path, m, h, hx⟩⟩

/-- what stands for a used object of a given model -/
theorem StandsFor.at (hok : ObjectsOk H n root) (hf : Enough H n fuel root) {x r : Nat} (hs : StandsFor H root g kids x r) {path m g' ks'} (h : OAt H root path m)
    (hgs : m.graphs H fuel = .ok (g', ks')) (hg : root.graphs H fuel = .ok (g, kids)) (hx : m.Uses H x) :
    r ∈ g'.nodes ∧ (H r).name = (H x).name ∧ (H r).kind = (H x).kind ∧ (x ∉ m.declared → r = x) ∧ (x ∈ m.declared → r ∈ m.declared) := by
  obtain ⟨path', m', g'', ks'', a1, a2, a3, a4, a5, a6⟩ := hs
  have howns : ∀ m : OModel, m.Uses H x → m.Owns H x := fun m hu => (uses_cases hu).elim Or.inl fun h => Or.inr (Or.inl h)
  have := hok.separate path' m' path m a1 h x (howns _ a4) (howns _ hx)
  subst this
  have := a1.det hok.dotFree h
  subst this
  have hgg : g'' = g' := by
    obtain ⟨m2, b1, b2, b3⟩ := hier_graphOf hok hf hg a2
    have := b1.det hok.dotFree h
    subst this
    rw [hgs] at b3; cases b3; rfl
  subst hgg
  obtain ⟨r', c1, c2, c3, c4⟩ := a3.uses x a4
  have := a3.byName r a5 r' c1 (by rw [a6, c2])
  subst this
  refine ⟨a5, a6, c3, ?_, ?_⟩
  · intro hnd
    cases hk : (H x).kind with
    | op => exact c4 hk
    | model =>
      rcases uses_cases hx with h1 | h1
      · have := (hok.models _ _ h).names.inputVars x h1
        rw [show (H.heap x).kind = (H x).kind from rfl, hk] at this; cases this
      · exact absurd hk ((hok.models _ _ h).names.kinds x h1)
    | var =>
      have hr := uses_cases (uses_of_var hok h a3 a5 (by rw [c3, hk]; simp))
      rcases sameVar hok h hr (uses_cases hx) (by rw [c3, hk]) hk a6 with h1 | h1
      · exact h1
      · exact absurd h1.2 hnd
  · intro hdx
    have hk := ((hok.models _ _ h).declaredRole x hdx).1
    have hr := uses_cases (uses_of_var hok h a3 a5 (by rw [c3, hk]; simp))
    rcases sameVar hok h hr (uses_cases hx) (by rw [c3, hk]) hk a6 with h1 | h1
    · rw [h1]; exact hdx
    · exact h1.1

/-- arguments of operations are variables in use -/
theorem op_args (hok : ObjectsOk H n root) : ∀ path m, OAt H root path m → ∀ i, m.Needs H i → (H i).kind = .op → ∀ u ∈ (H i).deps, m.Uses H u ∧ (H u).kind = .var ∧ m.Needs H u := by
  intro path m h i hi hop u hu
  have hnu : m.Needs H u := .dep _ _ hi hu
  exact ⟨Or.inr ⟨hnu, u, ⟨hnu, i, hi, Or.inr (Or.inl hu)⟩, rfl⟩, ((hok.models path m h).opDeps i hi hop).1 u hu, hnu⟩

theorem named_node (hok : ObjectsOk H n root) (hf : Enough H n fuel root) (hg : root.graphs H fuel = .ok (g, kids)) {ρ : Nat → Nat} (hρ : ∀ path m, OAt H root path m → ∀ x, m.Uses H x → StandsFor H root g kids x (ρ x)) : ∀ x p, NamedVar H root x p → HasPromotedName (root.toModel H) H.info g kids (ρ x) p := by
  rintro x p ⟨path, m, k, w, h1, h2, h3, h4, h5⟩
  obtain ⟨g', ks', b1, b2, b3⟩ := oat_graphOf hok hf hg h1
  obtain ⟨a1, a2, a3, _⟩ := (hρ path m h1 x h3).at hok hf h1 b3 hg h3
  have hm := hok.models path m h1
  have hkx : (H x).kind = .var := by
    simp only [OModel.vars, List.mem_append] at h2
    rcases h2 with (h2 | h2) | h2
    · exact hm.names.inputVars x h2
    · exact (hm.outputRole x h2).1
    · exact (hm.declaredRole x h2).1
  exact ⟨path, g', ks', k, w, b1, a1, by show (H (ρ x)).kind = .var; rw [a3, hkx], h4, by rw [h5]; exact a2.symm⟩

theorem node_named (hok : ObjectsOk H n root) (hf : Enough H n fuel root) (hg : root.graphs H fuel = .ok (g, kids)) : ∀ x p, HasPromotedName (root.toModel H) H.info g kids x p → NamedVar H root x p := by
  rintro x p ⟨path, g', ks', k, w, h1, h2, h3, h4, h5⟩
  obtain ⟨m, b1, b2, b3⟩ := hier_graphOf hok hf hg h1
  have hkx : (H x).kind = .var := h3
  have hux := uses_of_var hok b1 b2 h2 (by rw [hkx]; simp)
  refine ⟨path, m, k, w, b1, ?_, hux, h4, h5⟩
  obtain ⟨m', c1, c, hc, rfl⟩ := promoted_obj h4
  by_contra hxv
  have hneed : m.Needs H x := by
    rcases uses_cases hux with h | h
    · exact absurd (by simp [OModel.vars, h]) hxv
    · exact h
  have := ((hok.auto path m b1 x hneed hkx hxv).2 path m' c1 c (Or.inl hc) h5).resolve_right fun h' => h'.2.1 hc
  subst this
  have := c1.det hok.dotFree b1
  subst this
  exact hxv hc

/-- an operation and its results are in the graph of its model -/
theorem op_results (hok : ObjectsOk H n root) (hf : Enough H n fuel root) (hg : root.graphs H fuel = .ok (g, kids)) {ρ : Nat → Nat} (hρ : ∀ path m, OAt H root path m → ∀ x, m.Uses H x → StandsFor H root g kids x (ρ x)) : ∀ path m, OAt H root path m → ∀ i, m.Needs H i → (H i).kind = .op → ∀ v ∈ (H i).outs, m.Uses H v ∧ ρ v = v ∧ ρ i = i ∧
    ∃ g' ks', HierAt g kids path g' ks' ∧ g'.Edge i v := by
  intro path m h i hi hop v hv
  have hm := hok.models path m h
  have hnv : m.Needs H v := .out _ _ hi hop hv
  have huv : m.Uses H v := Or.inr ⟨hnv, v, ⟨hnv, i, hi, Or.inl (Or.inr ⟨hop, hv⟩)⟩, rfl⟩
  have hui : m.Uses H i := Or.inr ⟨hi, i, ⟨hi, v, hnv, Or.inr (Or.inr ⟨hop, hv⟩)⟩, rfl⟩
  obtain ⟨g', ks', b1, b2, b3⟩ := oat_graphOf hok hf hg h
  obtain ⟨a1, a2, a3, a4, _⟩ := (hρ path m h v huv).at hok hf h b3 hg huv
  obtain ⟨c1, c2, c3, c4, _⟩ := (hρ path m h i hui).at hok hf h b3 hg hui
  have e1 := a4 (output_not_declared hm ((hm.opDeps i hi hop).2 v hv).2)
  have e2 := c4 (fun hd => by rw [(hm.declaredRole i hd).1] at hop; cases hop)
  rw [e1] at a1; rw [e2] at c1
  exact ⟨huv, e1, e2, g', ks', b1, b2.edge i v hi hnv (Or.inr ⟨hop, hv⟩) i c1 v a1 rfl rfl⟩

end

/-- Which of the variables that are represented by one node is that node. -/
structure Kept (H : Objs) (root : OModel) (d : NodeMaps) (done : Dict Nat Nat) (f : Nat → Nat) : Prop where
  used : ∀ path m, OAt H root path m → ∀ x, (H x).kind = .var → m.Uses H x → ∃ path' m', OAt H root path' m' ∧ (H (f x)).kind = .var ∧ m'.Uses H (f x) ∧ Relation.EqvGen (Joined H root) x (f x)
  sources : ∀ x p, NamedVar H root x p → (H x).role ≠ .declared → ¬ TargetName (root.toModel H) p → f x = x
  noTarget : ∀ path m, OAt H root path m → ∀ x, (H x).kind = .var → m.Uses H x → ∀ p, NamedVar H root (f x) p → ¬ TargetName (root.toModel H) p
  closest : ∀ path m, OAt H root path m → ∀ x, (H x).kind = .var → m.Uses H x → (H (f x)).role = .declared → ∃ path' m', OAt H root path' m' ∧ m'.Uses H (f x) ∧ (f x ∈ m'.declared → LastOf (fun i => (H i).name) m'.declared (f x)) ∧
    ∀ path2 m2 t, OAt H root path2 m2 → (H t).kind = .var → m2.Uses H t → f t = f x → (H t).role = .declared ∧ max path'.length 1 ≤ max path2.length 1 ∧
      (max path2.length 1 = max path'.length 1 → LastOf (fun i => (H i).name) m2.declared t → (H t).explicit = true → (H (f x)).explicit = true) ∧ (path2 = [] → path' = [] ∨ (H (f x)).explicit = true)
  /-- the maps from names to nodes -/
  found : ∀ x p, NamedVar H root x p → ∃ t, d.p2n.get? p = some t ∧ Leads done t (f x) ∧ ∀ path k w, PromotedAs (root.toModel H) path k w p → d.u2n.get? (fullName path w.name) = some t
  foundP : ∀ n t, d.p2n.get? n = some t → NamedVar H root t n
  foundU : ∀ n t, d.u2n.get? n = some t → ∃ path k w p, PromotedAs (root.toModel H) path k w p ∧ n = fullName path w.name ∧ NamedVar H root t p

section
variable {H : Objs} {n fuel : Nat} {root : OModel} {g : Graph} {kids : Kids}

/-- declared variables that are nodes are the last ones of their names -/
theorem declared_node_last (hok : ObjectsOk H n root) {path m} (h : OAt H root path m) {g' ks'} (hgs : m.graphs H fuel = .ok (g', ks')) {c : Nat} (hc : c ∈ m.declared) (hn : c ∈ g'.nodes) :
    LastOf (fun i => (H i).name) m.declared c := by
  obtain ⟨_, st, h1, rfl⟩ := graphs_ok hgs
  have hm := hok.models path m h
  refine buildGraph_last hm.names ?_ ?_ h1 hc hn
  · intro c hc
    obtain ⟨k1, k2⟩ := hm.declaredRole c hc
    refine ⟨k1, ?_⟩
    have hneed : m.Needs H c := .leaf c (by simp [hc])
    cases hd : (H c).deps with
    | nil => exact hd
    | cons u us =>
      exfalso
      obtain ⟨h2, h3⟩ := hm.varDeps c hneed k1 u (by simp [hd])
      have := (hm.opDeps u (.dep c u hneed (by show u ∈ (H c).deps; simp [hd])) h2).2 c h3
      rw [k2] at this; cases this.2
  · intro c hc i hi e
    rcases hm.sourceNames i (by simp [OModel.vars, hi]) c (by simp [OModel.vars, hc]) e with h2 | ⟨h2, _⟩
    · subst h2
      have := hm.inputRole i hi
      rw [(hm.declaredRole i hc).2] at this; cases this
    · have := hm.inputRole i hi
      rw [(hm.declaredRole i h2).2] at this; cases this

theorem kept_objects (hok : ObjectsOk H n root) (hf : Enough H n fuel root) (hg : root.graphs H fuel = .ok (g, kids)) {d : NodeMaps} {g' : Graph} {done : Dict Nat Nat} {f : Nat → Nat}
    (q : FlatQuotient (root.toModel H) H.info g kids d g' done f) {ρ : Nat → Nat} (hρ : ∀ path m, OAt H root path m → ∀ x, m.Uses H x → StandsFor H root g kids x (ρ x))
    (hvar : ∀ path m, OAt H root path m → ∀ x, (H x).kind = .var → m.Uses H x → IsVarOf H.info g kids (ρ x))
    (hjoin : ∀ path m, OAt H root path m → ∀ x, m.Uses H x → Relation.EqvGen (Joined H root) x (ρ x))
    (hid : ∀ a b, Identified (root.toModel H) H.info g kids a b → Joined H root a b) : Kept H root d done fun x => f (ρ x) := by
  have hin : ∀ x, IsVarOf H.info g kids x → ∃ path m g1 ks1, OAt H root path m ∧ HierAt g kids path g1 ks1 ∧ m.graphs H fuel = .ok (g1, ks1) ∧ f x ∈ g1.nodes ∧ (H (f x)).kind = .var ∧ m.Uses H (f x) := by
    intro x hx
    obtain ⟨h1, h2⟩ := q.vars x hx
    obtain ⟨path, g1, ks1, h3, h4⟩ := q.nodes _ h1
    obtain ⟨m, b1, b2, b3⟩ := hier_graphOf hok hf hg h3
    exact ⟨path, m, g1, ks1, b1, h3, b3, h4, h2, uses_of_var hok b1 b2 h4 (by rw [show (H (f x)).kind = .var from h2]; simp)⟩
  have hl : ∀ x, IsVarOf H.info g kids x → Relation.EqvGen (Identified (root.toModel H) H.info g kids) (f x) x := by
    intro x hx
    refine Quot.eqvGen_exact (q.least (Quot (Identified (root.toModel H) H.info g kids)) (Quot.mk _) ?_ ?_ x hx)
    · intro x y p h1 h2
      exact Quot.sound (.name p h1 h2)
    · intro path l subs a b p p' hat hab hp hp' x y h1 h2
      exact Quot.sound (.connection path l subs a b p p' hat hab hp hp' h1 h2)
  have hnamed := named_node hok hf hg hρ
  -- a node stands for itself
  have hself : ∀ path m g1 ks1, OAt H root path m → m.graphs H fuel = .ok (g1, ks1) → ∀ x ∈ g1.nodes, m.Uses H x → ρ x = x := by
    intro path m g1 ks1 h hgs x hx hu
    obtain ⟨a1, a2, _⟩ := (hρ path m h x hu).at hok hf h hgs hg hu
    exact (graphOf_graphs hok hf h hgs).byName _ a1 _ hx a2
  refine ⟨?_, ?_, ?_, ?_, fun x p hx => q.found (ρ x) p (hnamed x p hx), fun n t h => node_named hok hf hg t n (q.foundP n t h), fun n t h => ?_⟩
  · intro path m h x hkx hx
    obtain ⟨path', m', g1, ks1, h1, _, _, _, h2, h3⟩ := hin _ (hvar path m h x hkx hx)
    exact ⟨path', m', h1, h2, h3, .trans _ _ _ (hjoin path m h x hx) (.symm _ _ ((hl _ (hvar path m h x hkx hx)).mono hid))⟩
  · intro x p hx hrole hnt
    have hpx := hnamed x p hx
    obtain ⟨path, m, k, w, h1, h2, h3, _⟩ := hx
    obtain ⟨g1, ks1, b1, b2, b3⟩ := oat_graphOf hok hf hg h1
    have e : ρ x = x := ((hρ path m h1 x h3).at hok hf h1 b3 hg h3).2.2.2.1 fun hd => hrole ((hok.models path m h1).declaredRole x hd).2
    show f (ρ x) = x
    rw [e] at hpx ⊢
    exact q.sources x p hpx hrole hnt
  · intro path m h x hkx hx p hp
    refine q.kept (ρ x) p (hvar path m h x hkx hx) ?_
    have := hnamed _ p hp
    obtain ⟨path', m', g1, ks1, h1, _, h3, h4, h5, h6⟩ := hin _ (hvar path m h x hkx hx)
    rwa [hself path' m' g1 ks1 h1 h3 _ h4 h6] at this
  · intro path m h x hkx hx hrole
    obtain ⟨path', g1, ks1, h1, h2, h3⟩ := q.closest (ρ x) (hvar path m h x hkx hx) hrole
    obtain ⟨m', b1, b2, b3⟩ := hier_graphOf hok hf hg h1
    have hkf : (H (f (ρ x))).kind = .var := (q.vars _ (hvar path m h x hkx hx)).2
    have hu := uses_of_var hok b1 b2 h2 (by rw [hkf]; simp)
    refine ⟨path', m', b1, hu, fun hfd => declared_node_last hok b1 b3 hfd h2, fun path2 m2 t k1 k2 k3 k4 => ?_⟩
    obtain ⟨g2, ks2, c1, c2, c3⟩ := oat_graphOf hok hf hg k1
    obtain ⟨a1, a2, a3, a4, a5⟩ := (hρ path2 m2 k1 t k3).at hok hf k1 c3 hg k3
    obtain ⟨d1, d2, d3, d4⟩ := h3 path2 g2 ks2 (ρ t) c1 a1 (by show (H (ρ t)).kind = .var; rw [a3, k2]) k4
    have hrt : (H t).role = .declared := by
      by_cases hd : t ∈ m2.declared
      · exact ((hok.models path2 m2 k1).declaredRole t hd).2
      · rw [← a4 hd]; exact d1
    refine ⟨hrt, d2, fun e1 e2 e3 => d3 e1 ?_, d4⟩
    have := declared_node_last hok k1 c3 (a5 e2.mem) a1
    rw [LastOf.eq this e2 a2]
    exact e3
  · obtain ⟨path, k, w, p, h1, h2, h3⟩ := q.foundU n t h
    exact ⟨path, k, w, p, h1, h2, node_named hok hf hg t p h3⟩

end

/-- C70, with what is known of `f` -/
theorem objects_to_values (H : Objs) (n fuel : Nat) (root : OModel) (hok : ObjectsOk H n root) (hf : ∀ path m, OAt H root path m → (m.outputs ++ m.declared).length + n ≤ fuel)
    (order : List Nat → List Nat) (ho : ∀ l x, x ∈ order l ↔ x ∈ l) (hno : NoChain (root.toModel H)) (rep : Rep) (hc : compile H fuel order root = .ok rep) :
    ∃ f : Nat → Nat, Kept H root rep.maps rep.done f ∧ (∀ path m, OAt H root path m → ∀ x, (H x).kind = .var → m.Uses H x → f x ∈ rep.graph.nodes ∧ (H (f x)).kind = .var) ∧
      (∀ path m path' m', OAt H root path m → OAt H root path' m' → ∀ x y, (H x).kind = .var → m.Uses H x → (H y).kind = .var → m'.Uses H y →
        (f x = f y ↔ Relation.EqvGen (Joined H root) x y)) ∧
      (∀ i y, (H y).kind = .var → (rep.graph.Edge i y ↔ ∃ path m, OAt H root path m ∧ m.Needs H i ∧ (H i).kind = .op ∧ ∃ v ∈ (H i).outs, f v = y)) ∧
      ∀ (V : Type) (fn : Nat → List V → Nat → V) (σ0 : Env V),
        ObjSolution H root fn (fun x => execAll rep.graph ⟨fun i => decide ((H i).kind = .op), fun i => (H i).deps.map f, fn⟩ σ0 rep.sorted (f x)) ∧
        (∀ path m, OAt H root path m → ∀ x, (H x).kind = .var → m.Uses H x → (∀ i, ¬ rep.graph.Edge i (f x)) →
          execAll rep.graph ⟨fun i => decide ((H i).kind = .op), fun i => (H i).deps.map f, fn⟩ σ0 rep.sorted (f x) = σ0 (f x)) ∧
        ∀ σ, ObjSolution H root fn σ → (∀ path m, OAt H root path m → ∀ x, (H x).kind = .var → m.Uses H x → (∀ i, ¬ rep.graph.Edge i (f x)) → σ x = σ0 (f x)) →
          ∀ path m, OAt H root path m → ∀ x, (H x).kind = .var → m.Uses H x →
            σ x = execAll rep.graph ⟨fun i => decide ((H i).kind = .op), fun i => (H i).deps.map f, fn⟩ σ0 rep.sorted (f x) := by
  classical
  obtain ⟨r, g, kids, hr, hg, hflat, hsort, _⟩ := compile_ok hc
  have hk := hierOk_objects hok hf hg
  have hb := bipartite_objects hok hf hg
  have hrep := represents_objects hok hf hg
  have hnd := nodesOk_objects hok hf hg
  obtain ⟨f, q, f1, f2, f5, f4, f3⟩ := execution_solves (root.toModel H) hok.dotFree (distinctSources_objects hok) r hr H.info g kids hk hb hrep hnd order ho _ _ _ hflat hno _ hsort
  obtain ⟨ρ, hρ⟩ := exists_standsFor hok hf hg
  -- where objects are
  have hvar : ∀ path m, OAt H root path m → ∀ x, (H x).kind = .var → m.Uses H x → IsVarOf H.info g kids (ρ x) := by
    intro path m h x hkx hx
    obtain ⟨g', ks', h1, _, h3⟩ := oat_graphOf hok hf hg h
    obtain ⟨a1, a2, a3, _⟩ := (hρ path m h x hx).at hok hf h h3 hg hx
    exact ⟨path, g', ks', h1, a1, by show (H (ρ x)).kind = .var; rw [a3, hkx]⟩
  -- dependencies of operations are used
  have hdep := op_args hok
  -- operations that are nodes
  have hopNode : ∀ path m g' ks', OAt H root path m → m.graphs H fuel = .ok (g', ks') → GraphOf H m g' → ∀ i ∈ g'.nodes, (H i).kind = .op → m.Needs H i ∧ m.Uses H i := by
    intro path m g' ks' h h2 h3 i hi hop
    have := uses_of_var hok h h3 hi (by rw [hop]; simp)
    refine ⟨?_, this⟩
    rcases uses_cases this with h4 | h4
    · have := (hok.models path m h).names.inputVars i h4
      rw [show (H.heap i).kind = (H i).kind from rfl, hop] at this; cases this
    · exact h4
  have hout := op_results hok hf hg hρ
  have hnamed := named_node hok hf hg hρ
  have hnamed' := node_named hok hf hg
  have hloc : ∀ path m, OAt H root path m → ∃ subs, At (root.toModel H) path (.mk (m.loc H) subs) ∧ (m.loc H).connections = m.connections := by
    intro path m h
    have := h.toAt
    rw [OModel.toModel_eq H m] at this
    exact ⟨_, this, by cases m; rfl⟩
  have hid : ∀ a b, Identified (root.toModel H) H.info g kids a b → Joined H root a b := by
    rintro a b (⟨p, h1, h2⟩ | ⟨path, l, subs, s, t, p, p', hat, hst, hp, hp', h1, h2⟩)
    · exact .name p (hnamed' a p h1) (hnamed' b p h2)
    · obtain ⟨m, h3, h4⟩ := OAt.ofAt hat
      rw [OModel.toModel_eq] at h4
      cases h4
      have hl : (m.loc H).connections = m.connections := by cases m; rfl
      exact .connection path m s t p p' h3 (by rw [← hl]; exact hst) hp hp' (hnamed' a p h1) (hnamed' b p' h2)
  have hjoin : ∀ path m, OAt H root path m → ∀ x, m.Uses H x → Relation.EqvGen (Joined H root) x (ρ x) := by
    intro path m h x hx
    obtain ⟨g', ks', b1, b2, b3⟩ := oat_graphOf hok hf hg h
    obtain ⟨a1, a2, a3, a4, a5⟩ := (hρ path m h x hx).at hok hf h b3 hg hx
    by_cases hd : x ∈ m.declared
    · have hxv : x ∈ m.vars := by simp [OModel.vars, hd]
      have hrv : ρ x ∈ m.vars := by simp [OModel.vars, a5 hd]
      obtain ⟨k, p, hp, _⟩ := promoted_var hok h hxv
      have hkr := ((hok.models path m h).declaredRole _ (a5 hd)).1
      exact .rel _ _ (.name p ⟨path, m, k, _, h, hxv, hx, hp, rfl⟩ ⟨path, m, k, _, h, hrv, uses_of_var hok h b2 a1 (by rw [hkr]; simp), hp, a2.symm⟩)
    · rw [a4 hd]; exact .refl _
  have hkept : Kept H root rep.maps rep.done fun x => f (ρ x) := kept_objects hok hf hg q hρ hvar hjoin hid
  refine ⟨fun x => f (ρ x), hkept, fun path m h x hkx hx => f1 _ (hvar path m h x hkx hx), ?_, ?_, ?_⟩
  · intro path m path' m' h h' x y hkx hx hky hy
    constructor
    · intro e
      have h1 := (f5 _ _ (hvar path m h x hkx hx) (hvar path' m' h' y hky hy)).1 e
      exact .trans _ _ _ (hjoin path m h x hx) (.trans _ _ _ (h1.mono hid) (.symm _ _ (hjoin path' m' h' y hy)))
    · intro e
      clear hkx hx hky hy
      have hv : ∀ a p, HasPromotedName (root.toModel H) H.info g kids a p → IsVarOf H.info g kids a := by
        rintro a p ⟨path, g', ks', k, w, h1, h2, h3, _⟩
        exact ⟨path, g', ks', h1, h2, h3⟩
      induction e with
      | rel a b hab =>
        cases hab with
        | name p h1 h2 => exact (f5 _ _ (hv _ _ (hnamed a p h1)) (hv _ _ (hnamed b p h2))).2 (.rel _ _ (.name p (hnamed a p h1) (hnamed b p h2)))
        | connection path m s t p p' hat hst hp hp' h1 h2 =>
          obtain ⟨subs, h3, h4⟩ := hloc path m hat
          exact (f5 _ _ (hv _ _ (hnamed a p h1)) (hv _ _ (hnamed b p' h2))).2 (.rel _ _ (.connection path _ subs s t p p' h3 (by rw [h4]; exact hst) hp hp' (hnamed a p h1) (hnamed b p' h2)))
      | refl a => rfl
      | symm a b _ ih => exact ih.symm
      | trans a b c _ _ ih1 ih2 => exact ih1.trans ih2
  · intro i y hy
    rw [f4 i y hy]
    constructor
    · rintro ⟨hop, path, g1, ks1, v, hp, he, rfl⟩
      obtain ⟨m, b1, b2, b3⟩ := hier_graphOf hok hf hg hp
      obtain ⟨c1, c2, _⟩ := edge_from_op hok b1 b2 he hop
      obtain ⟨_, e1, _⟩ := hout path m b1 i c1 hop v c2
      exact ⟨path, m, b1, c1, hop, v, c2, by show f (ρ v) = f v; rw [e1]⟩
    · rintro ⟨path, m, h, hn, hop, v, hv, rfl⟩
      obtain ⟨_, e1, _, g', ks', h1, h2⟩ := hout path m h i hn hop v hv
      exact ⟨hop, path, g', ks', v, h1, h2, by show f v = f (ρ v); rw [e1]⟩
  intro V fn σ0
  -- the interpretation of the graphs
  let inH : Nat → Prop := fun i => ∃ path g' ks', HierAt g kids path g' ks' ∧ i ∈ g'.nodes
  let O : Interp V := ⟨fun i => decide ((H i).kind = .op), fun i => if inH i then (H i).deps.map ρ else [], fn⟩
  have hO : Interprets H.info g kids O := by
    refine ⟨?_, ?_, ?_⟩
    · intro i; simp [O, Objs.info]
    · intro path g' ks' hp i hi hop u hu
      have hu' : u ∈ (H i).deps.map ρ := by
        have hin : inH i := ⟨path, g', ks', hp, hi⟩
        have hu2 : u ∈ (if inH i then (H i).deps.map ρ else []) := hu
        rwa [if_pos hin] at hu2
      obtain ⟨x, hx, rfl⟩ := List.mem_map.1 hu'
      obtain ⟨m, h1, h2, h3⟩ := hier_graphOf hok hf hg hp
      have hin := (hopNode path m g' ks' h1 h3 h2 i hi hop).1
      obtain ⟨b1, b2, b3⟩ := hdep path m h1 i hin hop x hx
      obtain ⟨a1, a2, _⟩ := (hρ path m h1 x b1).at hok hf h1 h3 hg b1
      exact h2.edge x i b3 hin (Or.inl hx) _ a1 i hi a2 rfl
    · intro i hi
      have : ¬ inH i := by
        rintro ⟨path, g', ks', hp, hm⟩
        exact hi path g' ks' hp hm
      simp [O, this]
  obtain ⟨s1, s3, s2⟩ := f3 V O hO σ0
  have hexec : execAll rep.graph (O.rename f) σ0 rep.sorted = execAll rep.graph ⟨fun i => decide ((H i).kind = .op), fun i => (H i).deps.map fun x => f (ρ x), fn⟩ σ0 rep.sorted := by
    refine execAll_congr (A := O.rename f) (B := ⟨fun i => decide ((H i).kind = .op), fun i => (H i).deps.map fun x => f (ρ x), fn⟩) rep.sorted rfl rfl ?_ σ0
    intro i hi _
    have hord := (C24_sorted_iff_acyclic rep.graph (constructFlat_wf ho hk hb hflat)).1 _ hsort
    have hin : inH i := f2 i ((hord.all i).1 hi)
    show ((if inH i then (H i).deps.map ρ else []).map f) = _
    rw [if_pos hin, List.map_map]; rfl
  -- an operation and its results
  have hargs : ∀ path m, OAt H root path m → ∀ i, m.Needs H i → (H i).kind = .op → ∀ v ∈ (H i).outs, O.args i = (H i).deps.map ρ := by
    intro path m h i hi hop v hv
    obtain ⟨_, _, _, g', ks', h1, h2⟩ := hout path m h i hi hop v hv
    have hin : inH i := ⟨path, g', ks', h1, (hk.wf _ _ _ h1).left _ _ h2⟩
    show (if inH i then (H i).deps.map ρ else []) = _
    rw [if_pos hin]
  rw [← hexec]
  refine ⟨⟨?_, ?_, ?_⟩, fun path m h x hkx hx => s3 _ (hvar path m h x hkx hx), ?_⟩
  · intro path m h i hi hop v hv
    obtain ⟨_, e1, e2, g', ks', h1, h2⟩ := hout path m h i hi hop v hv
    have := s1.ops path g' ks' h1 i v h2 hop
    rw [hargs path m h i hi hop v hv, List.map_map] at this
    dsimp only
    rw [e1]
    exact this
  · intro x y p hx hy
    exact s1.shared _ _ p (hnamed x p hx) (hnamed y p hy)
  · intro path m a b p q h hab ha hb' x y hx hy
    obtain ⟨subs, h1, h2⟩ := hloc path m h
    exact s1.connected path _ subs a b p q h1 (by rw [h2]; exact hab) ha hb' _ _ (hnamed x p hx) (hnamed y q hy)
  · intro σ hσ hσ0 path m h x hkx hx
    -- representatives have the same value
    have hsame : ∀ path m, OAt H root path m → ∀ x, m.Uses H x → σ (ρ x) = σ x := by
      intro path m h x hx
      obtain ⟨g', ks', b1, b2, b3⟩ := oat_graphOf hok hf hg h
      obtain ⟨a1, a2, a3, a4, a5⟩ := (hρ path m h x hx).at hok hf h b3 hg hx
      by_cases hd : x ∈ m.declared
      · have hxv : x ∈ m.vars := by simp [OModel.vars, hd]
        have hrv : ρ x ∈ m.vars := by simp [OModel.vars, a5 hd]
        obtain ⟨k, p, hp, _⟩ := promoted_var hok h hxv
        have hkr := ((hok.models path m h).declaredRole _ (a5 hd)).1
        exact hσ.shared _ _ p ⟨path, m, k, _, h, hrv, uses_of_var hok h b2 a1 (by rw [hkr]; simp), hp, a2.symm⟩ ⟨path, m, k, _, h, hxv, hx, hp, rfl⟩
      · rw [a4 hd]
    have hms : ModelSolution (root.toModel H) H.info g kids O σ := by
      refine ⟨?_, ?_, ?_⟩
      · intro path g' ks' hp i v he hop
        obtain ⟨m, b1, b2, b3⟩ := hier_graphOf hok hf hg hp
        obtain ⟨c1, c2, _⟩ := edge_from_op hok b1 b2 he hop
        rw [hargs path m b1 i c1 hop v c2, List.map_map, hσ.ops path m b1 i c1 hop v c2]
        congr 1
        refine List.map_congr_left fun u hu => ?_
        exact (hsame path m b1 u (hdep path m b1 i c1 hop u hu).1).symm
      · intro x y p hx hy
        exact hσ.shared x y p (hnamed' x p hx) (hnamed' y p hy)
      · intro path l subs a b p q hat hab ha hb' x y hx hy
        obtain ⟨m, h1, h2⟩ := OAt.ofAt hat
        rw [OModel.toModel_eq] at h2
        cases h2
        have hl : (m.loc H).connections = m.connections := by cases m; rfl
        exact hσ.connected path m a b p q h1 (by rw [← hl]; exact hab) ha hb' x y (hnamed' x p hx) (hnamed' y q hy)
    rw [← hsame path m h x hx]
    refine s2 σ hms ?_ (ρ x) (hvar path m h x hkx hx)
    rintro y ⟨path', g', ks', hp, hy, hky⟩ hfree
    obtain ⟨m', b1, b2, b3⟩ := hier_graphOf hok hf hg hp
    have hyu := uses_of_var hok b1 b2 hy (by rw [show (H y).kind = .var from hky]; simp)
    obtain ⟨a1, a2, _⟩ := (hρ path' m' b1 y hyu).at hok hf b1 b3 hg hyu
    have hry : ρ y = y := b2.byName _ a1 y hy a2
    have := hσ0 path' m' b1 y hky hyu
    dsimp only at this
    rw [hry] at this
    exact this hfree

/-- **C70.** Let the representation of a hierarchy of model objects be built without error, and let no connection start at the target of an earlier one.  Then every variable `x` in use in any model is
represented by a variable node `f x` of the graph, and for every meaning `fn` of the operations and all initial values `σ0`, executing the nodes of the graph in the order of the
representation gives values for the variables of all models that satisfy all operations of all models, all promotions and all connections.  Two variables are represented by the same node exactly
if they are the same by promoted names and connections; an operation computes a node exactly if one of its results is represented by it.  Nodes no operation computes keep their initial values, and the
values are the only solution with these values of the variables that are represented by such nodes. -/
theorem C70_objects_to_values (H : Objs) (n fuel : Nat) (root : OModel) (hok : ObjectsOk H n root) (hf : ∀ path m, OAt H root path m → (m.outputs ++ m.declared).length + n ≤ fuel)
    (order : List Nat → List Nat) (ho : ∀ l x, x ∈ order l ↔ x ∈ l) (hno : NoChain (root.toModel H)) (rep : Rep) (hc : compile H fuel order root = .ok rep) :
    ∃ f : Nat → Nat, (∀ path m, OAt H root path m → ∀ x, (H x).kind = .var → m.Uses H x → f x ∈ rep.graph.nodes ∧ (H (f x)).kind = .var) ∧
      (∀ path m path' m', OAt H root path m → OAt H root path' m' → ∀ x y, (H x).kind = .var → m.Uses H x → (H y).kind = .var → m'.Uses H y →
        (f x = f y ↔ Relation.EqvGen (Joined H root) x y)) ∧
      (∀ i y, (H y).kind = .var → (rep.graph.Edge i y ↔ ∃ path m, OAt H root path m ∧ m.Needs H i ∧ (H i).kind = .op ∧ ∃ v ∈ (H i).outs, f v = y)) ∧
      ∀ (V : Type) (fn : Nat → List V → Nat → V) (σ0 : Env V),
        ObjSolution H root fn (fun x => execAll rep.graph ⟨fun i => decide ((H i).kind = .op), fun i => (H i).deps.map f, fn⟩ σ0 rep.sorted (f x)) ∧
        (∀ path m, OAt H root path m → ∀ x, (H x).kind = .var → m.Uses H x → (∀ i, ¬ rep.graph.Edge i (f x)) →
          execAll rep.graph ⟨fun i => decide ((H i).kind = .op), fun i => (H i).deps.map f, fn⟩ σ0 rep.sorted (f x) = σ0 (f x)) ∧
        ∀ σ, ObjSolution H root fn σ → (∀ path m, OAt H root path m → ∀ x, (H x).kind = .var → m.Uses H x → (∀ i, ¬ rep.graph.Edge i (f x)) → σ x = σ0 (f x)) →
          ∀ path m, OAt H root path m → ∀ x, (H x).kind = .var → m.Uses H x →
            σ x = execAll rep.graph ⟨fun i => decide ((H i).kind = .op), fun i => (H i).deps.map f, fn⟩ σ0 rep.sorted (f x) := by
  obtain ⟨f, _, h1⟩ := objects_to_values H n fuel root hok hf order ho hno rep hc
  exact ⟨f, h1⟩

/-! A concrete hierarchy that meets all hypotheses: the main model creates the input `a` (0), declares `w` (1), which operation 2 maps to the output `y` (3), and connects `a` to `A.x`; submodel
`A` (4), promoting `w`, declares `x` (5), which operation 6 maps to the output `w` (7). -/

theorem Needed.sub {h : Heap} {leaves S : List Nat} (h1 : ∀ c ∈ leaves, c ∈ S) (h2 : ∀ c ∈ S, ∀ u ∈ (h c).deps, u ∈ S) (h3 : ∀ c ∈ S, ∀ u ∈ (h c).outs, u ∈ S) {c : Nat} (hc : Needed h leaves c) : c ∈ S := by
  induction hc with
  | leaf c hc => exact h1 c hc
  | dep v u _ hu ih => exact h2 v ih u hu
  | out u v _ _ hv ih => exact h3 u ih v hv

def exObj : Objs := fun i => match i with
  | 0 => { kind := .var, name := "a".toList, auto := "_0000".toList, role := .input }
  | 1 => { kind := .var, name := "w".toList, auto := "_0001".toList }
  | 2 => { kind := .op, name := "_0002".toList, deps := [1], outs := [3] }
  | 3 => { kind := .var, name := "y".toList, auto := "_0003".toList, role := .output, deps := [2] }
  | 4 => { kind := .model, name := "A".toList }
  | 5 => { kind := .var, name := "x".toList, auto := "_0005".toList }
  | 6 => { kind := .op, name := "_0006".toList, deps := [5], outs := [7] }
  | 7 => { kind := .var, name := "w".toList, auto := "_0007".toList, role := .output, deps := [6] }
  | _ => { kind := .var, name := "_0009".toList }

def exObjA : OModel := .mk [] [7] [5] [] [] [] none .nil
def exObjRoot : OModel := .mk [0] [3] [1] [("a".toList, "A.x".toList)] [] [] none (.cons 4 (some ["w".toList]) exObjA .nil)

theorem exObj_oat {path m} (h : OAt exObj exObjRoot path m) : (path = [] ∧ m = exObjRoot) ∨ (path = ["A".toList] ∧ m = exObjA) := by
  cases h with
  | here => exact Or.inl ⟨rfl, rfl⟩
  | @down _ s path m' hs h =>
    simp only [exObjRoot, OModel.subs, OSubs.toList, List.mem_singleton] at hs
    subst hs
    cases h with
    | here => exact Or.inr ⟨rfl, rfl⟩
    | @down _ s path m' hs h => simp [exObjA, OModel.subs, OSubs.toList] at hs

theorem exObj_needs {c : Nat} (h : exObjRoot.Needs exObj c) : c ∈ [1, 2, 3] := Needed.sub (S := [1, 2, 3]) (by decide) (by decide) (by decide) h
theorem exObjA_needs {c : Nat} (h : exObjA.Needs exObj c) : c ∈ [5, 6, 7] := Needed.sub (S := [5, 6, 7]) (by decide) (by decide) (by decide) h

theorem exObj_bounded (l : List Nat) (h : ∀ c ∈ l, c < 8) : Bounded exObj.heap 8 l := by
  refine ⟨h, ?_, ?_⟩ <;> decide

theorem exObj_root : ModelOk exObj 8 exObjRoot := by
  refine ⟨exObj_bounded _ (by decide), ⟨?_, by decide, ?_, ?_⟩, ?_, by decide, by decide, by decide, ?_, ?_, by decide, ?_, by decide, by decide⟩
  · intro c hc
    have : ∀ c ∈ [1, 2, 3], (exObj.heap c).kind ≠ .model := by decide
    exact this c (exObj_needs hc)
  · intro a b ha hb
    have : ∀ a ∈ [0, 1, 2, 3], ∀ b ∈ [0, 1, 2, 3], (exObj.heap a).name = (exObj.heap b).name → (exObj.heap a).kind = .op → a = b := by decide
    have hin : ∀ c, (Needed exObj.heap (exObjRoot.outputs ++ exObjRoot.declared) c ∨ c ∈ exObjRoot.inputs) → c ∈ [0, 1, 2, 3] := by
      rintro c (h | h)
      · exact List.mem_cons_of_mem _ (exObj_needs h)
      · simp [exObjRoot, OModel.inputs] at h; simp [h]
    exact this a (hin a ha) b (hin b hb)
  · intro s hs c hc
    have : ∀ c ∈ [0, 1, 2, 3], (exObj.heap 4).name ≠ (exObj.heap c).name := by decide
    simp only [exObjRoot, OModel.subs, OSubs.toList, List.map_cons, List.map_nil, List.mem_singleton] at hs
    subst hs
    refine this c ?_
    rcases hc with h | h
    · exact List.mem_cons_of_mem _ (exObj_needs h)
    · simp [exObjRoot, OModel.inputs] at h; simp [h]
  · intro s hs
    simp only [exObjRoot, OModel.subs, OSubs.toList, List.mem_singleton] at hs
    subst hs; rfl
  · intro c hc
    have : ∀ c ∈ [1, 2, 3], (exObj c).kind = .var → ∀ u ∈ (exObj c).deps, (exObj u).kind = .op ∧ c ∈ (exObj u).outs := by decide
    exact this c (exObj_needs hc)
  · intro c hc
    have : ∀ c ∈ [1, 2, 3], (exObj c).kind = .op → (∀ u ∈ (exObj c).deps, (exObj u).kind = .var) ∧ ∀ v ∈ (exObj c).outs, (exObj v).kind = .var ∧ (exObj v).role = .output := by decide
    exact this c (exObj_needs hc)
  · intro c hc
    have : ∀ c ∈ [1, 2, 3], (exObj c).kind = .var → c ∉ exObjRoot.vars → (exObj c).name = (exObj c).auto := by decide
    exact this c (exObj_needs hc)

theorem exObj_a : ModelOk exObj 8 exObjA := by
  refine ⟨exObj_bounded _ (by decide), ⟨?_, by decide, ?_, ?_⟩, ?_, by decide, by decide, by decide, ?_, ?_, by decide, ?_, by decide, by decide⟩
  · intro c hc
    have : ∀ c ∈ [5, 6, 7], (exObj.heap c).kind ≠ .model := by decide
    exact this c (exObjA_needs hc)
  · intro a b ha hb
    have : ∀ a ∈ [5, 6, 7], ∀ b ∈ [5, 6, 7], (exObj.heap a).name = (exObj.heap b).name → (exObj.heap a).kind = .op → a = b := by decide
    have hin : ∀ c, (Needed exObj.heap (exObjA.outputs ++ exObjA.declared) c ∨ c ∈ exObjA.inputs) → c ∈ [5, 6, 7] := by
      rintro c (h | h)
      · exact exObjA_needs h
      · simp [exObjA, OModel.inputs] at h
    exact this a (hin a ha) b (hin b hb)
  · intro s hs; simp [exObjA, OModel.subs, OSubs.toList] at hs
  · intro s hs; simp [exObjA, OModel.subs, OSubs.toList] at hs
  · intro c hc
    have : ∀ c ∈ [5, 6, 7], (exObj c).kind = .var → ∀ u ∈ (exObj c).deps, (exObj u).kind = .op ∧ c ∈ (exObj u).outs := by decide
    exact this c (exObjA_needs hc)
  · intro c hc
    have : ∀ c ∈ [5, 6, 7], (exObj c).kind = .op → (∀ u ∈ (exObj c).deps, (exObj u).kind = .var) ∧ ∀ v ∈ (exObj c).outs, (exObj v).kind = .var ∧ (exObj v).role = .output := by decide
    exact this c (exObjA_needs hc)
  · intro c hc
    have : ∀ c ∈ [5, 6, 7], (exObj c).kind = .var → c ∉ exObjA.vars → (exObj c).name = (exObj c).auto := by decide
    exact this c (exObjA_needs hc)

theorem exObj_ok : ObjectsOk exObj 8 exObjRoot := by
  refine ⟨?_, dotFree_of (by decide), ?_, ?_⟩
  · intro path m h
    rcases exObj_oat h with ⟨_, rfl⟩ | ⟨_, rfl⟩
    · exact exObj_root
    · exact exObj_a
  · intro path m path' m' h h' c hc hc'
    have hr : ∀ c, exObjRoot.Owns exObj c → c ∈ [0, 1, 2, 3, 4] := by
      rintro c (h | h | h)
      · simp [exObjRoot, OModel.inputs] at h; simp [h]
      · have := exObj_needs h; simp at this ⊢; omega
      · simp [exObjRoot, OModel.subs, OSubs.toList] at h; simp [h]
    have ha : ∀ c, exObjA.Owns exObj c → c ∈ [5, 6, 7] := by
      rintro c (h | h | h)
      · simp [exObjA, OModel.inputs] at h
      · exact exObjA_needs h
      · simp [exObjA, OModel.subs, OSubs.toList] at h
    rcases exObj_oat h with ⟨rfl, rfl⟩ | ⟨rfl, rfl⟩ <;> rcases exObj_oat h' with ⟨rfl, rfl⟩ | ⟨rfl, rfl⟩
    · rfl
    · have h1 := hr c hc; have h2 := ha c hc'; simp at h1 h2; omega
    · have h1 := ha c hc; have h2 := hr c hc'; simp at h1 h2; omega
    · rfl
  · intro path m h c hc hk hv
    rcases exObj_oat h with ⟨_, rfl⟩ | ⟨_, rfl⟩
    · have : ∀ c ∈ [1, 2, 3], (exObj c).kind = .var → c ∈ exObjRoot.vars := by decide
      exact absurd (this c (exObj_needs hc) hk) hv
    · have : ∀ c ∈ [5, 6, 7], (exObj c).kind = .var → c ∈ exObjA.vars := by decide
      exact absurd (this c (exObjA_needs hc) hk) hv

theorem exObj_model : exObjRoot.toModel exObj = exEndModel := by rfl

/-- the example is compiled, and the hypotheses of C70 hold of it; executing it with the successor function for both operations and the value 5 of `a` gives 6 for `w` and 7 for `y` -/
example : ∃ rep, ObjectsOk exObj 8 exObjRoot ∧ (∀ path m, OAt exObj exObjRoot path m → (m.outputs ++ m.declared).length + 8 ≤ 10) ∧ NoChain (exObjRoot.toModel exObj) ∧
    compile exObj 10 id exObjRoot = .ok rep ∧ ∀ f : Nat → Nat, f 1 = 7 → f 5 = 0 →
      execAll rep.graph ⟨fun i => decide ((exObj i).kind = .op), fun i => (exObj i).deps.map f, fun _ l _ => l.sum + 1⟩ (fun v => if v = 0 then 5 else 0) rep.sorted 7 = 6 ∧
      execAll rep.graph ⟨fun i => decide ((exObj i).kind = .op), fun i => (exObj i).deps.map f, fun _ l _ => l.sum + 1⟩ (fun v => if v = 0 then 5 else 0) rep.sorted 3 = 7 := by
  obtain ⟨rep, hrep, h⟩ := ok_of_check (x := compile exObj 10 id exObjRoot) (P := fun rep => decide (rep.graph.edges = [(2, 3), (6, 7), (7, 2), (0, 6)] ∧ rep.sorted = [0, 6, 7, 2, 3])) (by decide)
  obtain ⟨h1, h2⟩ := of_decide_eq_true h
  refine ⟨rep, exObj_ok, ?_, ?_, hrep, ?_⟩
  · intro path m h
    rcases exObj_oat h with ⟨_, rfl⟩ | ⟨_, rfl⟩ <;> decide
  · rw [exObj_model]; exact exEnd_noChain
  · intro f e1 e5
    rw [h2]
    simp [execAll, execNode, h1, exObj, e1, e5]

end Csdl
