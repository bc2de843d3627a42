import Verif.Proofs.Chain
import Verif.Props.Compile
/-!
# C95: what connections mean, chains included
-/
namespace Csdl

/-- **C95.** Let the representation of a model hierarchy be built without error and its nodes be sorted, whatever the connections: the target of a connection may be the source of others, collected before or
after it, or its own source.  Every variable `x` has a node `rep x` of its own, shared by exactly what has the same promoted name, and a node `f x` that the operations using `x` depend on.  For every interpretation of the operations and all
initial values, executing the nodes gives the one solution in which the values of nodes that no operation computes are the initial ones: what is read of a variable is the value of its own of the variable one arrives
at by walking through all the connections once, in the order in which they are collected, going from target to source. -/
theorem C95_connections_mean (m : Model) (hd : DotFree m) (hs : DistinctSources m) (r : Res) (hr : resolve m none = .ok r) (I : NHeap) (g : Graph) (kids : Kids)
    (hk : HierOk g kids) (hb : AllBipartite I g kids) (hrep : Represents m I g kids) (hn : NodesOk I g kids)
    (order : List Nat → List Nat) (ho : ∀ l x, x ∈ order l ↔ x ∈ l) (d : NodeMaps) (g' : Graph) (done : Dict Nat Nat)
    (h : constructFlat I order r.p2u (createReverseMap r.p2u) g kids (collectConnections m []) = .ok (d, g', done))
    (l : List Nat) (hl : flatSort g' = .ok l) :
    ∃ rep f : Nat → Nat, (∀ x, IsVarOf I g kids x → f x ∈ g'.nodes ∧ IsVarOf I g kids (f x) ∧ IsVarOf I g kids (rep x)) ∧
      (∀ x p, HasPromotedName m I g kids x p → ∃ q, ReadsAs m p q ∧ HasPromotedName m I g kids (f x) q) ∧
      (∀ a b, g'.Edge a b ↔ ∃ path g1 ks1 u v, HierAt g kids path g1 ks1 ∧ g1.Edge u v ∧ f u = a ∧ f v = b) ∧
      (∀ x y p, HasPromotedName m I g kids x p → IsVarOf I g kids y → HasPromotedName m I g kids (rep x) p ∧ (rep y = rep x ↔ HasPromotedName m I g kids y p)) ∧
      (∀ x, IsVarOf I g kids x → (∀ p, ¬ HasPromotedName m I g kids x p) → rep x = x ∧ f x = x) ∧ (∀ a ∈ g'.nodes, ∃ path g1 ks1, HierAt g kids path g1 ks1 ∧ a ∈ g1.nodes) ∧
      (∀ n y, (I y).kind = .var → (g'.Edge n y ↔ (I n).kind = .op ∧ ∃ path g1 ks1, HierAt g kids path g1 ks1 ∧ g1.Edge n y)) ∧
      ∀ (V : Type) (O : Interp V), Interprets I g kids O → ∀ σ0 : Env V,
        ChainSolution m I g kids O (fun x => execAll g' (O.rename f) σ0 l (rep x)) (fun x => execAll g' (O.rename f) σ0 l (f x)) ∧
        (∀ x, IsVarOf I g kids x → (∀ n, ¬ g'.Edge n (rep x)) → execAll g' (O.rename f) σ0 l (rep x) = σ0 (rep x)) ∧
        ∀ own read, ChainSolution m I g kids O own read → (∀ x, IsVarOf I g kids x → (∀ n, ¬ g'.Edge n (rep x)) → own x = σ0 (rep x)) →
          ∀ x, IsVarOf I g kids x → own x = execAll g' (O.rename f) σ0 l (rep x) ∧ read x = execAll g' (O.rename f) σ0 l (f x) := by
  have hone := C33_one_operation_per_variable I order ho _ _ g kids hk hb _ d g' done h
  obtain ⟨rep, f, q⟩ := chain_quotient m hd hs r hr I g kids hk hb hrep hn order ho d g' done h
  refine ⟨rep, f, fun x hx => ⟨(q.vars x hx).1, (q.vars x hx).2, q.own x hx⟩, fun x p hx => ?_, q.edges, fun x y p hx hy => ?_, q.unnamed, q.nodes, fun n y hy => ?_, fun V O hO σ0 => ?_⟩
  · obtain ⟨p', h1, h2, _⟩ := q.reads x p hx
    exact ⟨p', h1, h2⟩
  · refine ⟨q.named x p hx, ?_, ?_⟩
    · intro e
      by_cases hnm : ∃ p', HasPromotedName m I g kids y p'
      · obtain ⟨p', hp'⟩ := hnm
        rwa [q.oneName _ _ _ (q.named x p hx) (e ▸ q.named y p' hp')]
      · have e1 := (q.unnamed y hy fun p hp => hnm ⟨p, hp⟩).1
        rw [← e1, e]; exact q.named x p hx
    · intro h'
      exact q.shared y x p h' hx
  · constructor
    · intro he
      have hop : (I n).kind = .op := by
        rcases q.bipartite n y he with ⟨_, h2⟩ | ⟨h1, _⟩
        · rw [hy] at h2; cases h2
        · exact h1
      obtain ⟨path, g1, ks1, u, w, hp, he1, hu, hw⟩ := (q.edges n y).1 he
      have hopu : (I u).kind = .op := by
        rcases hb path g1 ks1 hp u w he1 with ⟨h1, _⟩ | ⟨h1, _⟩
        · obtain ⟨_, _, _, _, _, this⟩ := (q.vars u ⟨path, g1, ks1, hp, (hk.wf _ _ _ hp).left _ _ he1, h1⟩).2
          rw [hu, hop] at this; cases this
        · exact h1
      rw [q.ops u hopu] at hu
      subst hu
      rw [(q.results path g1 ks1 u w hp he1 hopu).2] at hw
      subst hw
      exact ⟨hop, path, g1, ks1, hp, he1⟩
    · rintro ⟨hop, path, g1, ks1, hp, he⟩
      exact (q.edges _ _).2 ⟨path, g1, ks1, n, y, hp, he, q.ops n hop, (q.results path g1 ks1 n y hp he hop).2⟩
  have varKind : ∀ x, IsVarOf I g kids x → (I x).kind = .var := fun x ⟨_, _, _, _, _, hv⟩ => hv
  have isOp' : ∀ n, O.isOp n = false ↔ (I n).kind ≠ .op := by
    intro n
    rw [← Bool.not_eq_true, not_iff_not]; exact hO.isOp n
  have argVar : ∀ path g1 ks1, HierAt g kids path g1 ks1 → ∀ n ∈ g1.nodes, (I n).kind = .op → ∀ x ∈ O.args n, IsVarOf I g kids x ∧ g1.Edge x n := by
    intro path g1 ks1 hp n hm hop x hx
    have he := hO.args path g1 ks1 hp n hm hop x hx
    refine ⟨⟨path, g1, ks1, hp, (hk.wf _ _ _ hp).left _ _ he, ?_⟩, he⟩
    rcases hb path g1 ks1 hp x n he with ⟨h1, _⟩ | ⟨_, h2⟩
    · exact h1
    · rw [hop] at h2; cases h2
  have comp : Computes g' (O.rename f) := by
    refine ⟨?_, ?_, ?_⟩
    · intro u v he
      show O.isOp u ≠ O.isOp v
      rcases q.bipartite u v he with ⟨h1, h2⟩ | ⟨h1, h2⟩
      · rw [(hO.isOp v).2 h2, (isOp' u).2 (by rw [h1]; simp)]; simp
      · rw [(hO.isOp u).2 h1, (isOp' v).2 (by rw [h2]; simp)]; simp
    · intro n hop u hu
      obtain ⟨x, hx, rfl⟩ := List.mem_map.1 hu
      have hop' := (hO.isOp n).1 hop
      by_cases hin : ∃ path g1 ks1, HierAt g kids path g1 ks1 ∧ n ∈ g1.nodes
      · obtain ⟨path, g1, ks1, hp, hm⟩ := hin
        exact (q.edges _ _).2 ⟨path, g1, ks1, x, n, hp, (argVar path g1 ks1 hp n hm hop' x hx).2, rfl, q.ops n hop'⟩
      · have := hO.noArgs n (fun path g1 ks1 hp hm => hin ⟨path, g1, ks1, hp, hm⟩)
        rw [this] at hx; cases hx
    · intro u u' v hu hu' hv
      have hv' : (I v).kind = .var := by
        rcases q.bipartite u v hu with ⟨h1, h2⟩ | ⟨h1, h2⟩
        · change O.isOp v = false at hv; rw [(hO.isOp v).2 h2] at hv; cases hv
        · exact h2
      have hlen := hone v hv'
      have m1 : u ∈ g'.preds v := List.mem_map.2 ⟨(u, v), List.mem_filter.2 ⟨hu, by simp⟩, rfl⟩
      have m2 : u' ∈ g'.preds v := List.mem_map.2 ⟨(u', v), List.mem_filter.2 ⟨hu', by simp⟩, rfl⟩
      unfold Graph.inDegree at hlen
      match hp : g'.preds v, hlen, m1, m2 with
      | [], _, m1, _ => cases m1
      | [x], _, m1, m2 => simp only [List.mem_singleton] at m1 m2; rw [m1, m2]
      | x :: y :: l, hlen, _, _ => simp at hlen
  have opOf : ∀ path g1 ks1 u w, HierAt g kids path g1 ks1 → g1.Edge u w → (I (f u)).kind = .op → (I u).kind = .op := by
    intro path g1 ks1 u w hp he hop
    rcases hb path g1 ks1 hp u w he with ⟨h1, _⟩ | ⟨h1, _⟩
    · have := varKind _ (q.vars u ⟨path, g1, ks1, hp, (hk.wf _ _ _ hp).left _ _ he, h1⟩).2
      rw [hop] at this; cases this
    · exact h1
  obtain ⟨sol, uniq, _⟩ := C25_sorted_nodes_compute g' (O.rename f) q.wf comp l hl σ0
  set τ := execAll g' (O.rename f) σ0 l with hτ
  refine ⟨?_, ?_, ?_⟩
  · refine ⟨?_, ?_, ?_, ?_⟩
    · intro path g1 ks1 hp n v he hop
      obtain ⟨r1, r2⟩ := q.results path g1 ks1 n v hp he hop
      have hge := (q.edges _ _).2 ⟨path, g1, ks1, n, v, hp, he, q.ops n hop, r2⟩
      rw [r1, sol.op n v (q.wf.left _ _ hge) ((hO.isOp n).2 hop) hge]
      show O.fn n (((O.args n).map _).map τ) v = _
      rw [List.map_map]; rfl
    · intro x y p hx hy
      rw [q.shared x y p hx hy]
    · intro x y p p' hx hp hy
      obtain ⟨p2, h1, h2, h3⟩ := q.reads x p hx
      have := Follows.unique hd hr hp h1
      subst this
      show τ (f x) = τ (rep y)
      rw [← h3, q.shared _ _ _ h2 hy]
    · intro x hx hno
      obtain ⟨e1, e2⟩ := q.unnamed x hx hno
      show τ (f x) = τ (rep x)
      rw [e1, e2]
  · intro x hx hfree
    exact sol.free (rep x) fun n _ he => hfree n he
  · intro own read hσ hfree
    have eqf : ∀ x, IsVarOf I g kids x → read x = own (f x) ∧ own (rep x) = own x := by
      intro x hx
      by_cases hnm : ∃ p, HasPromotedName m I g kids x p
      · obtain ⟨p, hp⟩ := hnm
        obtain ⟨p2, h1, h2, h3⟩ := q.reads x p hp
        exact ⟨hσ.reads x (f x) p p2 hp h1 h2, hσ.shared _ _ p (q.named x p hp) hp⟩
      · have hno : ∀ p, ¬ HasPromotedName m I g kids x p := fun p hp => hnm ⟨p, hp⟩
        obtain ⟨e1, e2⟩ := q.unnamed x hx hno
        rw [e1, e2]
        exact ⟨hσ.unnamed x hx hno, rfl⟩
    have repf : ∀ x, IsVarOf I g kids x → rep (f x) = f x := by
      intro x hx
      by_cases hnm : ∃ p, HasPromotedName m I g kids x p
      · obtain ⟨p, hp⟩ := hnm
        obtain ⟨p2, h1, h2, h3⟩ := q.reads x p hp
        exact h3
      · obtain ⟨e1, e2⟩ := q.unnamed x hx fun p hp => hnm ⟨p, hp⟩
        rw [e2, e1]
    classical
    have hsol : Solution g' (O.rename f) σ0 (fun v => if IsVarOf I g kids v ∧ rep v = v then own v else σ0 v) := by
      constructor
      · intro n v hnn hop he
        have hop' := (hO.isOp n).1 hop
        obtain ⟨path, g1, ks1, u, w, hp, he1, hu, hw⟩ := (q.edges n v).1 he
        have hopu : (I u).kind = .op := opOf path g1 ks1 u w hp he1 (by rw [hu]; exact hop')
        rw [q.ops u hopu] at hu
        subst hu
        obtain ⟨r1, r2⟩ := q.results path g1 ks1 u w hp he1 hopu
        rw [r2] at hw
        subst hw
        have hv' : (I w).kind = .var := by
          rcases hb path g1 ks1 hp u w he1 with ⟨h1, _⟩ | ⟨_, h2⟩
          · rw [hopu] at h1; cases h1
          · exact h2
        rw [if_pos ⟨⟨path, g1, ks1, hp, (hk.wf _ _ _ hp).right _ _ he1, hv'⟩, r1⟩]
        rw [hσ.ops path g1 ks1 hp u w he1 hopu]
        show _ = O.fn u (((O.args u).map _).map _) w
        rw [List.map_map]
        congr 1
        apply List.map_congr_left
        intro a ha
        have hva := (argVar path g1 ks1 hp u ((hk.wf path g1 ks1 hp).left _ _ he1) hopu a ha).1
        show read a = if IsVarOf I g kids (f a) ∧ rep (f a) = f a then own (f a) else σ0 (f a)
        rw [if_pos ⟨(q.vars a hva).2, repf a hva⟩, (eqf a hva).1]
      · intro v hv
        split
        · rename_i hc
          obtain ⟨ha, hrv⟩ := hc
          rw [hfree v ha, hrv]
          intro n he
          rw [hrv] at he
          have hop : (I n).kind = .op := by
            rcases q.bipartite n v he with ⟨_, h2⟩ | ⟨h1, _⟩
            · rw [varKind v ha] at h2; cases h2
            · exact h1
          exact hv n ((hO.isOp n).2 hop) he
        · rfl
    have hu := uniq _ hsol
    intro x hx
    have rr : rep (rep x) = rep x := by
      by_cases hnm : ∃ p, HasPromotedName m I g kids x p
      · obtain ⟨p, hp⟩ := hnm
        exact q.shared _ _ p (q.named x p hp) hp
      · have e1 := (q.unnamed x hx fun p hp => hnm ⟨p, hp⟩).1
        rw [e1, e1]
    have h1 := congrFun hu (rep x)
    have h2 := congrFun hu (f x)
    rw [if_pos ⟨q.own x hx, rr⟩] at h1
    rw [if_pos ⟨(q.vars x hx).2, repf x hx⟩] at h2
    exact ⟨by rw [← (eqf x hx).2]; exact h1, by rw [(eqf x hx).1]; exact h2⟩

/-- **C95, without chains**: if no connection starts at the target of an earlier one, what is read of the variables satisfies all operations, promotions and connections in the plain sense of C61. -/
theorem C95_without_chains (m : Model) (hd : DotFree m) (hs : DistinctSources m) (r : Res) (hr : resolve m none = .ok r) (I : NHeap) (g : Graph) (kids : Kids)
    (hk : HierOk g kids) (hb : AllBipartite I g kids) (hrep : Represents m I g kids) (hn : NodesOk I g kids)
    (order : List Nat → List Nat) (ho : ∀ l x, x ∈ order l ↔ x ∈ l) (d : NodeMaps) (g' : Graph) (done : Dict Nat Nat)
    (h : constructFlat I order r.p2u (createReverseMap r.p2u) g kids (collectConnections m []) = .ok (d, g', done)) (hno : NoChain m) {V : Type} (O : Interp V) (own read : Env V)
    (hsol : ChainSolution m I g kids O own read) : ModelSolution m I g kids O read := by
  obtain ⟨rep, f, q⟩ := chain_quotient m hd hs r hr I g kids hk hb hrep hn order ho d g' done h
  have eqf : ∀ x, IsVarOf I g kids x → read x = own (f x) := by
    intro x hx
    by_cases hnm : ∃ p, HasPromotedName m I g kids x p
    · obtain ⟨p, hp⟩ := hnm
      obtain ⟨p2, h1, h2, h3⟩ := q.reads x p hp
      exact hsol.reads x (f x) p p2 hp h1 h2
    · have hno : ∀ p, ¬ HasPromotedName m I g kids x p := fun p hp => hnm ⟨p, hp⟩
      rw [(q.unnamed x hx hno).2]
      exact hsol.unnamed x hx hno
  refine ⟨?_, ?_, ?_⟩
  · intro path g1 ks1 hp n v he hop
    have hv : (I v).kind = .var := by
      rcases hb path g1 ks1 hp n v he with ⟨h1, _⟩ | ⟨_, h2⟩
      · rw [hop] at h1; cases h1
      · exact h2
    rw [eqf v ⟨path, g1, ks1, hp, (hk.wf _ _ _ hp).right _ _ he, hv⟩, (q.results path g1 ks1 n v hp he hop).2]
    exact hsol.ops path g1 ks1 hp n v he hop
  · intro x y p hx hy
    obtain ⟨p2, h1, h2, h3⟩ := q.reads x p hx
    rw [hsol.reads x (f x) p p2 hx h1 h2, hsol.reads y (f x) p p2 hy h1 h2]
  · intro path l subs a b p p' hat hab hp hq x y hx hy
    rw [eqf x hx.isVarOf, eqf y hy.isVarOf, q.joined hno path l subs a b p p' hat hab hp hq x y hx hy]

/-- **C95 for model objects.** Let the representation of a hierarchy of model objects be built without error, whatever the connections.  Every variable in use has a node `own x` of its own, and a node `f x` that the
operations using it depend on: that of the variable to which the connections lead.  For every meaning of the operations and all initial values, executing the nodes in the order of the representation gives the one solution,
in the general sense in which a variable that is the target of a connection and the source of another one may have a value of its own that differs from what is read of it. -/
theorem C95_objects_chains (H : Objs) (n fuel : Nat) (root : OModel) (hok : ObjectsOk H n root) (hf : ∀ path m, OAt H root path m → (m.outputs ++ m.declared).length + n ≤ fuel)
    (order : List Nat → List Nat) (ho : ∀ l x, x ∈ order l ↔ x ∈ l) (rep : Rep) (hc : compile H fuel order root = .ok rep) :
    ∃ own f : Nat → Nat, (∀ path m, OAt H root path m → ∀ x, (H x).kind = .var → m.Uses H x → f x ∈ rep.graph.nodes ∧ (H (f x)).kind = .var) ∧
      (∀ x p, NamedVar H root x p → NamedVar H root (own x) p ∧ ∃ q, ReadsAs (root.toModel H) p q ∧ NamedVar H root (f x) q) ∧
      (∀ x y p, NamedVar H root x p → NamedVar H root y p → own x = own y) ∧
      (∀ path m, OAt H root path m → ∀ x, (H x).kind = .var → m.Uses H x → (∀ p, ¬ NamedVar H root x p) → own x = x ∧ f x = x) ∧
      (∀ i y, (H y).kind = .var → (rep.graph.Edge i y ↔ ∃ path m, OAt H root path m ∧ m.Needs H i ∧ (H i).kind = .op ∧ y ∈ (H i).outs)) ∧
      ∀ (V : Type) (fn : Nat → List V → Nat → V) (σ0 : Env V),
        ObjChainSolution H root fn (fun x => execAll rep.graph ⟨fun i => decide ((H i).kind = .op), fun i => (H i).deps.map f, fn⟩ σ0 rep.sorted (own x))
          (fun x => execAll rep.graph ⟨fun i => decide ((H i).kind = .op), fun i => (H i).deps.map f, fn⟩ σ0 rep.sorted (f x)) ∧
        (∀ path m, OAt H root path m → ∀ x, (H x).kind = .var → m.Uses H x → (∀ i, ¬ rep.graph.Edge i (own x)) →
          execAll rep.graph ⟨fun i => decide ((H i).kind = .op), fun i => (H i).deps.map f, fn⟩ σ0 rep.sorted (own x) = σ0 (own x)) ∧
        ∀ τ σ, ObjChainSolution H root fn τ σ → (∀ path m, OAt H root path m → ∀ x, (H x).kind = .var → m.Uses H x → (∀ i, ¬ rep.graph.Edge i (own x)) → τ x = σ0 (own x)) →
          ∀ path m, OAt H root path m → ∀ x, (H x).kind = .var → m.Uses H x →
            τ x = execAll rep.graph ⟨fun i => decide ((H i).kind = .op), fun i => (H i).deps.map f, fn⟩ σ0 rep.sorted (own x) ∧
            σ x = execAll rep.graph ⟨fun i => decide ((H i).kind = .op), fun i => (H i).deps.map f, fn⟩ σ0 rep.sorted (f x) := by
  classical
  obtain ⟨r, g, kids, hr, hg, hflat, hsort, _⟩ := compile_ok hc
  have hk := hierOk_objects hok hf hg
  have hb := bipartite_objects hok hf hg
  have hrep := represents_objects hok hf hg
  have hnd := nodesOk_objects hok hf hg
  obtain ⟨own, f, f1, f4, f5, f6, f8, f2, f7, f3⟩ := C95_connections_mean (root.toModel H) hok.dotFree (distinctSources_objects hok) r hr H.info g kids hk hb hrep hnd order ho _ _ _ hflat _ hsort
  obtain ⟨ρ, hρ⟩ := exists_standsFor hok hf hg
  have hvar : ∀ path m, OAt H root path m → ∀ x, (H x).kind = .var → m.Uses H x → IsVarOf H.info g kids (ρ x) := by
    intro path m h x hkx hx
    obtain ⟨g', ks', h1, _, h3⟩ := oat_graphOf hok hf hg h
    obtain ⟨a1, a2, a3, _⟩ := (hρ path m h x hx).at hok hf h h3 hg hx
    exact ⟨path, g', ks', h1, a1, by show (H (ρ x)).kind = .var; rw [a3, hkx]⟩
  have hdep := op_args hok
  have hopNode : ∀ path m g' ks', OAt H root path m → m.graphs H fuel = .ok (g', ks') → GraphOf H m g' → ∀ i ∈ g'.nodes, (H i).kind = .op → m.Needs H i ∧ m.Uses H i := by
    intro path m g' ks' h h2 h3 i hi hop
    have := uses_of_var hok h h3 hi (by rw [hop]; simp)
    refine ⟨?_, this⟩
    rcases uses_cases this with h4 | h4
    · have := (hok.models path m h).names.inputVars i h4
      rw [show (H.heap i).kind = (H i).kind from rfl, hop] at this; cases this
    · exact h4
  have hout := op_results hok hf hg hρ
  have hnamed := named_node hok hf hg hρ
  have hnamed' := node_named hok hf hg
  have hsame : ∀ path m, OAt H root path m → ∀ x, m.Uses H x → ρ x = x ∨ ∃ p, NamedVar H root (ρ x) p ∧ NamedVar H root x p := by
    intro path m h x hx
    obtain ⟨g', ks', b1, b2, b3⟩ := oat_graphOf hok hf hg h
    obtain ⟨a1, a2, a3, a4, a5⟩ := (hρ path m h x hx).at hok hf h b3 hg hx
    by_cases hd : x ∈ m.declared
    · have hxv : x ∈ m.vars := by simp [OModel.vars, hd]
      have hrv : ρ x ∈ m.vars := by simp [OModel.vars, a5 hd]
      obtain ⟨k, p, hp, _⟩ := promoted_var hok h hxv
      have hkr := ((hok.models path m h).declaredRole _ (a5 hd)).1
      exact Or.inr ⟨p, ⟨path, m, k, _, h, hrv, uses_of_var hok h b2 a1 (by rw [hkr]; simp), hp, a2.symm⟩, ⟨path, m, k, _, h, hxv, hx, hp, rfl⟩⟩
    · exact Or.inl (a4 hd)
  have hnode : ∀ x, IsVarOf H.info g kids x → ∃ path m, OAt H root path m ∧ m.Uses H x ∧ (H x).kind = .var := by
    rintro y ⟨path', g', ks', hp, hy, hky⟩
    obtain ⟨m', b1, b2, b3⟩ := hier_graphOf hok hf hg hp
    exact ⟨path', m', b1, uses_of_var hok b1 b2 hy (by rw [show (H y).kind = .var from hky]; simp), hky⟩
  have hfix : ∀ y, IsVarOf H.info g kids y → ρ y = y := by
    rintro y ⟨path', g', ks', hp, hy, hky⟩
    obtain ⟨m', b1, b2, b3⟩ := hier_graphOf hok hf hg hp
    have hyu := uses_of_var hok b1 b2 hy (by rw [show (H y).kind = .var from hky]; simp)
    obtain ⟨a1, a2, _⟩ := (hρ path' m' b1 y hyu).at hok hf b1 b3 hg hyu
    exact b2.byName _ a1 y hy a2
  refine ⟨fun x => own (ρ x), fun x => f (ρ x), ?_, ?_, ?_, ?_, ?_, ?_⟩
  · intro path m h x hkx hx
    obtain ⟨a1, ⟨_, _, _, _, _, a2⟩, _⟩ := f1 _ (hvar path m h x hkx hx)
    exact ⟨a1, a2⟩
  · intro x p hx
    have hx' := hnamed x p hx
    obtain ⟨q, h1, h2⟩ := f4 _ _ hx'
    exact ⟨hnamed' _ _ (f6 (ρ x) (ρ x) p hx' hx'.isVarOf).1, q, h1, hnamed' _ _ h2⟩
  · intro x y p hx hy
    exact (f6 (ρ y) (ρ x) p (hnamed y p hy) (hnamed x p hx).isVarOf).2.2 (hnamed x p hx)
  · intro path m h x hkx hx hno
    have e : ρ x = x := (hsame path m h x hx).resolve_right fun ⟨p, _, hp⟩ => hno p hp
    dsimp only
    have hv := hvar path m h x hkx hx
    rw [e] at hv ⊢
    exact f8 x hv fun p hp => hno p (hnamed' x p hp)
  · intro i y hy
    rw [f7 i y hy]
    constructor
    · rintro ⟨hop, path, g1, ks1, hp, he⟩
      obtain ⟨m, b1, b2, b3⟩ := hier_graphOf hok hf hg hp
      obtain ⟨c1, c2, _⟩ := edge_from_op hok b1 b2 he hop
      exact ⟨path, m, b1, c1, hop, c2⟩
    · rintro ⟨path, m, h, hn, hop, hv⟩
      obtain ⟨_, e1, _, g', ks', h1, h2⟩ := hout path m h i hn hop y hv
      exact ⟨hop, path, g', ks', h1, h2⟩
  intro V fn σ0
  let inH : Nat → Prop := fun i => ∃ path g' ks', HierAt g kids path g' ks' ∧ i ∈ g'.nodes
  let O : Interp V := ⟨fun i => decide ((H i).kind = .op), fun i => if inH i then (H i).deps.map ρ else [], fn⟩
  have hO : Interprets H.info g kids O := by
    refine ⟨?_, ?_, ?_⟩
    · intro i; simp [O, Objs.info]
    · intro path g' ks' hp i hi hop u hu
      have hu' : u ∈ (H i).deps.map ρ := by
        have hin : inH i := ⟨path, g', ks', hp, hi⟩
        have hu2 : u ∈ (if inH i then (H i).deps.map ρ else []) := hu
        rwa [if_pos hin] at hu2
      obtain ⟨x, hx, rfl⟩ := List.mem_map.1 hu'
      obtain ⟨m, h1, h2, h3⟩ := hier_graphOf hok hf hg hp
      have hin := (hopNode path m g' ks' h1 h3 h2 i hi hop).1
      obtain ⟨b1, b2, b3⟩ := hdep path m h1 i hin hop x hx
      obtain ⟨a1, a2, _⟩ := (hρ path m h1 x b1).at hok hf h1 h3 hg b1
      exact h2.edge x i b3 hin (Or.inl hx) _ a1 i hi a2 rfl
    · intro i hi
      have : ¬ inH i := by
        rintro ⟨path, g', ks', hp, hm⟩
        exact hi path g' ks' hp hm
      simp [O, this]
  obtain ⟨s1, s3, s2⟩ := f3 V O hO σ0
  have hexec : execAll rep.graph (O.rename f) σ0 rep.sorted = execAll rep.graph ⟨fun i => decide ((H i).kind = .op), fun i => (H i).deps.map fun x => f (ρ x), fn⟩ σ0 rep.sorted := by
    refine execAll_congr (A := O.rename f) (B := ⟨fun i => decide ((H i).kind = .op), fun i => (H i).deps.map fun x => f (ρ x), fn⟩) rep.sorted rfl rfl ?_ σ0
    intro i hi _
    have hord := (C24_sorted_iff_acyclic rep.graph (constructFlat_wf ho hk hb hflat)).1 _ hsort
    have hin : inH i := f2 i ((hord.all i).1 hi)
    show ((if inH i then (H i).deps.map ρ else []).map f) = _
    rw [if_pos hin, List.map_map]; rfl
  have hargs : ∀ path m, OAt H root path m → ∀ i, m.Needs H i → (H i).kind = .op → ∀ v ∈ (H i).outs, O.args i = (H i).deps.map ρ := by
    intro path m h i hi hop v hv
    obtain ⟨_, _, _, g', ks', h1, h2⟩ := hout path m h i hi hop v hv
    have hin : inH i := ⟨path, g', ks', h1, (hk.wf _ _ _ h1).left _ _ h2⟩
    show (if inH i then (H i).deps.map ρ else []) = _
    rw [if_pos hin]
  rw [← hexec]
  refine ⟨⟨?_, ?_, ?_, ?_⟩, fun path m h x hkx hx => s3 _ (hvar path m h x hkx hx), ?_⟩
  · intro path m h i hi hop v hv
    obtain ⟨_, e1, e2, g', ks', h1, h2⟩ := hout path m h i hi hop v hv
    have := s1.ops path g' ks' h1 i v h2 hop
    rw [hargs path m h i hi hop v hv, List.map_map] at this
    dsimp only
    rw [e1]
    exact this
  · intro x y p hx hy
    exact s1.shared _ _ p (hnamed x p hx) (hnamed y p hy)
  · intro x y p q hx hq hy
    exact s1.reads _ _ p q (hnamed x p hx) hq (hnamed y q hy)
  · intro path m h x hkx hx hno
    have e : ρ x = x := (hsame path m h x hx).resolve_right fun ⟨p, _, hp⟩ => hno p hp
    dsimp only
    have hv := hvar path m h x hkx hx
    rw [e] at hv ⊢
    exact s1.unnamed x hv fun p hp => hno p (hnamed' x p hp)
  · intro τ σ hσ hσ0
    have hms : ChainSolution (root.toModel H) H.info g kids O τ σ := by
      refine ⟨?_, ?_, ?_, ?_⟩
      · intro path g' ks' hp i v he hop
        obtain ⟨m, b1, b2, b3⟩ := hier_graphOf hok hf hg hp
        obtain ⟨c1, c2, _⟩ := edge_from_op hok b1 b2 he hop
        rw [hargs path m b1 i c1 hop v c2, List.map_map, hσ.ops path m b1 i c1 hop v c2]
        congr 1
        refine List.map_congr_left fun u hu => ?_
        obtain ⟨d1, d2, _⟩ := hdep path m b1 i c1 hop u hu
        show σ u = σ (ρ u)
        rcases hsame path m b1 u d1 with e | ⟨p, e1, e2⟩
        · rw [e]
        · obtain ⟨q, h1, h2⟩ := f4 _ _ (hnamed u p e2)
          rw [hσ.reads u _ p q e2 h1 (hnamed' _ _ h2), hσ.reads (ρ u) _ p q e1 h1 (hnamed' _ _ h2)]
      · intro x y p hx hy
        exact hσ.shared x y p (hnamed' x p hx) (hnamed' y p hy)
      · intro x y p q hx hq hy
        exact hσ.reads x y p q (hnamed' x p hx) hq (hnamed' y q hy)
      · intro x hx hno
        obtain ⟨path, m, h1, h2, h3⟩ := hnode x hx
        refine hσ.unnamed path m h1 x h3 h2 fun p hp => ?_
        have := hnamed x p hp
        rw [hfix x hx] at this
        exact hno p this
    have hs2 := s2 τ σ hms (by
      intro y hy hfree
      obtain ⟨path, m, h1, h2, h3⟩ := hnode y hy
      have := hσ0 path m h1 y h3 h2
      dsimp only at this
      rw [hfix y hy] at this
      exact this hfree)
    intro path m h x hkx hx
    obtain ⟨t1, t2⟩ := hs2 (ρ x) (hvar path m h x hkx hx)
    dsimp only
    rw [← t1, ← t2]
    rcases hsame path m h x hx with e | ⟨p, e1, e2⟩
    · rw [e]; exact ⟨rfl, rfl⟩
    · obtain ⟨q, h1, h2⟩ := f4 _ _ (hnamed x p e2)
      exact ⟨hσ.shared _ _ p e2 e1, by rw [hσ.reads x _ p q e2 h1 (hnamed' _ _ h2), hσ.reads (ρ x) _ p q e1 h1 (hnamed' _ _ h2)]⟩

end Csdl
