import Verif.Spec.Cycle
import Verif.Props.Compile
/-!
# C71: circular dependencies
-/
namespace Csdl

section
variable {H : Objs} {n fuel : Nat} {root : OModel} {g : Graph} {kids : Kids}

/-- the flat graph in terms of objects: `F` maps a variable in use to its node -/
structure ObjQuotient (H : Objs) (root : OModel) (G : Graph) (F : Nat → Nat) : Prop where
  wf : G.WF
  bipartite : Bipartite H.info G
  /-- an operation that computes `y` from `x` -/
  into : ∀ path m op, OAt H root path m → m.Needs H op → (H op).kind = .op → ∀ x ∈ (H op).deps, ∀ y ∈ (H op).outs, G.Edge (F x) op ∧ G.Edge op y ∧ F y = y
  joined : ∀ x y, Relation.EqvGen (Joined H root) x y → F x = F y
  /-- an edge from a variable node to an operation -/
  fromVar : ∀ a op, G.Edge a op → (H op).kind = .op → ∃ path m, OAt H root path m ∧ m.Needs H op ∧ ∃ x ∈ (H op).deps, Relation.EqvGen (Joined H root) a x
  /-- an edge from an operation -/
  fromOp : ∀ op b, G.Edge op b → (H op).kind = .op → b ∈ (H op).outs

theorem obj_quotient (hok : ObjectsOk H n root) (hf : Enough H n fuel root) {order : List Nat → List Nat} (ho : ∀ l x, x ∈ order l ↔ x ∈ l) (hno : NoChain (root.toModel H))
    {r : Res} (hr : resolve (root.toModel H) none = .ok r) (hg : root.graphs H fuel = .ok (g, kids)) {d : NodeMaps} {G : Graph} {done : Dict Nat Nat}
    (hflat : constructFlat H.info order r.p2u (createReverseMap r.p2u) g kids (collectConnections (root.toModel H) []) = .ok (d, G, done)) : ∃ F, ObjQuotient H root G F := by
  have hk := hierOk_objects hok hf hg
  have hb := bipartite_objects hok hf hg
  have hrep := represents_objects hok hf hg
  have hnd := nodesOk_objects hok hf hg
  obtain ⟨f, q⟩ := flat_quotient (root.toModel H) hok.dotFree (distinctSources_objects hok) r hr H.info g kids hk hb hrep hnd order ho _ _ _ hflat hno
  obtain ⟨ρ, hρ⟩ := exists_standsFor hok hf hg
  have hnamed := named_node hok hf hg hρ
  have hnamed' := node_named hok hf hg
  have hout := op_results hok hf hg hρ
  have hdep := op_args hok
  have hconn : ∀ path m, OAt H root path m → ∃ subs, At (root.toModel H) path (.mk (m.loc H) subs) ∧ (m.loc H).connections = m.connections := by
    intro path m h
    have := h.toAt
    rw [OModel.toModel_eq H m] at this
    exact ⟨_, this, by cases m; rfl⟩
  -- variables that are used and the nodes that stand for them are joined
  have hjoin : ∀ path m, OAt H root path m → ∀ x, m.Uses H x → Relation.EqvGen (Joined H root) x (ρ x) := by
    intro path m h x hx
    obtain ⟨g', ks', b1, b2, b3⟩ := oat_graphOf hok hf hg h
    obtain ⟨a1, a2, a3, a4, a5⟩ := (hρ path m h x hx).at hok hf h b3 hg hx
    by_cases hd : x ∈ m.declared
    · have hxv : x ∈ m.vars := by simp [OModel.vars, hd]
      have hrv : ρ x ∈ m.vars := by simp [OModel.vars, a5 hd]
      obtain ⟨k, p, hp, _⟩ := promoted_var hok h hxv
      have hkr := ((hok.models path m h).declaredRole _ (a5 hd)).1
      exact .rel _ _ (.name p ⟨path, m, k, _, h, hxv, hx, hp, rfl⟩ ⟨path, m, k, _, h, hrv, uses_of_var hok h b2 a1 (by rw [hkr]; simp), hp, a2.symm⟩)
    · rw [a4 hd]; exact .refl _
  have hleast : ∀ x, IsVarOf H.info g kids x → Relation.EqvGen (Joined H root) (f x) x := by
    intro x hx
    refine Quot.eqvGen_exact (q.least (Quot (Joined H root)) (Quot.mk _) ?_ ?_ x hx)
    · intro x y p h1 h2
      exact Quot.sound (.name p (hnamed' x p h1) (hnamed' y p h2))
    · intro path l subs a b p p' hat hab hp hp' x y h1 h2
      obtain ⟨m, h3, h4⟩ := OAt.ofAt hat
      rw [OModel.toModel_eq] at h4
      cases h4
      have hl : (m.loc H).connections = m.connections := by cases m; rfl
      exact Quot.sound (.connection path m a b p p' h3 (by rw [← hl]; exact hab) hp hp' (hnamed' x p h1) (hnamed' y p' h2))
  refine ⟨fun x => f (ρ x), q.wf, q.bipartite, ?_, ?_, ?_, ?_⟩
  · intro path m op h hn hop x hx y hy
    obtain ⟨u1, e1, e2, g', ks', h1, h2⟩ := hout path m h op hn hop y hy
    obtain ⟨b1, b2, b3⟩ := hdep path m h op hn hop x hx
    obtain ⟨g'', ks'', c1, c2, c3⟩ := oat_graphOf hok hf hg h
    obtain ⟨a1, a2, _⟩ := (hρ path m h x b1).at hok hf h c3 hg b1
    have hop1 : op ∈ g''.nodes := by
      have hyU : m.Uses H op := by
        have hny : m.Needs H y := .out _ _ hn hop hy
        exact Or.inr ⟨hn, op, ⟨hn, y, hny, Or.inr (Or.inr ⟨hop, hy⟩)⟩, rfl⟩
      have := ((hρ path m h op hyU).at hok hf h c3 hg hyU).1
      rwa [e2] at this
    have hfy := q.results path g' ks' op y h1 h2 hop
    refine ⟨(q.edges _ _).2 ⟨path, g'', ks'', ρ x, op, c1, c2.edge x op b3 hn (Or.inl hx) _ a1 op hop1 a2 rfl, rfl, q.ops op hop⟩, ?_, by rw [e1, hfy]⟩
    exact (q.edges _ _).2 ⟨path, g', ks', op, y, h1, h2, q.ops op hop, hfy⟩
  · intro x y hxy
    induction hxy with
    | refl x => rfl
    | symm x y _ ih => exact ih.symm
    | trans x y z _ _ ih1 ih2 => exact ih1.trans ih2
    | rel x y hxy =>
      cases hxy with
      | name p h1 h2 => exact q.shared _ _ p (hnamed x p h1) (hnamed y p h2)
      | connection path m a b p p' h hab hp hp' h1 h2 =>
        obtain ⟨subs, h3, h4⟩ := hconn path m h
        exact q.connected path _ subs a b p p' h3 (by rw [h4]; exact hab) hp hp' _ _ (hnamed x p h1) (hnamed y p' h2)
  · intro a op he hop
    obtain ⟨path, g1, ks1, u, v, hp, he1, rfl, hv⟩ := (q.edges a op).1 he
    obtain ⟨m, h1, h2, h3⟩ := hier_graphOf hok hf hg hp
    obtain ⟨u0, v0, hu, hv0, hd, e1, e2, e3, e4, e5, e6⟩ := h2.edges u v he1
    have hvop : (H v).kind = .op := by
      rcases hb path g1 ks1 hp u v he1 with ⟨_, k2⟩ | ⟨_, k2⟩
      · exact k2
      · have := (q.vars v ⟨path, g1, ks1, hp, h2.wf.right _ _ he1, k2⟩).2
        rw [hv] at this
        have hop' : (H.info op).kind = .op := hop
        rw [hop'] at this; cases this
    rw [q.ops v hvop] at hv
    subst hv
    have := e6 (by rw [← e4]; exact hvop)
    subst this
    have hk2 := link_kinds (hok.models path m h1) hu hv0 hd
    rcases hk2 with ⟨k1, _, k3⟩ | ⟨_, k2, _⟩
    · refine ⟨path, m, h1, hv0, u0, k3, ?_⟩
      have hu0 := (hdep path m h1 v hv0 hop u0 k3).1
      obtain ⟨a1, a2, a3, _⟩ := (hρ path m h1 u0 hu0).at hok hf h1 h3 hg hu0
      have hu2 : ρ u0 = u := h2.byName _ a1 u (h2.wf.left _ _ he1) (by rw [a2, e1])
      have h4 := hjoin path m h1 u0 hu0
      rw [hu2] at h4
      refine .trans _ _ _ (hleast u ⟨path, g1, ks1, hp, h2.wf.left _ _ he1, ?_⟩) (.symm _ _ h4)
      show (H u).kind = .var
      rw [e3, k1]
    · rw [hop] at k2; cases k2
  · intro op b he hop
    obtain ⟨path, g1, ks1, u, v, hp, he1, hu, rfl⟩ := (q.edges op b).1 he
    obtain ⟨m, h1, h2, h3⟩ := hier_graphOf hok hf hg hp
    have huop : (H u).kind = .op := by
      rcases hb path g1 ks1 hp u v he1 with ⟨k1, _⟩ | ⟨k1, _⟩
      · have := (q.vars u ⟨path, g1, ks1, hp, h2.wf.left _ _ he1, k1⟩).2
        rw [hu] at this
        have hop' : (H.info op).kind = .op := hop
        rw [hop'] at this; cases this
      · exact k1
    rw [q.ops u huop] at hu
    subst hu
    rw [q.results path g1 ks1 u v hp he1 huop]
    exact (edge_from_op hok h1 h2 he1 huop).2.1

/-- the graph has a cycle iff the model has -/
theorem ObjQuotient.cyclic {G : Graph} {F : Nat → Nat} (q : ObjQuotient H root G F) : G.Cyclic ↔ Circular H root := by
  constructor
  · rintro ⟨v, hv⟩
    -- a variable on the cycle
    have hvar : ∃ z, (H z).kind = .var ∧ Relation.TransGen G.Edge z z := by
      obtain ⟨w, h1, h2⟩ := Relation.TransGen.head'_iff.1 hv
      rcases q.bipartite v w h1 with ⟨k1, _⟩ | ⟨_, k2⟩
      · exact ⟨v, k1, hv⟩
      · exact ⟨w, k2, Relation.TransGen.tail' h2 h1⟩
    obtain ⟨z, hz, hc⟩ := hvar
    refine ⟨z, ?_⟩
    have key : ∀ b, Relation.TransGen G.Edge z b →
        ((H b).kind = .var → Relation.TransGen (fun a b => ∃ a', Relation.EqvGen (Joined H root) a a' ∧ Affects H root a' b) z b) ∧
        ((H b).kind = .op → ∃ c, Relation.ReflTransGen (fun a b => ∃ a', Relation.EqvGen (Joined H root) a a' ∧ Affects H root a' b) z c ∧
          ∃ path m, OAt H root path m ∧ m.Needs H b ∧ ∃ x ∈ (H b).deps, Relation.EqvGen (Joined H root) c x) := by
      intro b hb
      induction hb with
      | @single b he =>
        constructor
        · intro hk
          rcases q.bipartite z b he with ⟨_, k2⟩ | ⟨k1, _⟩
          · rw [show (H.info b).kind = (H b).kind from rfl, hk] at k2; cases k2
          · rw [show (H.info z).kind = (H z).kind from rfl, hz] at k1; cases k1
        · intro hk
          exact ⟨z, .refl, q.fromVar z b he hk⟩
      | @tail b c _ he ih =>
        constructor
        · intro hk
          have hbop : (H b).kind = .op := by
            rcases q.bipartite b c he with ⟨_, k2⟩ | ⟨k1, _⟩
            · rw [show (H.info c).kind = (H c).kind from rfl, hk] at k2; cases k2
            · exact k1
          obtain ⟨w, h1, path, m, h2, h3, x, hx, h4⟩ := ih.2 hbop
          exact Relation.TransGen.tail' h1 ⟨x, h4, path, m, b, h2, h3, hbop, hx, q.fromOp b c he hbop⟩
        · intro hk
          have hbv : (H b).kind = .var := by
            rcases q.bipartite b c he with ⟨k1, _⟩ | ⟨_, k2⟩
            · exact k1
            · rw [show (H.info c).kind = (H c).kind from rfl, hk] at k2; cases k2
          exact ⟨b, (ih.1 hbv).to_reflTransGen, q.fromVar b c he hk⟩
    exact (key z hc).1 hz
  · rintro ⟨x, hx⟩
    have key : ∀ y, Relation.TransGen (fun a b => ∃ a', Relation.EqvGen (Joined H root) a a' ∧ Affects H root a' b) x y → Relation.TransGen G.Edge (F x) (F y) := by
      have step : ∀ a b, (∃ a', Relation.EqvGen (Joined H root) a a' ∧ Affects H root a' b) → Relation.TransGen G.Edge (F a) (F b) := by
        rintro a b ⟨a', h1, path, m, op, h2, h3, h4, h5, h6⟩
        obtain ⟨e1, e2, e3⟩ := q.into path m op h2 h3 h4 a' h5 b h6
        rw [q.joined _ _ h1, e3]
        exact .tail (.single e1) e2
      intro y hy
      induction hy with
      | single h => exact step _ _ h
      | tail _ h ih => exact ih.trans (step _ _ h)
    exact ⟨F x, key x hx⟩

end

/-- **C71.** If the representation of a hierarchy of model objects is built, no variable is computed from itself; and if building it ends in the error of the sorting of the graph ("cycle"),
some variable is computed from itself - through operations of any models, promotions and connections. -/
theorem C71_cycle_reported (H : Objs) (n fuel : Nat) (root : OModel) (hok : ObjectsOk H n root) (hf : ∀ path m, OAt H root path m → (m.outputs ++ m.declared).length + n ≤ fuel)
    (order : List Nat → List Nat) (ho : ∀ l x, x ∈ order l ↔ x ∈ l) (hno : NoChain (root.toModel H)) :
    (∀ rep, compile H fuel order root = .ok rep → ¬ Circular H root) ∧ (∀ e, compile H fuel order root = .error (.sort e) → Circular H root) := by
  constructor
  · intro rep hc
    obtain ⟨r, g, kids, hr, hg, hflat, hsort, _⟩ := compile_ok hc
    obtain ⟨F, q⟩ := obj_quotient hok hf ho hno hr hg hflat
    rw [← q.cyclic]
    intro hcyc
    have := ((C24_sorted_iff_acyclic rep.graph q.wf).2.1).2 hcyc
    rw [hsort] at this; cases this
  · intro e hc
    unfold compile at hc
    have split : ∀ {ε α : Type} {f : ε → BuildErr} {x : Except ε α} {k : α → Except BuildErr Rep}, (∀ e', f e' ≠ .sort e) → (raises f x >>= k) = .error (.sort e) → ∃ a, x = .ok a ∧ k a = .error (.sort e) := by
      intro ε α f x k hne h
      cases x with
      | ok a => exact ⟨a, rfl, h⟩
      | error e' =>
        have : f e' = .sort e := by
          have h' : (Except.error (f e') : Except BuildErr Rep) = .error (.sort e) := h
          injection h'
        exact absurd this (hne e')
    obtain ⟨r, hr, hc⟩ := split (by intro e'; exact nofun) hc
    obtain ⟨_, _, hc⟩ := split (by intro e'; exact nofun) hc
    obtain ⟨_, _, hc⟩ := split (by intro e'; exact nofun) hc
    obtain ⟨_, _, hc⟩ := split (by intro e'; exact nofun) hc
    obtain ⟨_, _, hc⟩ := split (by intro e'; exact nofun) hc
    obtain ⟨gk, hg, hc⟩ := split (by intro e'; exact nofun) hc
    obtain ⟨f, hflat, hc⟩ := split (by intro e'; exact nofun) hc
    obtain ⟨F, q⟩ := obj_quotient hok hf ho hno hr hg hflat
    rw [← q.cyclic]
    cases hs : flatSort f.2.1 with
    | ok l => rw [hs] at hc; cases hc
    | error e' =>
      obtain ⟨_, h2, h3⟩ := C24_sorted_iff_acyclic f.2.1 q.wf
      cases e' with
      | key => exact h2.1 hs
      | value => exact absurd hs h3

/-! A circular hierarchy that meets the hypotheses: one model declares `w` (0), which operation 1 maps to the output `y` (2), and connects `y` to `w`. -/

def exLoop : Objs := fun i => match i with
  | 0 => { kind := .var, name := "w".toList, auto := "_0000".toList }
  | 1 => { kind := .op, name := "_0001".toList, deps := [0], outs := [2] }
  | 2 => { kind := .var, name := "y".toList, auto := "_0002".toList, role := .output, deps := [1] }
  | _ => { kind := .var, name := "_0009".toList }

def exLoopRoot : OModel := .mk [] [2] [0] [("y".toList, "w".toList)] [] [] none .nil

theorem exLoop_oat {path m} (h : OAt exLoop exLoopRoot path m) : path = [] ∧ m = exLoopRoot := by
  cases h with
  | here => exact ⟨rfl, rfl⟩
  | @down _ s path m' hs h => simp [exLoopRoot, OModel.subs, OSubs.toList] at hs

theorem exLoop_needs {c : Nat} (h : exLoopRoot.Needs exLoop c) : c ∈ [0, 1, 2] := Needed.sub (S := [0, 1, 2]) (by decide) (by decide) (by decide) h

theorem exLoop_ok : ObjectsOk exLoop 3 exLoopRoot := by
  refine ⟨?_, dotFree_of (by decide), ?_, ?_⟩
  · intro path m h
    obtain ⟨_, rfl⟩ := exLoop_oat h
    refine ⟨⟨by decide, by decide, by decide⟩, ⟨?_, by decide, ?_, ?_⟩, ?_, by decide, by decide, by decide, ?_, ?_, by decide, ?_, by decide, by decide⟩
    · intro c hc
      have : ∀ c ∈ [0, 1, 2], (exLoop.heap c).kind ≠ .model := by decide
      exact this c (exLoop_needs hc)
    · intro a b ha hb
      have : ∀ a ∈ [0, 1, 2], ∀ b ∈ [0, 1, 2], (exLoop.heap a).name = (exLoop.heap b).name → (exLoop.heap a).kind = .op → a = b := by decide
      have hin : ∀ c, (Needed exLoop.heap (exLoopRoot.outputs ++ exLoopRoot.declared) c ∨ c ∈ exLoopRoot.inputs) → c ∈ [0, 1, 2] := by
        rintro c (h | h)
        · exact exLoop_needs h
        · simp [exLoopRoot, OModel.inputs] at h
      exact this a (hin a ha) b (hin b hb)
    · intro s hs; simp [exLoopRoot, OModel.subs, OSubs.toList] at hs
    · intro s hs; simp [exLoopRoot, OModel.subs, OSubs.toList] at hs
    · intro c hc
      have : ∀ c ∈ [0, 1, 2], (exLoop c).kind = .var → ∀ u ∈ (exLoop c).deps, (exLoop u).kind = .op ∧ c ∈ (exLoop u).outs := by decide
      exact this c (exLoop_needs hc)
    · intro c hc
      have : ∀ c ∈ [0, 1, 2], (exLoop c).kind = .op → (∀ u ∈ (exLoop c).deps, (exLoop u).kind = .var) ∧ ∀ v ∈ (exLoop c).outs, (exLoop v).kind = .var ∧ (exLoop v).role = .output := by decide
      exact this c (exLoop_needs hc)
    · intro c hc
      have : ∀ c ∈ [0, 1, 2], (exLoop c).kind = .var → c ∉ exLoopRoot.vars → (exLoop c).name = (exLoop c).auto := by decide
      exact this c (exLoop_needs hc)
  · intro path m path' m' h h' c hc hc'
    rw [(exLoop_oat h).1, (exLoop_oat h').1]
  · intro path m h c hc hk hv
    obtain ⟨_, rfl⟩ := exLoop_oat h
    have : ∀ c ∈ [0, 1, 2], (exLoop c).kind = .var → c ∈ exLoopRoot.vars := by decide
    exact absurd (this c (exLoop_needs hc) hk) hv

theorem exLoop_noChain : NoChain (exLoopRoot.toModel exLoop) := by
  obtain ⟨r, hr, _⟩ := ok_of_check (x := resolve (exLoopRoot.toModel exLoop) none) (P := fun _ => true) (by decide)
  have hiss : issuedPost Local.connections (exLoopRoot.toModel exLoop) = [([], "y".toList, "w".toList)] := by decide
  constructor
  · intro i hi p h1 h2
    rw [hiss, List.mem_singleton] at hi
    subst hi
    have e1 := C09_denotation_unique (exLoopRoot.toModel exLoop) exLoop_ok.dotFree r hr _ _ _ h1
      (Denotes.promoted (path := []) (k := .source) (v := ⟨"y".toList, [1]⟩) (.here (v := ⟨"y".toList, [1]⟩) (by decide)))
    have e2 := C09_denotation_unique (exLoopRoot.toModel exLoop) exLoop_ok.dotFree r hr _ _ _ h2
      (Denotes.promoted (path := []) (k := .target) (v := ⟨"w".toList, [1]⟩) (.here (v := ⟨"w".toList, [1]⟩) (by decide)))
    rw [e1] at e2
    exact absurd e2 (by decide)
  · rw [hiss]; exact List.pairwise_singleton _ _

/-- the loop is reported, and it is one by C71; the hierarchy of C70 is compiled, so it has none -/
example : (∃ e, compile exLoop 10 id exLoopRoot = .error (.sort e)) ∧ Circular exLoop exLoopRoot ∧ ¬ Circular exObj exObjRoot := by
  have h1 : ∃ e, compile exLoop 10 id exLoopRoot = .error (.sort e) := by
    have : (match compile exLoop 10 id exLoopRoot with | .error (.sort _) => true | _ => false) = true := by decide
    revert this
    cases compile exLoop 10 id exLoopRoot with
    | ok a => intro h; cases h
    | error e => cases e <;> intro h <;> first | cases h; done | exact ⟨_, rfl⟩
  refine ⟨h1, ?_, ?_⟩
  · obtain ⟨e, he⟩ := h1
    refine (C71_cycle_reported exLoop 3 10 exLoopRoot exLoop_ok ?_ id (by simp) exLoop_noChain).2 e he
    intro path m h
    obtain ⟨_, rfl⟩ := exLoop_oat h
    decide
  · obtain ⟨rep, hrep, _⟩ := ok_of_check (x := compile exObj 10 id exObjRoot) (P := fun _ => true) (by decide)
    refine (C71_cycle_reported exObj 8 10 exObjRoot exObj_ok ?_ id (by simp) (by rw [exObj_model]; exact exEnd_noChain)).1 rep hrep
    intro path m h
    rcases exObj_oat h with ⟨_, rfl⟩ | ⟨_, rfl⟩ <;> decide

end Csdl
