import Verif.Spec.EndToEnd
import Verif.Props.Connect
import Verif.Props.Collect
import Verif.Props.Graph
import Verif.Spec.Lookup
/-!
# C61: executing the representation solves the model
-/
namespace Csdl

section
variable {m : Model} {r : Res} {I : NHeap} {g : Graph} {kids : Kids} {st : FState}

theorem isVarOf_flat (hk : HierOk g kids) (hn : NodesOk I g kids) {p2u u2p} (h : flatten I p2u u2p g kids = .ok st) {x : Nat} :
    (x ∈ st.graph.nodes ∧ (I x).kind = .var) ↔ IsVarOf I g kids x := by
  obtain ⟨_, h2, _⟩ := C29_flat_graph_exact I p2u u2p g kids st hk h
  constructor
  · rintro ⟨hx, hv⟩
    obtain ⟨path, g', ks', hp, hm, _⟩ := (h2 x).1 hx
    exact ⟨path, g', ks', hp, hm, hv⟩
  · rintro ⟨path, g', ks', hp, hm, hv⟩
    refine ⟨(h2 x).2 ⟨path, g', ks', hp, hm, fun hc => ?_⟩, hv⟩
    have := hn.models path g' ks' hp x hc
    rw [hv] at this; cases this

theorem edge_flat (hk : HierOk g kids) (hb : AllBipartite I g kids) (hn : NodesOk I g kids) {p2u u2p} (h : flatten I p2u u2p g kids = .ok st) {a b : Nat} :
    st.graph.Edge a b ↔ ∃ path g' ks', HierAt g kids path g' ks' ∧ g'.Edge a b := by
  obtain ⟨_, _, h3⟩ := C29_flat_graph_exact I p2u u2p g kids st hk h
  rw [h3]
  constructor
  · rintro ⟨path, g', ks', hp, he, _⟩; exact ⟨path, g', ks', hp, he⟩
  · rintro ⟨path, g', ks', hp, he⟩
    refine ⟨path, g', ks', hp, he, fun hc => ?_, fun hc => ?_⟩ <;>
    · have := hn.models path g' ks' hp _ hc
      rcases hb path g' ks' hp a b he with ⟨h1, h2⟩ | ⟨h1, h2⟩
      all_goals first | (rw [h1] at this; cases this) | (rw [h2] at this; cases this)

theorem hasPromotedName_pname (hd : DotFree m) (hr : resolve m none = .ok r) (hk : HierOk g kids)
    (h : flatten I r.p2u (createReverseMap r.p2u) g kids = .ok st) {x : Nat} {p : Name} (hx : HasPromotedName m I g kids x p) :
    st.pname I x = p := by
  obtain ⟨path, g', ks', k, w, hp, hm, hv, hw, hn⟩ := hx
  exact (C29_names_partial m hd r hr I g kids st hk h path g' ks' hp x hm hv k w p hw hn).1

theorem HasPromotedName.isVarOf {x p} (h : HasPromotedName m I g kids x p) : IsVarOf I g kids x := by
  obtain ⟨path, g', ks', k, w, hp, hm, hv, _⟩ := h
  exact ⟨path, g', ks', hp, hm, hv⟩

theorem nodeFor_denotes (hr : resolve m none = .ok r) {G : Graph} {x : Name} {v : Nat} (h : NodeFor I st r.p2u G x v) : Denotes m x (st.pname I v) := by
  obtain ⟨_, _, _, us, hus, hx⟩ := h
  obtain ⟨c1, c2⟩ := C03_promotion_map_exact m r hr
  have hne := c2 _ _ hus
  rcases hx with rfl | hx
  · cases us with
    | nil => exact absurd rfl hne
    | cons u us =>
      obtain ⟨path, k, w, hw, _⟩ := (c1 (st.pname I v) u).1 ⟨_, hus, by simp⟩
      exact .promoted hw
  · obtain ⟨path, k, w, hw, rfl⟩ := (c1 (st.pname I v) x).1 ⟨_, hus, hx⟩
    exact .full hw

theorem sameName_cases (hd : DotFree m) (hr : resolve m none = .ok r) (hk : HierOk g kids) (hrep : Represents m I g kids)
    (h : flatten I r.p2u (createReverseMap r.p2u) g kids = .ok st) {x y : Nat} (hx : x ∈ st.graph.nodes) (hvx : (I x).kind = .var)
    (hy : y ∈ st.graph.nodes) (hvy : (I y).kind = .var) (hn : st.pname I x = st.pname I y) :
    x = y ∨ (∃ p, HasPromotedName m I g kids x p ∧ HasPromotedName m I g kids y p) ∨ ((I x).role ≠ .declared ∧ (I y).role ≠ .declared) := by
  obtain ⟨path, g1, k1, p1, m1, u1, good1, c1⟩ := flat_var hd hr hk hrep h hx hvx
  obtain ⟨path', g2, k2, p2, m2, u2, good2, c2⟩ := flat_var hd hr hk hrep h hy hvy
  rcases c1 with ⟨e1, n1⟩ | ⟨e1, k, w, hw, nw, kr⟩ <;> rcases c2 with ⟨e2, n2⟩ | ⟨e2, k', w', hw', nw', kr'⟩
  · rcases hrep.autoOnce _ _ _ _ _ _ p1 p2 x m1 y m2 hvx hvy e1 e2 (by rw [← n1, ← n2, hn]) with h' | h'
    · exact Or.inl h'
    · exact Or.inr (Or.inr h'.2)
  · obtain ⟨f1, f2⟩ := hrep.autoFree _ _ _ p1 x m1 hvx e1
    exact absurd (n1.symm.trans hn) (auto_ne_promoted hd f1 f2 hw')
  · obtain ⟨f1, f2⟩ := hrep.autoFree _ _ _ p2 y m2 hvy e2
    exact absurd (n2.symm.trans hn.symm) (auto_ne_promoted hd f1 f2 hw)
  · exact Or.inr (Or.inl ⟨st.pname I x, ⟨path, g1, k1, k, w, p1, m1, hvx, hw, nw⟩, ⟨path', g2, k2, k', w', p2, m2, hvy, hn ▸ hw', nw'⟩⟩)

theorem hasPromotedName_of_named (hd : DotFree m) (hr : resolve m none = .ok r) (hk : HierOk g kids) (hrep : Represents m I g kids)
    (h : flatten I r.p2u (createReverseMap r.p2u) g kids = .ok st) {x : Nat} (hx : x ∈ st.graph.nodes) (hvx : (I x).kind = .var) (hnm : (I x).name ≠ (I x).auto) :
    HasPromotedName m I g kids x (st.pname I x) := by
  obtain ⟨path, g1, k1, p1, m1, u1, good1, c1⟩ := flat_var hd hr hk hrep h hx hvx
  rcases c1 with ⟨e1, n1⟩ | ⟨e1, k, w, hw, nw, kr⟩
  · exact absurd e1 hnm
  · exact ⟨path, g1, k1, k, w, p1, m1, hvx, hw, nw⟩

theorem named_of_promoted (hd : DotFree m) (hr : resolve m none = .ok r) (hk : HierOk g kids) (hrep : Represents m I g kids)
    (h : flatten I r.p2u (createReverseMap r.p2u) g kids = .ok st) {x : Nat} (hx : x ∈ st.graph.nodes) (hvx : (I x).kind = .var) {path : List Name} {k : VarKind} {w : VarInfo} {p : Name}
    (hw : PromotedAs m path k w p) (hn : st.pname I x = p) : (I x).name ≠ (I x).auto := by
  intro e
  obtain ⟨path, g1, k1, p1, m1, u1, good1, c1⟩ := flat_var hd hr hk hrep h hx hvx
  rcases c1 with ⟨e1, n1⟩ | ⟨e1, _⟩
  · obtain ⟨f1, f2⟩ := hrep.autoFree _ _ _ p1 x m1 hvx e1
    exact auto_ne_promoted hd f1 f2 hw (n1.symm.trans hn)
  · exact e1 e

theorem mergeConnections_index {I : NHeap} {st : FState} {p2u : Dict Name (List Name)} {u2p : Dict Name Name} {g : Graph} {cs : List (Name × Name × Name)} {d : NodeMaps} {g' : Graph} {done : Dict Nat Nat}
    (h : mergeConnections I st p2u u2p g cs = .ok (d, g', done)) : indexNodes I st p2u u2p g g.nodes {} = .ok d := by
  unfold mergeConnections at h
  cases h1 : indexNodes I st p2u u2p g g.nodes {} with
  | error e => rw [h1] at h; cases h
  | ok d1 =>
    rw [h1] at h; dsimp only at h
    cases h2 : mergeConnectionList I d1 cs (g, []) with
    | error e => rw [h2] at h; cases h
    | ok acc => rw [h2] at h; cases h; rfl

end

/-- following connections: what holds of variables that are no targets, and is passed on from sources to targets -/
theorem follow_sources {L : List (Nat × Nat)} (hno : NoReuse L) {f : Nat → Nat} (h1 : ∀ x, (∀ e ∈ L, e.2 ≠ x) → f x = x) (h2 : ∀ e ∈ L, f e.2 = f e.1)
    {Q : Nat → Nat → Prop} (hrefl : ∀ e ∈ L, (∀ e' ∈ L, e'.2 ≠ e.1) → Q e.1 e.1) (hstep : ∀ e ∈ L, ∀ z, Q e.1 z → Q e.2 z) : ∀ e ∈ L, Q e.1 (f e.1) ∧ Q e.2 (f e.2) := by
  have key : ∀ suf pre, L = pre ++ suf → ∀ e ∈ suf, Q e.1 (f e.1) := by
    intro suf
    induction suf with
    | nil => intro _ _ e he; cases he
    | cons e suf ih =>
      intro pre hL e1 he1
      have ihs := ih (pre ++ [e]) (by rw [hL]; simp)
      rcases List.mem_cons.1 he1 with rfl | he1
      · have hin : e1 ∈ L := by rw [hL]; simp
        by_cases ht : ∀ e' ∈ L, e'.2 ≠ e1.1
        · rw [h1 _ ht]; exact hrefl _ hin ht
        · push Not at ht
          obtain ⟨e', he', heq⟩ := ht
          have hs : e' ∈ suf := by
            have hp := hno.2
            rw [hL, List.pairwise_append] at hp
            rw [hL] at he'
            rcases List.mem_append.1 he' with h | h
            · exact absurd heq.symm (hp.2.2 e' h e1 (by simp))
            · rcases List.mem_cons.1 h with rfl | h
              · exact absurd heq.symm (hno.1 _ hin)
              · exact h
          have := hstep e' he' _ (ihs e' hs)
          rwa [heq, ← h2 e' he', heq] at this
      · exact ihs e1 he1
  intro e he
  have := key L [] rfl e he
  refine ⟨this, ?_⟩
  rw [h2 e he]; exact hstep e he _ this

/-- The flat graph is the union of the graphs of all models in which variables with the same promoted name, and the ends of connections, are identified, and nothing else is: `f` is the identification. -/
structure FlatQuotient (m : Model) (I : NHeap) (g : Graph) (kids : Kids) (d : NodeMaps) (g' : Graph) (done : Dict Nat Nat) (f : Nat → Nat) : Prop where
  wf : g'.WF
  bipartite : Bipartite I g'
  nodes : ∀ a ∈ g'.nodes, ∃ path g1 ks1, HierAt g kids path g1 ks1 ∧ a ∈ g1.nodes
  edges : ∀ a b, g'.Edge a b ↔ ∃ path g1 ks1 u v, HierAt g kids path g1 ks1 ∧ g1.Edge u v ∧ f u = a ∧ f v = b
  vars : ∀ x, IsVarOf I g kids x → f x ∈ g'.nodes ∧ (I (f x)).kind = .var
  ops : ∀ n, (I n).kind = .op → f n = n
  results : ∀ path g1 ks1 n v, HierAt g kids path g1 ks1 → g1.Edge n v → (I n).kind = .op → f v = v
  shared : ∀ x y p, HasPromotedName m I g kids x p → HasPromotedName m I g kids y p → f x = f y
  connected : ∀ path l subs a b p q, At m path (.mk l subs) → (a, b) ∈ l.connections → Denotes m (fullName path a) p → Denotes m (fullName path b) q →
    ∀ x y, HasPromotedName m I g kids x p → HasPromotedName m I g kids y q → f x = f y
  least : ∀ (V : Type) (σ : Nat → V), (∀ x y p, HasPromotedName m I g kids x p → HasPromotedName m I g kids y p → σ x = σ y) →
    (∀ path l subs a b p q, At m path (.mk l subs) → (a, b) ∈ l.connections → Denotes m (fullName path a) p → Denotes m (fullName path b) q →
      ∀ x y, HasPromotedName m I g kids x p → HasPromotedName m I g kids y q → σ x = σ y) → ∀ x, IsVarOf I g kids x → σ (f x) = σ x
  sources : ∀ x p, HasPromotedName m I g kids x p → (I x).role ≠ .declared → ¬ TargetName m p → f x = x
  kept : ∀ x p, IsVarOf I g kids x → HasPromotedName m I g kids (f x) p → ¬ TargetName m p
  closest : ∀ x, IsVarOf I g kids x → (I (f x)).role = .declared → ∃ path g1 ks1, HierAt g kids path g1 ks1 ∧ f x ∈ g1.nodes ∧
    ∀ path' g2 ks2 t, HierAt g kids path' g2 ks2 → t ∈ g2.nodes → (I t).kind = .var → f t = f x → (I t).role = .declared ∧ max path.length 1 ≤ max path'.length 1 ∧
      (max path'.length 1 = max path.length 1 → (I t).explicit = true → (I (f x)).explicit = true) ∧ (path' = [] → path = [] ∨ (I (f x)).explicit = true)
  found : ∀ x p, HasPromotedName m I g kids x p → ∃ t, d.p2n.get? p = some t ∧ Leads done t (f x) ∧ ∀ path k w, PromotedAs m path k w p → d.u2n.get? (fullName path w.name) = some t
  foundP : ∀ n t, d.p2n.get? n = some t → HasPromotedName m I g kids t n
  foundU : ∀ n t, d.u2n.get? n = some t → ∃ path k w p, PromotedAs m path k w p ∧ n = fullName path w.name ∧ HasPromotedName m I g kids t p

/-- How the identification `f` is made: first by name (`f1`), then by connections (`f2`); `L` are the connections, as pairs of nodes, in the order in which they are processed. -/
structure FlatParts (I : NHeap) (order : List Nat → List Nat) (st : FState) (g' : Graph) (done : Dict Nat Nat) (f f1 f2 : Nat → Nat) (L : List (Nat × Nat)) : Prop where
  comp : ∀ x, f x = f2 (f1 x)
  image1 : IsImage st.graph f1 (mergeAuto I order st)
  fix1 : ∀ x, ¬ IsTarget I st.graph x → f1 x = x
  source1 : ∀ x s, IsTarget I st.graph x → IsSource I st.graph s → st.pname I s = st.pname I x → f1 x = s
  target1 : ∀ x, IsTarget I st.graph x → (∀ s, IsSource I st.graph s → st.pname I s ≠ st.pname I x) →
    (uniqueTargets I st (tgtNodes I (varNodes I st.graph))).get? (st.pname I x) = some (f1 x)
  image2 : IsImage (mergeAuto I order st) f2 g'
  noReuse : NoReuse L
  once : (L.map (·.2)).Nodup
  done : ∀ s t, done.get? t = some s ↔ (s, t) ∈ L
  fix2 : ∀ x, (∀ e ∈ L, e.2 ≠ x) → f2 x = x
  joins : ∀ e ∈ L, f2 e.2 = f2 e.1 ∧ e.2 ∉ g'.nodes
  ends : ∀ e ∈ L, e.1 ∈ (mergeAuto I order st).nodes ∧ (I e.1).kind = .var ∧ e.2 ∈ (mergeAuto I order st).nodes ∧ (I e.2).kind = .var

theorem flat_quotient_parts (m : Model) (hd : DotFree m) (hs : DistinctSources m) (r : Res) (hr : resolve m none = .ok r) (I : NHeap) (g : Graph) (kids : Kids)
    (hk : HierOk g kids) (hb : AllBipartite I g kids) (hrep : Represents m I g kids) (hn : NodesOk I g kids)
    (order : List Nat → List Nat) (ho : ∀ l x, x ∈ order l ↔ x ∈ l) (d : NodeMaps) (g' : Graph) (done : Dict Nat Nat)
    (h : constructFlat I order r.p2u (createReverseMap r.p2u) g kids (collectConnections m []) = .ok (d, g', done)) (hno : NoChain m) :
    ∃ f : Nat → Nat, FlatQuotient m I g kids d g' done f ∧ ∃ st f1 f2 L, flatten I r.p2u (createReverseMap r.p2u) g kids = .ok st ∧ FlatParts I order st g' done f f1 f2 L ∧
      L.length = (issuedPost Local.connections m).length ∧
      ∀ e ∈ L, ∃ path l subs a b p q, At m path (.mk l subs) ∧ (a, b) ∈ l.connections ∧ Denotes m (fullName path a) p ∧ Denotes m (fullName path b) q ∧
        HasPromotedName m I g kids e.1 p ∧ HasPromotedName m I g kids e.2 q := by
  unfold constructFlat at h
  cases hf : flatten I r.p2u (createReverseMap r.p2u) g kids with
  | error e => rw [hf] at h; cases h
  | ok st =>
  rw [hf] at h; dsimp only at h
  obtain ⟨f1, i1, k1, k2, k3, k4⟩ := C30_merge_by_name m hd hs r hr I g kids st hk hb hrep hf order ho
  obtain ⟨mb, mw⟩ := mergeAuto_bipartite ho (flatten_facts hk hf).1 (flat_bipartite hk hb hf)
  obtain ⟨L, c1, c2, c3, cd, c4⟩ := C32_connections_partial I st r.p2u (createReverseMap r.p2u) _ _ mw mb d g' done h
  obtain ⟨q1, q2, _, _, q5⟩ := indexNodes_maps _ (mergeConnections_index h)
  have p03 := C03_promotion_map_exact m r hr
  set M := mergeAuto I order st with hM
  -- names of the ends of the connections
  have hcs := collect_eq m []
  rw [hcs] at c1
  unfold ConnPairs at c1
  rw [List.forall₂_map_left_iff] at c1
  have c1' : List.Forall₂ (fun (i : List Name × Name × Name) (e : Nat × Nat) => (NodeFor I st r.p2u M (fullName i.1 i.2.1) e.1 ∧ NodeFor I st r.p2u M (fullName i.1 i.2.2) e.2))
      (issuedPost Local.connections m) L := by
    refine (forall₂_congr_mem ?_).1 c1
    rintro ⟨path, a, b⟩ hi e
    obtain ⟨l, subs, hat, _⟩ := (mem_issuedPost m path (a, b)).1 hi
    simp only [descend_full hd hat]
  have hreuse : NoReuse L := by
    constructor
    · intro e he heq
      obtain ⟨i, hi, e1, e2⟩ := forall₂_mem_right c1' he
      have d1 := nodeFor_denotes hr e1
      have d2 := nodeFor_denotes hr e2
      rw [heq] at d1
      exact hno.1 i hi _ d1 d2
    · have hp := hno.2
      have : ∀ (is : List (List Name × Name × Name)) (L : List (Nat × Nat)), List.Forall₂ (fun (i : List Name × Name × Name) (e : Nat × Nat) =>
          (NodeFor I st r.p2u M (fullName i.1 i.2.1) e.1 ∧ NodeFor I st r.p2u M (fullName i.1 i.2.2) e.2)) is L →
          is.Pairwise (fun i j => ∀ p, Denotes m (fullName j.1 j.2.1) p → ¬ Denotes m (fullName i.1 i.2.2) p) → L.Pairwise (fun e e' => e'.1 ≠ e.2) := by
        intro is L hL
        induction hL with
        | nil => intro _; exact .nil
        | cons h1 h2 ih =>
          intro hp
          rw [List.pairwise_cons] at hp
          refine .cons ?_ (ih hp.2)
          intro e' he' heq
          obtain ⟨j, hj, e1, _⟩ := forall₂_mem_right h2 he'
          have d1 := nodeFor_denotes hr e1
          have d2 := nodeFor_denotes hr h1.2
          rw [heq] at d1
          exact hp.1 j hj _ d1 d2
      exact this _ _ c1' hp
  obtain ⟨f2, i2, s1, s2⟩ := c4 hreuse
  -- facts about f1
  -- nodes of the merged graph are nodes of the flat graph
  have back1 : ∀ x, x ∈ st.graph.nodes → f1 x ∈ st.graph.nodes := by
    intro x hx
    by_cases ht : IsTarget I st.graph x
    · by_cases hsrc : ∃ s, IsSource I st.graph s ∧ st.pname I s = st.pname I x
      · obtain ⟨s, hs', hns⟩ := hsrc
        rw [k2 x s ht hs' hns]; exact hs'.1
      · exact (k3 x ht (fun s hs' hns => hsrc ⟨s, hs', hns⟩)).1.1
    · rw [k1 x ht]; exact hx
  have mergedFlat : ∀ a ∈ M.nodes, a ∈ st.graph.nodes := by
    intro a ha
    obtain ⟨x, hx, rfl⟩ := (i1.nodes a).1 ha
    exact back1 x hx
  have pname1 : ∀ x, x ∈ st.graph.nodes → (I x).kind = .var → f1 x ∈ M.nodes ∧ (I (f1 x)).kind = .var ∧ st.pname I (f1 x) = st.pname I x := by
    intro x hx hv
    refine ⟨(i1.nodes _).2 ⟨x, hx, rfl⟩, ?_⟩
    by_cases ht : IsTarget I st.graph x
    · by_cases hsrc : ∃ s, IsSource I st.graph s ∧ st.pname I s = st.pname I x
      · obtain ⟨s, hs', hns⟩ := hsrc
        rw [k2 x s ht hs' hns]; exact ⟨hs'.2.1, hns⟩
      · obtain ⟨t1, t2, _⟩ := k3 x ht (fun s hs' hns => hsrc ⟨s, hs', hns⟩)
        exact ⟨t1.2.1, t2⟩
    · rw [k1 x ht]; exact ⟨hv, rfl⟩
  have k4n : ∀ a ∈ M.nodes, ∀ b ∈ M.nodes, (I a).kind = .var → (I b).kind = .var → st.pname I a = st.pname I b → ((I a).name ≠ (I a).auto ∨ (I b).name ≠ (I b).auto ∨ (I a).role = .declared) → a = b := by
    intro a ha b hb' hka hkb hn' hc
    rcases k4 a ha b hb' hka hkb hn' with h' | ⟨e1, e2, e3, _⟩
    · exact h'
    · rcases hc with hc | hc | hc
      · exact absurd e1 hc
      · exact absurd e2 hc
      · exact absurd hc e3
  have nm1 : ∀ a ∈ M.nodes, (I a).kind = .var → ∀ x p, HasPromotedName m I g kids x p → st.pname I a = p → (I a).name ≠ (I a).auto := by
    rintro a ha hka x p ⟨_, _, _, _, _, _, _, _, hw, _⟩ hp
    exact named_of_promoted hd hr hk hrep hf (mergedFlat a ha) hka hw hp
  have same1 : ∀ x y, x ∈ st.graph.nodes → (I x).kind = .var → y ∈ st.graph.nodes → (I y).kind = .var → ∀ p, HasPromotedName m I g kids x p → st.pname I x = st.pname I y → f1 x = f1 y := by
    intro x y hx hvx hy hvy p hp hxy
    obtain ⟨a1, a2, a3⟩ := pname1 x hx hvx
    obtain ⟨b1, b2, b3⟩ := pname1 y hy hvy
    exact k4n _ a1 _ b1 a2 b2 (by rw [a3, b3, hxy]) (Or.inl (nm1 _ a1 a2 x p hp (by rw [a3, hasPromotedName_pname hd hr hk hf hp])))
  have tgtVar : ∀ e ∈ L, e.1 ∈ M.nodes ∧ (I e.1).kind = .var ∧ e.2 ∈ M.nodes ∧ (I e.2).kind = .var := by
    intro e he
    obtain ⟨i, hi, e1, e2⟩ := forall₂_mem_right c1' he
    exact ⟨e1.1, e1.2.1, e2.1, e2.2.1⟩
  -- f2 keeps kinds: image of a variable is a variable
  have var2 : ∀ x, x ∈ M.nodes → (I x).kind = .var → f2 x ∈ g'.nodes ∧ (I (f2 x)).kind = .var := by
    intro x hx hv
    refine ⟨(i2.nodes _).2 ⟨x, hx, rfl⟩, ?_⟩
    by_cases ht : ∀ e ∈ L, e.2 ≠ x
    · rw [s1 x ht]; exact hv
    · push Not at ht
      obtain ⟨e, he, rfl⟩ := ht
      exact (follow_sources hreuse s1 (fun e he => (s2 e he).1) (Q := fun _ z => (I z).kind = .var) (fun e he _ => (tgtVar e he).2.1) (fun e he z hz => hz) e he).2
  have flatVar := fun x => (isVarOf_flat hk hn hf (x := x))
  have opFix1 : ∀ n, (I n).kind = .op → f1 n = n := by
    intro n hop
    refine k1 n fun ht => ?_
    rw [ht.2.1] at hop; cases hop
  have opFix2 : ∀ n, (I n).kind = .op → f2 n = n := by
    intro n hop
    refine s1 n fun e he heq => ?_
    have := (tgtVar e he).2.2.2
    rw [heq, hop] at this; cases this
  -- outputs of operations stay
  have outFix : ∀ n v, st.graph.Edge n v → (I n).kind = .op → f1 v = v ∧ f2 v = v := by
    intro n v he hop
    have hrole : (I v).role = .output := by
      obtain ⟨path, g1, ks1, hp, he⟩ := (edge_flat hk hb hn hf).1 he
      exact hn.outputs path g1 ks1 hp n v he hop
    have e1 : f1 v = v := k1 v fun ht => by rw [ht.2.2] at hrole; cases hrole
    refine ⟨e1, s1 v fun e he' heq => ?_⟩
    have hM' : M.Edge n v := (i1.edges n v).2 ⟨n, v, he, opFix1 n hop, e1⟩
    rw [← heq] at hM'
    exact (s2 e he').2.2 n hM'
  -- edges of the flat graph
  have edgeIn : ∀ u n, st.graph.Edge u n → g'.Edge (f2 (f1 u)) (f2 (f1 n)) := fun u n he => (i2.edges _ _).2 ⟨_, _, (i1.edges _ _).2 ⟨u, n, he, rfl, rfl⟩, rfl, rfl⟩
  have edgeOut : ∀ a b, g'.Edge a b → ∃ u n, st.graph.Edge u n ∧ f2 (f1 u) = a ∧ f2 (f1 n) = b := by
    intro a b he
    obtain ⟨x, y, he1, rfl, rfl⟩ := (i2.edges a b).1 he
    obtain ⟨u, n, he2, rfl, rfl⟩ := (i1.edges x y).1 he1
    exact ⟨u, n, he2, rfl, rfl⟩
  have flatB := flat_bipartite hk hb hf
  have fvar : ∀ x, x ∈ st.graph.nodes → (I x).kind = .var → f2 (f1 x) ∈ g'.nodes ∧ (I (f2 (f1 x))).kind = .var := fun x hx hv =>
    var2 _ (pname1 x hx hv).1 (pname1 x hx hv).2.1
  have stW := (flatten_facts hk hf).1
  have gB : Bipartite I g' := by
    intro a b he0
    obtain ⟨u, n, he, rfl, rfl⟩ := edgeOut a b he0
    rcases flatB u n he with ⟨h1, h2⟩ | ⟨h1, h2⟩
    · refine Or.inl ⟨(fvar u (stW.left _ _ he) h1).2, ?_⟩
      rw [opFix1 n h2, opFix2 n h2]; exact h2
    · refine Or.inr ⟨?_, (fvar n (stW.right _ _ he) h2).2⟩
      rw [opFix1 u h1, opFix2 u h1]; exact h1
  have sameNode : ∀ x y p, HasPromotedName m I g kids x p → HasPromotedName m I g kids y p → f1 x = f1 y := by
    intro x y p hx hy
    obtain ⟨x1, x2⟩ := (flatVar x).2 hx.isVarOf
    obtain ⟨y1, y2⟩ := (flatVar y).2 hy.isVarOf
    exact same1 x y x1 x2 y1 y2 p hx (by rw [hasPromotedName_pname hd hr hk hf hx, hasPromotedName_pname hd hr hk hf hy])
  have connNode : ∀ path l subs a b p q, At m path (.mk l subs) → (a, b) ∈ l.connections → Denotes m (fullName path a) p → Denotes m (fullName path b) q →
      ∀ x y, HasPromotedName m I g kids x p → HasPromotedName m I g kids y q → ∃ e ∈ L, f1 x = e.1 ∧ f1 y = e.2 := by
    intro path l subs a b p q hat hab hp hq x y hx hy
    obtain ⟨e, he, n1, n2⟩ := forall₂_mem_left c1' ((mem_issuedPost m path (a, b)).2 ⟨l, subs, hat, hab⟩)
    have dn1 := nodeFor_denotes hr n1
    have dn2 := nodeFor_denotes hr n2
    obtain ⟨x1, x2⟩ := (flatVar x).2 hx.isVarOf
    obtain ⟨y1, y2⟩ := (flatVar y).2 hy.isVarOf
    obtain ⟨a1, a2, a3⟩ := pname1 x x1 x2
    obtain ⟨b1, b2, b3⟩ := pname1 y y1 y2
    refine ⟨e, he, k4n _ a1 _ n1.1 a2 n1.2.1 ?_ (Or.inr (Or.inl n1.2.2.1)), k4n _ b1 _ n2.1 b2 n2.2.1 ?_ (Or.inr (Or.inl n2.2.2.1))⟩
    · rw [a3, hasPromotedName_pname hd hr hk hf hx]; exact C09_denotation_unique m hd r hr _ _ _ hp dn1
    · rw [b3, hasPromotedName_pname hd hr hk hf hy]; exact C09_denotation_unique m hd r hr _ _ _ hq dn2
  have inM : ∀ y ∈ M.nodes, f2 y ∈ M.nodes := by
    intro y hy
    by_cases ht : ∀ e ∈ L, e.2 ≠ y
    · rw [s1 y ht]; exact hy
    · push Not at ht
      obtain ⟨e, he, rfl⟩ := ht
      exact (follow_sources hreuse s1 (fun e he => (s2 e he).1) (Q := fun _ z => z ∈ M.nodes) (fun e he _ => (tgtVar e he).1) (fun e he z hz => hz) e he).2
  have hissued : ∀ e ∈ L, ∃ path l subs a b p q, At m path (.mk l subs) ∧ (a, b) ∈ l.connections ∧ Denotes m (fullName path a) p ∧ Denotes m (fullName path b) q ∧
        HasPromotedName m I g kids e.1 p ∧ HasPromotedName m I g kids e.2 q := by
    intro e he
    obtain ⟨⟨path, a, b⟩, hi, n1, n2⟩ := forall₂_mem_right c1' he
    obtain ⟨l, subs, hat, hab⟩ := (mem_issuedPost m path (a, b)).1 hi
    exact ⟨path, l, subs, a, b, _, _, hat, hab, nodeFor_denotes hr n1, nodeFor_denotes hr n2,
      hasPromotedName_of_named hd hr hk hrep hf (mergedFlat _ n1.1) n1.2.1 n1.2.2.1, hasPromotedName_of_named hd hr hk hrep hf (mergedFlat _ n2.1) n2.2.1 n2.2.2.1⟩
  have hparts : FlatParts I order st g' done (fun x => f2 (f1 x)) f1 f2 L := by
    refine ⟨fun _ => rfl, i1, k1, k2, ?_, i2, hreuse, c2, cd, s1, fun e he => ⟨(s2 e he).1, (s2 e he).2.1⟩, tgtVar⟩
    intro x hx hnosrc
    obtain ⟨f', j1, _, _, j4⟩ := mergeAuto_spec ho (flatten_facts hk hf).1 (flat_bipartite hk hb hf) (flat_sources_target hd hs hr hk hrep hf)
    obtain ⟨u1, _, _⟩ := uniqueTargets_spec (I := I) (st := st) (tgtNodes I (varNodes I st.graph))
    have hu := j4 x hx hnosrc
    obtain ⟨w1, w2, _⟩ := u1 _ _ hu
    have w1 := mem_targets.1 w1
    have := k4n (f' x) ((j1.nodes _).2 ⟨x, hx.1, rfl⟩) (f1 x) (pname1 x hx.1 hx.2.1).1 w1.2.1 (pname1 x hx.1 hx.2.1).2.1 (by rw [w2, (pname1 x hx.1 hx.2.1).2.2]) (Or.inr (Or.inr w1.2.2))
    rw [hu, this]
  refine ⟨fun x => f2 (f1 x), ⟨i2.wf, gB, ?_, ?_, fun x hx => fvar x ((flatVar x).2 hx).1 ((flatVar x).2 hx).2, fun n hop => by rw [opFix1 n hop, opFix2 n hop], ?_, ?_, ?_, ?_, ?_, ?_, ?_, ?_, ?_, ?_⟩, st, f1, f2, L, rfl, hparts, c1'.length_eq.symm, hissued⟩
  · intro a ha
    obtain ⟨y, hy, rfl⟩ := (i2.nodes a).1 ha
    have hM' : f2 y ∈ M.nodes := inM y hy
    obtain ⟨path, g1, ks1, hp, hm, _⟩ := ((C29_flat_graph_exact I _ _ g kids st hk hf).2.1 _).1 (mergedFlat _ hM')
    exact ⟨path, g1, ks1, hp, hm⟩
  · intro a b
    constructor
    · intro he
      obtain ⟨u, n, he1, e1, e2⟩ := edgeOut a b he
      obtain ⟨path, g1, ks1, hp, he2⟩ := (edge_flat hk hb hn hf).1 he1
      exact ⟨path, g1, ks1, u, n, hp, he2, e1, e2⟩
    · rintro ⟨path, g1, ks1, u, v, hp, he, rfl, rfl⟩
      exact edgeIn u v ((edge_flat hk hb hn hf).2 ⟨path, g1, ks1, hp, he⟩)
  · intro path g1 ks1 n v hp he hop
    obtain ⟨o1, o2⟩ := outFix n v ((edge_flat hk hb hn hf).2 ⟨path, g1, ks1, hp, he⟩) hop
    rw [o1, o2]
  · intro x y p hx hy
    rw [sameNode x y p hx hy]
  · intro path l subs a b p q hat hab hp hq x y hx hy
    obtain ⟨e, he, e1, e2⟩ := connNode path l subs a b p q hat hab hp hq x y hx hy
    rw [e1, e2, (s2 e he).1]
  · intro V σ hshared hconn x hx
    have eq1 : ∀ x, x ∈ st.graph.nodes → (I x).kind = .var → σ (f1 x) = σ x := by
      intro x hx hv
      obtain ⟨a1, a2, a3⟩ := pname1 x hx hv
      rcases sameName_cases hd hr hk hrep hf (back1 x hx) a2 hx hv a3 with he | ⟨p, h1, h2⟩ | ⟨_, h2⟩
      · rw [he]
      · exact hshared _ _ p h1 h2
      · rw [k1 x fun ht => h2 ht.2.2]
    have eqL : ∀ e ∈ L, σ e.1 = σ e.2 := by
      intro e he
      obtain ⟨⟨path, a, b⟩, hi, n1, n2⟩ := forall₂_mem_right c1' he
      obtain ⟨l, subs, hat, hab⟩ := (mem_issuedPost m path (a, b)).1 hi
      exact hconn path l subs a b _ _ hat hab (nodeFor_denotes hr n1) (nodeFor_denotes hr n2) _ _
        (hasPromotedName_of_named hd hr hk hrep hf (mergedFlat _ n1.1) n1.2.1 n1.2.2.1) (hasPromotedName_of_named hd hr hk hrep hf (mergedFlat _ n2.1) n2.2.1 n2.2.2.1)
    have eq2 : ∀ y, σ (f2 y) = σ y := by
      intro y
      by_cases ht : ∀ e ∈ L, e.2 ≠ y
      · rw [s1 y ht]
      · push Not at ht
        obtain ⟨e, he, rfl⟩ := ht
        exact (follow_sources hreuse s1 (fun e he => (s2 e he).1) (Q := fun a z => σ z = σ a) (fun e he _ => rfl) (fun e he z hz => by rw [hz, eqL e he]) e he).2
    obtain ⟨hx1, hx2⟩ := (flatVar x).2 hx
    rw [eq2, eq1 x hx1 hx2]
  · intro x p hx hrole hnt
    have e1 : f1 x = x := k1 x fun ht => hrole ht.2.2
    show f2 (f1 x) = x
    rw [e1]
    refine s1 x fun e he heq => hnt ?_
    obtain ⟨⟨path, a, b⟩, hi, n1, n2⟩ := forall₂_mem_right c1' he
    obtain ⟨l, subs, hat, hab⟩ := (mem_issuedPost m path (a, b)).1 hi
    refine ⟨path, l, subs, a, b, hat, hab, ?_⟩
    rw [← hasPromotedName_pname hd hr hk hf hx, ← heq]
    exact nodeFor_denotes hr n2
  · rintro x p hx hp ⟨path, l, subs, a, b, hat, hab, hden⟩
    obtain ⟨e, he, n1, n2⟩ := forall₂_mem_left c1' ((mem_issuedPost m path (a, b)).2 ⟨l, subs, hat, hab⟩)
    have dn2 := nodeFor_denotes hr n2
    obtain ⟨x1, x2⟩ := (flatVar x).2 hx
    have hg' := fvar x x1 x2
    have hM' := inM _ (pname1 x x1 x2).1
    refine (s2 e he).2.1 ?_
    rw [← k4n (f2 (f1 x)) hM' e.2 n2.1 hg'.2 n2.2.1 (by rw [hasPromotedName_pname hd hr hk hf hp]; exact C09_denotation_unique m hd r hr _ _ _ hden dn2) (Or.inr (Or.inl n2.2.2.1))]
    exact hg'.1
  · intro x hx hrole
    obtain ⟨x1, x2⟩ := (flatVar x).2 hx
    have hrole : (I (f2 (f1 x))).role = .declared := hrole
    obtain ⟨f1', i1', cl⟩ := C31_closest_partial m hd hs r hr I g kids st hk hb hrep hf order ho
    -- a declared variable is kept only if there is no source
    have hback : ∀ t, t ∈ st.graph.nodes → (I t).kind = .var → (I (f2 (f1 t))).role = .declared →
        f2 (f1 t) = f1 t ∧ IsTarget I st.graph t ∧ ∀ s, IsSource I st.graph s → st.pname I s ≠ st.pname I t := by
      intro t ht htv hrole
      have hsrc2 : ∀ y, (I y).role ≠ .declared → (I (f2 y)).role ≠ .declared := by
        intro y hy
        by_cases ht : ∀ e ∈ L, e.2 ≠ y
        · rw [s1 y ht]; exact hy
        · push Not at ht
          obtain ⟨e, he, rfl⟩ := ht
          refine (follow_sources hreuse s1 (fun e he => (s2 e he).1) (Q := fun _ z => (I z).role ≠ .declared) (fun e he _ => ?_) (fun e he z hz => hz) e he).2
          rcases (c3 e he).1 with h | h <;> rw [h] <;> decide
      have hfix : f2 (f1 t) = f1 t := by
        refine s1 _ fun e he heq => ?_
        rw [← heq] at hrole
        refine absurd hrole (follow_sources hreuse s1 (fun e he => (s2 e he).1) (Q := fun _ z => (I z).role ≠ .declared) (fun e he _ => ?_) (fun e he z hz => hz) e he).2
        rcases (c3 e he).1 with h | h <;> rw [h] <;> decide
      have htt : IsTarget I st.graph t := by
        refine ⟨ht, htv, ?_⟩
        by_contra hne
        have : f1 t = t := k1 t fun h => hne h.2.2
        rw [this] at hrole
        exact hsrc2 t hne hrole
      refine ⟨hfix, htt, fun s hs' hns => ?_⟩
      rw [k2 t s htt hs' hns] at hrole
      exact hsrc2 s (by
        have := hs'.2.2
        intro h; rw [h] at this; simp at this) hrole
    obtain ⟨e1, t1, t2⟩ := hback x x1 x2 hrole
    obtain ⟨b1, b2, b3, path, g1, ks1, hp, hm, hall⟩ := cl x t1 t2
    have e1' : f1' x = f2 (f1 x) := by
      rw [e1]
      obtain ⟨a1, a2, a3⟩ := pname1 x x1 x2
      exact k4n _ b1 _ a1 b2.2.1 a2 (by rw [b3, a3]) (Or.inr (Or.inr b2.2.2))
    rw [e1'] at hm hall
    refine ⟨path, g1, ks1, hp, hm, fun path' g2 ks2 t hp' htm htv hft => ?_⟩
    have hft : f2 (f1 t) = f2 (f1 x) := hft
    obtain ⟨y1, y2⟩ := (flatVar t).2 ⟨path', g2, ks2, hp', htm, htv⟩
    obtain ⟨e2, t3, t4⟩ := hback t y1 y2 (by rw [hft]; exact hrole)
    refine ⟨t3.2.2, hall path' g2 ks2 hp' t htm t3 ?_⟩
    rw [← (pname1 t y1 y2).2.2, ← e2, hft, e1, (pname1 x x1 x2).2.2]
  · intro x p hx
    obtain ⟨x1, x2⟩ := (flatVar x).2 hx.isVarOf
    obtain ⟨a1, a2, a3⟩ := pname1 x x1 x2
    rw [hasPromotedName_pname hd hr hk hf hx] at a3
    obtain ⟨path, g1, ks1, k, w, _, _, _, hw, _⟩ := hx
    have hnm := named_of_promoted hd hr hk hrep hf (back1 x x1) a2 hw a3
    obtain ⟨us, hus, _⟩ := (p03.1 p (fullName path w.name)).2 ⟨path, k, w, hw, rfl⟩
    obtain ⟨e1, e2⟩ := q5 (f1 x) a1 a2 hnm us (by rw [a3]; exact hus)
    rw [a3, Dict.has_iff] at e1
    obtain ⟨t, ht⟩ := Dict.mem_keys_get? e1
    have htx : t = f1 x := by
      rcases q1 p t ht with h | ⟨h1, h2, _, h3⟩
      · simp [Dict.get?] at h
      · exact k4n _ h1 _ a1 h2 a2 (by rw [h3, a3]) (Or.inr (Or.inl hnm))
    subst htx
    refine ⟨f1 x, ht, ?_, fun path' k' w' hw' => ?_⟩
    · show Leads done (f1 x) (f2 (f1 x))
      have hstop : ∀ y, (∀ e ∈ L, e.2 ≠ y) → Leads done y y := by
        intro y hy
        refine .stop ?_
        cases hg : done.get? y with
        | none => rfl
        | some s => exact absurd rfl (hy _ ((cd s y).1 hg))
      by_cases ht : ∀ e ∈ L, e.2 ≠ f1 x
      · rw [s1 _ ht]; exact hstop _ ht
      · push Not at ht
        obtain ⟨e, he, heq⟩ := ht
        rw [← heq]
        exact (follow_sources hreuse s1 (fun e he => (s2 e he).1) (Q := fun y z => Leads done y z) (fun e he h => hstop _ h) (fun e he z hz => .step ((cd e.1 e.2).2 he) hz) e he).2
    · obtain ⟨us', hus', hu⟩ := (p03.1 p (fullName path' w'.name)).2 ⟨path', k', w', hw', rfl⟩
      rw [hus] at hus'; cases hus'
      exact e2 _ hu
  · intro n t ht
    rcases q1 n t ht with h | ⟨h1, h2, h3, rfl⟩
    · simp [Dict.get?] at h
    · exact hasPromotedName_of_named hd hr hk hrep hf (mergedFlat _ h1) h2 h3
  · intro n t ht
    rcases q2 n t ht with h | ⟨h1, h2, h3, us, h4, h5⟩
    · simp [Dict.get?] at h
    · obtain ⟨path, k, w, hw, rfl⟩ := (p03.1 _ n).1 ⟨us, h4, h5⟩
      exact ⟨path, k, w, _, hw, rfl, hasPromotedName_of_named hd hr hk hrep hf (mergedFlat _ h1) h2 h3⟩

theorem flat_quotient (m : Model) (hd : DotFree m) (hs : DistinctSources m) (r : Res) (hr : resolve m none = .ok r) (I : NHeap) (g : Graph) (kids : Kids)
    (hk : HierOk g kids) (hb : AllBipartite I g kids) (hrep : Represents m I g kids) (hn : NodesOk I g kids)
    (order : List Nat → List Nat) (ho : ∀ l x, x ∈ order l ↔ x ∈ l) (d : NodeMaps) (g' : Graph) (done : Dict Nat Nat)
    (h : constructFlat I order r.p2u (createReverseMap r.p2u) g kids (collectConnections m []) = .ok (d, g', done)) (hno : NoChain m) :
    ∃ f : Nat → Nat, FlatQuotient m I g kids d g' done f := by
  obtain ⟨f, q, _⟩ := flat_quotient_parts m hd hs r hr I g kids hk hb hrep hn order ho d g' done h hno
  exact ⟨f, q⟩

/-- C61, with what is known of `f` -/
theorem execution_solves (m : Model) (hd : DotFree m) (hs : DistinctSources m) (r : Res) (hr : resolve m none = .ok r) (I : NHeap) (g : Graph) (kids : Kids)
    (hk : HierOk g kids) (hb : AllBipartite I g kids) (hrep : Represents m I g kids) (hn : NodesOk I g kids)
    (order : List Nat → List Nat) (ho : ∀ l x, x ∈ order l ↔ x ∈ l) (d : NodeMaps) (g' : Graph) (done : Dict Nat Nat)
    (h : constructFlat I order r.p2u (createReverseMap r.p2u) g kids (collectConnections m []) = .ok (d, g', done)) (hno : NoChain m)
    (l : List Nat) (hl : flatSort g' = .ok l) :
    ∃ f : Nat → Nat, FlatQuotient m I g kids d g' done f ∧ (∀ x, IsVarOf I g kids x → f x ∈ g'.nodes ∧ (I (f x)).kind = .var) ∧ (∀ a ∈ g'.nodes, ∃ path g1 ks1, HierAt g kids path g1 ks1 ∧ a ∈ g1.nodes) ∧
      (∀ x y, IsVarOf I g kids x → IsVarOf I g kids y → (f x = f y ↔ Relation.EqvGen (Identified m I g kids) x y)) ∧
      (∀ n y, (I y).kind = .var → (g'.Edge n y ↔ (I n).kind = .op ∧ ∃ path g1 ks1 v, HierAt g kids path g1 ks1 ∧ g1.Edge n v ∧ f v = y)) ∧
      ∀ (V : Type) (O : Interp V), Interprets I g kids O → ∀ σ0 : Env V, ModelSolution m I g kids O (fun x => execAll g' (O.rename f) σ0 l (f x)) ∧
        (∀ x, IsVarOf I g kids x → (∀ n, ¬ g'.Edge n (f x)) → execAll g' (O.rename f) σ0 l (f x) = σ0 (f x)) ∧
        ∀ σ, ModelSolution m I g kids O σ → (∀ x, IsVarOf I g kids x → (∀ n, ¬ g'.Edge n (f x)) → σ x = σ0 (f x)) →
          ∀ x, IsVarOf I g kids x → σ x = execAll g' (O.rename f) σ0 l (f x) := by
  have hone := C33_one_operation_per_variable I order ho _ _ g kids hk hb _ d g' done h
  obtain ⟨f, q⟩ := flat_quotient m hd hs r hr I g kids hk hb hrep hn order ho d g' done h hno
  refine ⟨f, q, q.vars, q.nodes, ?_, ?_, fun V O hO σ0 => ?_⟩
  · have hl : ∀ x, IsVarOf I g kids x → Relation.EqvGen (Identified m I g kids) (f x) x := by
      intro x hx
      refine Quot.eqvGen_exact (q.least (Quot (Identified m I g kids)) (Quot.mk _) ?_ ?_ x hx)
      · intro x y p h1 h2
        exact Quot.sound (.name p h1 h2)
      · intro path l subs a b p p' hat hab hp hp' x y h1 h2
        exact Quot.sound (.connection path l subs a b p p' hat hab hp hp' h1 h2)
    intro x y hx hy
    constructor
    · intro e
      exact .trans _ _ _ (.symm _ _ (hl x hx)) (e ▸ hl y hy)
    · intro e
      clear hx hy
      induction e with
      | rel a b hab =>
        cases hab with
        | name p h1 h2 => exact q.shared a b p h1 h2
        | connection path l subs s t p p' hat hst hp hp' h1 h2 => exact q.connected path l subs s t p p' hat hst hp hp' a b h1 h2
      | refl a => rfl
      | symm a b _ ih => exact ih.symm
      | trans a b c _ _ ih1 ih2 => exact ih1.trans ih2
  · intro n y hy
    constructor
    · intro he
      have hop : (I n).kind = .op := by
        rcases q.bipartite n y he with ⟨_, h2⟩ | ⟨h1, _⟩
        · rw [hy] at h2; cases h2
        · exact h1
      obtain ⟨path, g1, ks1, u, w, hp, he1, hu, hw⟩ := (q.edges n y).1 he
      have hopu : (I u).kind = .op := by
        rcases hb path g1 ks1 hp u w he1 with ⟨h1, _⟩ | ⟨h1, _⟩
        · have := (q.vars u ⟨path, g1, ks1, hp, (hk.wf _ _ _ hp).left _ _ he1, h1⟩).2
          rw [hu, hop] at this; cases this
        · exact h1
      rw [q.ops u hopu] at hu
      subst hu
      exact ⟨hop, path, g1, ks1, w, hp, he1, hw⟩
    · rintro ⟨hop, path, g1, ks1, v, hp, he, rfl⟩
      exact (q.edges _ _).2 ⟨path, g1, ks1, n, v, hp, he, q.ops n hop, rfl⟩
  have isOp' : ∀ n, O.isOp n = false ↔ (I n).kind ≠ .op := by
    intro n
    rw [← Bool.not_eq_true, not_iff_not]; exact hO.isOp n
  have argVar : ∀ path g1 ks1, HierAt g kids path g1 ks1 → ∀ n ∈ g1.nodes, (I n).kind = .op → ∀ x ∈ O.args n, IsVarOf I g kids x ∧ g1.Edge x n := by
    intro path g1 ks1 hp n hm hop x hx
    have he := hO.args path g1 ks1 hp n hm hop x hx
    refine ⟨⟨path, g1, ks1, hp, (hk.wf _ _ _ hp).left _ _ he, ?_⟩, he⟩
    rcases hb path g1 ks1 hp x n he with ⟨h1, _⟩ | ⟨_, h2⟩
    · exact h1
    · rw [hop] at h2; cases h2
  have comp : Computes g' (O.rename f) := by
    refine ⟨?_, ?_, ?_⟩
    · intro u v he
      show O.isOp u ≠ O.isOp v
      rcases q.bipartite u v he with ⟨h1, h2⟩ | ⟨h1, h2⟩
      · rw [(hO.isOp v).2 h2, (isOp' u).2 (by rw [h1]; simp)]; simp
      · rw [(hO.isOp u).2 h1, (isOp' v).2 (by rw [h2]; simp)]; simp
    · intro n hop u hu
      obtain ⟨x, hx, rfl⟩ := List.mem_map.1 hu
      have hop' := (hO.isOp n).1 hop
      by_cases hin : ∃ path g1 ks1, HierAt g kids path g1 ks1 ∧ n ∈ g1.nodes
      · obtain ⟨path, g1, ks1, hp, hm⟩ := hin
        exact (q.edges _ _).2 ⟨path, g1, ks1, x, n, hp, (argVar path g1 ks1 hp n hm hop' x hx).2, rfl, q.ops n hop'⟩
      · have := hO.noArgs n (fun path g1 ks1 hp hm => hin ⟨path, g1, ks1, hp, hm⟩)
        rw [this] at hx; cases hx
    · intro u u' v hu hu' hv
      have hv' : (I v).kind = .var := by
        rcases q.bipartite u v hu with ⟨h1, h2⟩ | ⟨h1, h2⟩
        · change O.isOp v = false at hv; rw [(hO.isOp v).2 h2] at hv; cases hv
        · exact h2
      have hlen := hone v hv'
      have m1 : u ∈ g'.preds v := List.mem_map.2 ⟨(u, v), List.mem_filter.2 ⟨hu, by simp⟩, rfl⟩
      have m2 : u' ∈ g'.preds v := List.mem_map.2 ⟨(u', v), List.mem_filter.2 ⟨hu', by simp⟩, rfl⟩
      unfold Graph.inDegree at hlen
      match hp : g'.preds v, hlen, m1, m2 with
      | [], _, m1, _ => cases m1
      | [x], _, m1, m2 => simp only [List.mem_singleton] at m1 m2; rw [m1, m2]
      | x :: y :: l, hlen, _, _ => simp at hlen
  obtain ⟨sol, uniq, _⟩ := C25_sorted_nodes_compute g' (O.rename f) q.wf comp l hl σ0
  set τ := execAll g' (O.rename f) σ0 l with hτ
  refine ⟨?_, ?_, ?_⟩
  · refine ⟨?_, ?_, ?_⟩
    · intro path g1 ks1 hp n v he hop
      have hge := (q.edges _ _).2 ⟨path, g1, ks1, n, v, hp, he, q.ops n hop, q.results path g1 ks1 n v hp he hop⟩
      rw [q.results path g1 ks1 n v hp he hop, sol.op n v (q.wf.left _ _ hge) ((hO.isOp n).2 hop) hge]
      show O.fn n (((O.args n).map _).map τ) v = _
      rw [List.map_map]; rfl
    · intro x y p hx hy
      rw [q.shared x y p hx hy]
    · intro path l subs a b p p' hat hab hp hq x y hx hy
      rw [q.connected path l subs a b p p' hat hab hp hq x y hx hy]
  · intro x hx hfree
    exact sol.free (f x) fun n _ he => hfree n he
  · intro σ hσ hfree x hx
    have eqf := q.least V σ hσ.shared hσ.connected
    classical
    have hsol : Solution g' (O.rename f) σ0 (fun v => if ∃ a, IsVarOf I g kids a ∧ f a = v then σ v else σ0 v) := by
      constructor
      · intro n v hnn hop he
        have hop' := (hO.isOp n).1 hop
        have hv' : (I v).kind = .var := by
          rcases q.bipartite n v he with ⟨h1, _⟩ | ⟨_, h2⟩
          · rw [hop'] at h1; cases h1
          · exact h2
        obtain ⟨path, g1, ks1, u, w, hp, he1, hu, hw⟩ := (q.edges n v).1 he
        have hopu : (I u).kind = .op := by
          rcases hb path g1 ks1 hp u w he1 with ⟨h1, _⟩ | ⟨h1, _⟩
          · have := (q.vars u ⟨path, g1, ks1, hp, (hk.wf _ _ _ hp).left _ _ he1, h1⟩).2
            rw [hu, hop'] at this; cases this
          · exact h1
        rw [q.ops u hopu] at hu
        subst hu
        rw [q.results path g1 ks1 u w hp he1 hopu] at hw
        subst hw
        rw [if_pos ⟨w, ⟨path, g1, ks1, hp, (hk.wf _ _ _ hp).right _ _ he1, hv'⟩, q.results path g1 ks1 u w hp he1 hopu⟩]
        rw [hσ.ops path g1 ks1 hp u w he1 hopu]
        show _ = O.fn u (((O.args u).map _).map _) w
        rw [List.map_map]
        congr 1
        apply List.map_congr_left
        intro a ha
        have hva := (argVar path g1 ks1 hp u ((hk.wf path g1 ks1 hp).left _ _ he1) hopu a ha).1
        show σ a = if ∃ b, IsVarOf I g kids b ∧ f b = f a then σ (f a) else σ0 (f a)
        rw [if_pos ⟨a, hva, rfl⟩, eqf a hva]
      · intro v hv
        split
        · rename_i hc
          obtain ⟨a, ha, rfl⟩ := hc
          rw [eqf a ha]
          apply hfree a ha
          intro n he
          have hop : (I n).kind = .op := by
            rcases q.bipartite n (f a) he with ⟨_, h2⟩ | ⟨h1, _⟩
            · rw [(q.vars a ha).2] at h2; cases h2
            · exact h1
          exact hv n ((hO.isOp n).2 hop) he
        · rfl
    have := uniq _ hsol
    have h3 := congrFun this (f x)
    rw [if_pos ⟨x, hx, rfl⟩, eqf x hx] at h3
    exact h3

/-- **C61.** Let the representation of a model hierarchy be built without error, and let no connection start at the target of an earlier one.  Then every variable `x` of every
model is represented by a variable node `f x` of the flat graph, whose nodes are all nodes of models, and for every interpretation of the operations and all initial values `σ0`, executing the node list gives
values that solve the model: all operations of all models hold, variables with the same promoted name are equal, and connected variables are equal.  Two variables are represented by the same node
exactly if they are the same by promoted names and connections, and an operation computes a node exactly if one of its results is represented by it.  The values of the nodes no operation computes are the
initial ones, and the solution is the only one with these values of the variables that are represented by such nodes. -/
theorem C61_execution_solves_model (m : Model) (hd : DotFree m) (hs : DistinctSources m) (r : Res) (hr : resolve m none = .ok r) (I : NHeap) (g : Graph) (kids : Kids)
    (hk : HierOk g kids) (hb : AllBipartite I g kids) (hrep : Represents m I g kids) (hn : NodesOk I g kids)
    (order : List Nat → List Nat) (ho : ∀ l x, x ∈ order l ↔ x ∈ l) (d : NodeMaps) (g' : Graph) (done : Dict Nat Nat)
    (h : constructFlat I order r.p2u (createReverseMap r.p2u) g kids (collectConnections m []) = .ok (d, g', done)) (hno : NoChain m)
    (l : List Nat) (hl : flatSort g' = .ok l) :
    ∃ f : Nat → Nat, (∀ x, IsVarOf I g kids x → f x ∈ g'.nodes ∧ (I (f x)).kind = .var) ∧ (∀ a ∈ g'.nodes, ∃ path g1 ks1, HierAt g kids path g1 ks1 ∧ a ∈ g1.nodes) ∧
      (∀ x y, IsVarOf I g kids x → IsVarOf I g kids y → (f x = f y ↔ Relation.EqvGen (Identified m I g kids) x y)) ∧
      (∀ n y, (I y).kind = .var → (g'.Edge n y ↔ (I n).kind = .op ∧ ∃ path g1 ks1 v, HierAt g kids path g1 ks1 ∧ g1.Edge n v ∧ f v = y)) ∧
      ∀ (V : Type) (O : Interp V), Interprets I g kids O → ∀ σ0 : Env V, ModelSolution m I g kids O (fun x => execAll g' (O.rename f) σ0 l (f x)) ∧
        (∀ x, IsVarOf I g kids x → (∀ n, ¬ g'.Edge n (f x)) → execAll g' (O.rename f) σ0 l (f x) = σ0 (f x)) ∧
        ∀ σ, ModelSolution m I g kids O σ → (∀ x, IsVarOf I g kids x → (∀ n, ¬ g'.Edge n (f x)) → σ x = σ0 (f x)) →
          ∀ x, IsVarOf I g kids x → σ x = execAll g' (O.rename f) σ0 l (f x) := by
  obtain ⟨f, _, h1⟩ := execution_solves m hd hs r hr I g kids hk hb hrep hn order ho d g' done h hno l hl
  exact ⟨f, h1⟩

/-- Example: main has the input `a` (node 0), declares `w` (1), which operation 2 maps to the output `y` (3), and connects `a` to `A.x`; submodel `A` (4), promoting
`w`, declares `x` (5), which operation 6 maps to the output `w` (7). -/
def exEndHeap : NHeap := fun i => match i with
  | 0 => { kind := .var, name := "a".toList, auto := "_0000".toList, role := .input }
  | 1 => { kind := .var, name := "w".toList, auto := "_0001".toList }
  | 2 => { kind := .op, name := "_0002".toList }
  | 3 => { kind := .var, name := "y".toList, auto := "_0003".toList, role := .output }
  | 4 => { kind := .model, name := "A".toList }
  | 5 => { kind := .var, name := "x".toList, auto := "_0005".toList }
  | 6 => { kind := .op, name := "_0006".toList }
  | 7 => { kind := .var, name := "w".toList, auto := "_0007".toList, role := .output }
  | _ => { kind := .var, name := "_0009".toList }
def exEndGraph : Graph := { nodes := [4, 0, 1, 2, 3], edges := [(1, 2), (2, 3)] }
def exEndGA : Graph := { nodes := [5, 6, 7], edges := [(5, 6), (6, 7)] }
def exEndKids : Kids := .cons 4 "A".toList exEndGA .nil .nil
def exEndA : Model := .mk { outputs := [⟨"w".toList, [1]⟩], declared := [⟨"x".toList, [1]⟩] } .nil
def exEndModel : Model := .mk { inputs := [⟨"a".toList, [1]⟩], outputs := [⟨"y".toList, [1]⟩], declared := [⟨"w".toList, [1]⟩], connections := [("a".toList, "A.x".toList)] }
  (.cons "A".toList (some ["w".toList]) exEndA .nil)

theorem exEnd_hier {path g' ks'} (h : HierAt exEndGraph exEndKids path g' ks') :
    (path = [] ∧ g' = exEndGraph ∧ ks' = exEndKids) ∨ (path = ["A".toList] ∧ g' = exEndGA ∧ ks' = .nil) := by
  have := mem_hierEnum h
  simp only [hierEnum, exEndKids, Kids.enum, List.map_nil, List.append_nil, List.mem_cons, Prod.mk.injEq, List.not_mem_nil, or_false] at this
  simpa [exEndKids] using this

theorem exEnd_ax : PromotedAs exEndModel ["A".toList] .target ⟨"x".toList, [1]⟩ (prependNamespace "A".toList "x".toList) :=
  .stay (s := ⟨"A".toList, some ["w".toList], exEndA⟩) (by simp [Subs.toList]) (.here (v := ⟨"x".toList, [1]⟩) (by simp [Local.vars])) (by simp [IsPromoted])

theorem exEnd_represents : Represents exEndModel exEndHeap exEndGraph exEndKids := by
  have pa : PromotedAs exEndModel [] .source ⟨"a".toList, [1]⟩ "a".toList := .here (v := ⟨"a".toList, [1]⟩) (by simp [Local.vars, Local.sources])
  have py : PromotedAs exEndModel [] .source ⟨"y".toList, [1]⟩ "y".toList := .here (v := ⟨"y".toList, [1]⟩) (by simp [Local.vars, Local.sources])
  have pw : PromotedAs exEndModel [] .target ⟨"w".toList, [1]⟩ "w".toList := .here (v := ⟨"w".toList, [1]⟩) (by simp [Local.vars])
  have aw : PromotedAs exEndModel ["A".toList] .source ⟨"w".toList, [1]⟩ "w".toList :=
    .up (s := ⟨"A".toList, some ["w".toList], exEndA⟩) (by simp [Subs.toList]) (.here (v := ⟨"w".toList, [1]⟩) (by simp [Local.vars, Local.sources])) (by simp [IsPromoted])
  have noAuto : ∀ path g' ks', HierAt exEndGraph exEndKids path g' ks' → ∀ v ∈ g'.nodes, (exEndHeap v).kind = .var → (exEndHeap v).name ≠ (exEndHeap v).auto := by
    intro path g' ks' hp v hv hk
    have d1 : ∀ v ∈ exEndGraph.nodes, (exEndHeap v).kind = .var → (exEndHeap v).name ≠ (exEndHeap v).auto := by decide
    have d2 : ∀ v ∈ exEndGA.nodes, (exEndHeap v).kind = .var → (exEndHeap v).name ≠ (exEndHeap v).auto := by decide
    rcases exEnd_hier hp with ⟨rfl, rfl, _⟩ | ⟨rfl, rfl, _⟩
    · exact d1 v hv hk
    · exact d2 v hv hk
  refine ⟨?_, ?_, ?_, ?_, ?_⟩
  · intro path g' ks' hp
    rcases exEnd_hier hp with ⟨rfl, _⟩ | ⟨rfl, _⟩
    · exact ⟨_, .here _⟩
    · exact ⟨_, .down (s := ⟨"A".toList, some ["w".toList], exEndA⟩) (by simp [Subs.toList]) (.here _)⟩
  · intro path g' ks' hp v hv hk ha
    rcases exEnd_hier hp with ⟨rfl, rfl, _⟩ | ⟨rfl, rfl, _⟩
    · simp only [exEndGraph, List.mem_cons, List.not_mem_nil, or_false] at hv
      rcases hv with rfl | rfl | rfl | rfl | rfl
      · cases hk
      · exact ⟨_, _, _, pa, rfl, by decide⟩
      · exact ⟨_, _, _, pw, rfl, by decide⟩
      · cases hk
      · exact ⟨_, _, _, py, rfl, by decide⟩
    · simp only [exEndGA, List.mem_cons, List.not_mem_nil, or_false] at hv
      rcases hv with rfl | rfl | rfl
      · exact ⟨_, _, _, exEnd_ax, rfl, by decide⟩
      · cases hk
      · exact ⟨_, _, _, aw, rfl, by decide⟩
  · intro path g1 k1 g2 k2 h1 h2 v hv v' hv' hk hk' hr hr' hn
    have d1 : ∀ v ∈ exEndGraph.nodes, ∀ v' ∈ exEndGraph.nodes, (exEndHeap v).kind = .var → (exEndHeap v').kind = .var → (exEndHeap v).name = (exEndHeap v').name → v = v' := by decide
    have d2 : ∀ v ∈ exEndGA.nodes, ∀ v' ∈ exEndGA.nodes, (exEndHeap v).kind = .var → (exEndHeap v').kind = .var → (exEndHeap v).name = (exEndHeap v').name → v = v' := by decide
    rcases exEnd_hier h1 with ⟨rfl, rfl, _⟩ | ⟨rfl, rfl, _⟩ <;> rcases exEnd_hier h2 with ⟨e, rfl, _⟩ | ⟨e, rfl, _⟩
    · exact d1 v hv v' hv' hk hk' hn
    · simp at e
    · simp at e
    · exact d2 v hv v' hv' hk hk' hn
  · intro path g' ks' hp v hv hk ha
    exact absurd ha (noAuto path g' ks' hp v hv hk)
  · intro path g1 k1 path' g2 k2 h1 h2 v hv v' hv' hk hk' ha
    exact absurd ha (noAuto path g1 k1 h1 v hv hk)

theorem exEnd_noChain : NoChain exEndModel := by
  obtain ⟨r, hr, _⟩ := ok_of_check (x := resolve exEndModel none) (P := fun _ => true) (by decide)
  have hiss : issuedPost Local.connections exEndModel = [([], "a".toList, "A.x".toList)] := by decide
  constructor
  · intro i hi p h1 h2
    rw [hiss, List.mem_singleton] at hi
    subst hi
    have e1 := C09_denotation_unique exEndModel (dotFree_of (by decide)) r hr _ _ _ h1
      (Denotes.promoted (path := []) (k := .source) (v := ⟨"a".toList, [1]⟩) (.here (v := ⟨"a".toList, [1]⟩) (by simp [Local.vars, Local.sources])))
    have e2 := C09_denotation_unique exEndModel (dotFree_of (by decide)) r hr _ _ _ h2 (Denotes.promoted exEnd_ax)
    rw [e1] at e2
    exact absurd e2 (by decide)
  · rw [hiss]; exact List.pairwise_singleton _ _

/-- all hypotheses hold of the example; the operations are the successor functions; the value 5 of `a` gives 6 for `w` and 7 for `y` -/
example : ∃ (r : Res) (d : NodeMaps) (g' : Graph) (done : Dict Nat Nat) (l : List Nat) (O : Interp Nat), DotFree exEndModel ∧ DistinctSources exEndModel ∧ resolve exEndModel none = .ok r ∧
    HierOk exEndGraph exEndKids ∧ AllBipartite exEndHeap exEndGraph exEndKids ∧ Represents exEndModel exEndHeap exEndGraph exEndKids ∧ NodesOk exEndHeap exEndGraph exEndKids ∧
    constructFlat exEndHeap id r.p2u (createReverseMap r.p2u) exEndGraph exEndKids (collectConnections exEndModel []) = .ok (d, g', done) ∧ NoChain exEndModel ∧ flatSort g' = .ok l ∧
    Interprets exEndHeap exEndGraph exEndKids O ∧
    (∀ f : Nat → Nat, f 1 = 7 → f 5 = 0 → execAll g' (O.rename f) (fun v => if v = 0 then 5 else 0) l 7 = 6 ∧ execAll g' (O.rename f) (fun v => if v = 0 then 5 else 0) l 3 = 7) := by
  obtain ⟨r, hr, h⟩ := ok_of_check (x := resolve exEndModel none) (P := fun r =>
    okCheck (constructFlat exEndHeap id r.p2u (createReverseMap r.p2u) exEndGraph exEndKids (collectConnections exEndModel [])) fun x =>
      decide (x.2.1 = { nodes := [0, 2, 3, 6, 7], edges := [(2, 3), (6, 7), (7, 2), (0, 6)] })) (by decide)
  obtain ⟨⟨d, g', done⟩, hst, h⟩ := ok_of_check h
  have hg := of_decide_eq_true h
  dsimp only at hg
  subst hg
  refine ⟨r, d, _, done, [0, 6, 7, 2, 3], { isOp := fun n => (exEndHeap n).kind = .op, args := fun n => if n = 2 then [1] else if n = 6 then [5] else [], fn := fun _ l _ => l.sum + 1 },
    dotFree_of (by decide), (distinct_of (by decide)).1, hr, hierOk_of (by decide), bipartite_of (by decide), exEnd_represents, ?_, hst, ?_, by rfl, ?_, ?_⟩
  · constructor
    · intro path g' ks' hp i hi
      rcases exEnd_hier hp with ⟨rfl, rfl, rfl⟩ | ⟨rfl, rfl, rfl⟩
      · simp [exEndKids, Kids.ids] at hi; subst hi; rfl
      · cases hi
    · intro path g' ks' hp n v he hop
      rcases exEnd_hier hp with ⟨rfl, rfl, rfl⟩ | ⟨rfl, rfl, rfl⟩
      · simp [Graph.Edge, exEndGraph] at he
        rcases he with ⟨rfl, rfl⟩ | ⟨rfl, rfl⟩
        · cases hop
        · rfl
      · simp [Graph.Edge, exEndGA] at he
        rcases he with ⟨rfl, rfl⟩ | ⟨rfl, rfl⟩
        · cases hop
        · rfl
  · exact exEnd_noChain
  · constructor
    · intro n; simp
    · intro path g' ks' hp n hm hop u hu
      rcases exEnd_hier hp with ⟨rfl, rfl, rfl⟩ | ⟨rfl, rfl, rfl⟩
      · simp only [exEndGraph, List.mem_cons, List.not_mem_nil, or_false] at hm
        rcases hm with rfl | rfl | rfl | rfl | rfl <;> first | exact absurd hop (by decide) | skip
        simp at hu; subst hu; show (_, _) ∈ _; decide
      · simp only [exEndGA, List.mem_cons, List.not_mem_nil, or_false] at hm
        rcases hm with rfl | rfl | rfl <;> first | exact absurd hop (by decide) | skip
        simp at hu; subst hu; show (_, _) ∈ _; decide
    · intro n hout
      have h2 : n ≠ 2 := by rintro rfl; exact hout [] _ _ (Or.inl ⟨rfl, rfl, rfl⟩) (by decide)
      have h6 : n ≠ 6 := by rintro rfl; exact hout _ _ _ (Or.inr .head) (by decide)
      simp [h2, h6]
  · intro f h1 h5
    simp [execAll, execNode, Interp.rename, exEndHeap, h1, h5]

end Csdl
