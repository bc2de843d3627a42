import Verif.Props.EndToEnd
import Verif.Spec.Chain
/-!
# Contractions in any order, chains included
-/
namespace Csdl

theorem Graph.mem_nodes_contract' {g : Graph} (hw : g.WF) {u v a : Nat} (hu : u ∈ (g.contract u v).nodes) : a ∈ (g.contract u v).nodes ↔ a = u ∨ (a ∈ g.nodes ∧ a ≠ v) := by
  by_cases hau : a = u
  · subst hau; exact ⟨fun _ => Or.inl rfl, fun _ => hu⟩
  · unfold Graph.contract
    dsimp only
    rw [mem_nodes_addEdges, mem_nodes_removeNode]
    constructor
    · rintro (h | ⟨e, he, h⟩)
      · exact Or.inr h
      · right
        rcases List.mem_append.1 he with he | he
        · obtain ⟨e', h1, rfl⟩ := List.mem_map.1 he
          obtain ⟨h1, h2⟩ := List.mem_filter.1 h1
          have h2 := of_decide_eq_true h2
          rcases h with h | h
          · rw [h]; exact ⟨hw.left e'.1 e'.2 h1, h2.2.2⟩
          · exact absurd h hau
        · obtain ⟨e', h1, rfl⟩ := List.mem_map.1 he
          obtain ⟨h1, h2⟩ := List.mem_filter.1 h1
          have h2 := of_decide_eq_true h2
          rcases h with h | h
          · exact absurd h hau
          · rw [h]; exact ⟨hw.right e'.1 e'.2 h1, h2.2.2⟩
    · rintro (h | h)
      · exact absurd h hau
      · exact Or.inl h

/-- as `IsImage.contract`, also if `u` is not a node before, or is `v` -/
theorem IsImage.contract' {G : Graph} {f : Nat → Nat} {G' : Graph} (h : IsImage G f G') {u v : Nat} (hu : u ∈ (G'.contract u v).nodes) (hv : v ∈ G'.nodes)
    (h1 : ¬ G'.Edge u v) (h2 : ¬ G'.Edge v u) (h3 : ¬ G'.Edge v v) :
    IsImage G (fun x => if f x = v then u else f x) (G'.contract u v) := by
  refine ⟨?_, ?_, Graph.wf_contract h.wf u v⟩
  · intro a
    rw [Graph.mem_nodes_contract' h.wf hu, h.nodes]
    constructor
    · rintro (rfl | ⟨⟨x, hx, rfl⟩, hne⟩)
      · obtain ⟨x, hx, hxv⟩ := (h.nodes v).1 hv
        exact ⟨x, hx, by rw [if_pos hxv]⟩
      · exact ⟨x, hx, by rw [if_neg hne]⟩
    · rintro ⟨x, hx, he⟩
      split at he
      · exact Or.inl he.symm
      · subst he
        exact Or.inr ⟨⟨x, hx, rfl⟩, by assumption⟩
  · intro a b
    rw [Graph.edge_contract]
    constructor
    · rintro (⟨he, ha, hb⟩ | ⟨he, ha, hb, rfl⟩ | ⟨he, ha, hb, rfl⟩)
      · obtain ⟨x, y, hxy, rfl, rfl⟩ := (h.edges _ _).1 he
        exact ⟨x, y, hxy, by rw [if_neg ha], by rw [if_neg hb]⟩
      · obtain ⟨x, y, hxy, rfl, hy⟩ := (h.edges _ _).1 he
        exact ⟨x, y, hxy, by rw [if_neg hb], by rw [if_pos hy]⟩
      · obtain ⟨x, y, hxy, hx, rfl⟩ := (h.edges _ _).1 he
        exact ⟨x, y, hxy, by rw [if_pos hx], by rw [if_neg hb]⟩
    · rintro ⟨x, y, hxy, rfl, rfl⟩
      have he := (h.edges _ _).2 ⟨x, y, hxy, rfl, rfl⟩
      by_cases hx : f x = v
      · by_cases hy : f y = v
        · rw [hx, hy] at he; exact absurd he h3
        · rw [if_pos hx, if_neg hy]
          rw [hx] at he
          have : f y ≠ u := fun e => h2 (e ▸ he)
          exact Or.inr (Or.inr ⟨he, this, hy, rfl⟩)
      · by_cases hy : f y = v
        · rw [if_neg hx, if_pos hy]
          rw [hy] at he
          have : f x ≠ u := fun e => h1 (e ▸ he)
          exact Or.inr (Or.inl ⟨he, this, hx, rfl⟩)
        · rw [if_neg hx, if_neg hy]
          exact Or.inl ⟨he, hx, hy⟩

/-- A sequence of contractions between variables, each into a node that is in the graph afterwards, and every node contracted at most once, gives the image under the replacements. -/
theorem isImage_contractions' {I : NHeap} {G : Graph} (hb : Bipartite I G) (hw : G.WF) (L : List (Nat × Nat)) :
    ∀ {f : Nat → Nat} {G' : Graph}, IsImage G f G' → (∀ x ∈ G.nodes, (I (f x)).kind = (I x).kind) →
      (∀ e ∈ L, (I e.1).kind = .var ∧ (I e.2).kind = .var ∧ e.2 ∈ G'.nodes) → (L.map (·.2)).Nodup →
      (∀ (i : Nat) (e : Nat × Nat), L[i]? = some e → e.1 ∈ ((L.take (i + 1)).foldl (fun g e => g.contract e.1 e.2) G').nodes) →
      IsImage G (fun x => substAll L (f x)) (L.foldl (fun g e => g.contract e.1 e.2) G') := by
  induction L with
  | nil => intro f G' h _ _ _ _; exact h
  | cons e L ih =>
    intro f G' h hf hL hnd hin
    rw [List.foldl_cons]
    obtain ⟨h2, h3, h4⟩ := hL e (by simp)
    have h1 : e.1 ∈ (G'.contract e.1 e.2).nodes := by simpa using hin 0 e (by simp)
    have hno : ∀ a b, (I a).kind = .var → (I b).kind = .var → ¬ G'.Edge a b := by
      intro a b ha hb' he
      obtain ⟨x, y, hxy, rfl, rfl⟩ := (h.edges _ _).1 he
      rw [hf x (hw.left _ _ hxy)] at ha
      rw [hf y (hw.right _ _ hxy)] at hb'
      rcases hb x y hxy with ⟨_, k⟩ | ⟨k, _⟩
      · rw [k] at hb'; cases hb'
      · rw [k] at ha; cases ha
    have hc := h.contract' h1 h4 (hno _ _ h2 h3) (hno _ _ h3 h2) (hno _ _ h3 h3)
    rw [List.map_cons, List.nodup_cons] at hnd
    refine ih (f := fun x => if f x = e.2 then e.1 else f x) hc ?_ ?_ hnd.2 ?_
    · intro x hx
      split
      · rename_i he
        rw [← hf x hx, he, h2, h3]
      · exact hf x hx
    · intro e' he'
      obtain ⟨g2, g3, g4⟩ := hL e' (by simp [he'])
      refine ⟨g2, g3, ?_⟩
      rw [Graph.mem_nodes_contract' h.wf h1]
      exact Or.inr ⟨g4, fun heq => hnd.1 (List.mem_map.2 ⟨e', he', heq⟩)⟩
    · intro i e' he'
      simpa using hin (i + 1) e' (by simpa using he')

theorem substAll_kind {I : NHeap} (L : List (Nat × Nat)) (h : ∀ e ∈ L, (I e.1).kind = .var ∧ (I e.2).kind = .var) : ∀ x, (I (substAll L x)).kind = (I x).kind := by
  induction L with
  | nil => intro x; rfl
  | cons e L ih =>
    intro x
    have hc : substAll (e :: L) x = substAll L (if x = e.2 then e.1 else x) := rfl
    rw [hc, ih (fun e he => h e (by simp [he]))]
    split
    · rename_i he
      rw [he, (h e (by simp)).1, (h e (by simp)).2]
    · rfl

/-- What merging the connections does to the graph, in general: all connections at once. -/
theorem mergeConnections_image {I : NHeap} {st : FState} {p2u : Dict Name (List Name)} {u2p : Dict Name Name} {g : Graph} {cs : List (Name × Name × Name)}
    (hw : g.WF) (hb : Bipartite I g) {d : NodeMaps} {g' : Graph} {done : Dict Nat Nat} (h : mergeConnections I st p2u u2p g cs = .ok (d, g', done)) :
    ∃ L, ConnPairs I st p2u g cs L ∧ (L.map (·.2)).Nodup ∧ (∀ e ∈ L, ((I e.1).role = .input ∨ (I e.1).role = .output) ∧ (I e.1).shape.size = (I e.2).shape.size) ∧
      (∀ s t, done.get? t = some s ↔ (s, t) ∈ L) ∧ IsImage g (substAll L) g' ∧ ∀ e ∈ L, ∀ u, ¬ g.Edge u e.2 := by
  unfold mergeConnections at h
  cases h1 : indexNodes I st p2u u2p g g.nodes {} with
  | error e => rw [h1] at h; cases h
  | ok d1 =>
    rw [h1] at h; dsimp only at h
    cases h2 : mergeConnectionList I d1 cs (g, []) with
    | error e => rw [h2] at h; cases h
    | ok acc =>
      rw [h2] at h; cases h
      obtain ⟨hd, _⟩ := indexNodes_ok g.nodes (fun _ h => h) ⟨by simp [Dict.get?], by simp [Dict.get?]⟩ h1
      obtain ⟨L, b1, b2, b3, _, b5, b6, b7, b8⟩ := mergeConnectionList_ok hd cs h2
      dsimp only at b2 b6 b7
      have hends : ∀ e ∈ L, (I e.1).kind = .var ∧ (I e.2).kind = .var ∧ e.2 ∈ g.nodes := by
        intro e he
        obtain ⟨c, _, hc1, hc2⟩ := forall₂_mem_right b1 he
        exact ⟨hc1.2.1, hc2.2.1, hc2.1⟩
      refine ⟨L, b1, b3, ?_, ?_, ?_, ?_⟩
      · intro e he
        refine ⟨?_, (b5 e he).2⟩
        have := (b5 e he).1
        cases hr : (I e.1).role with
        | input => exact Or.inl rfl
        | output => exact Or.inr rfl
        | declared => exact absurd hr this
      · intro s t
        rw [b8]
        simp [Dict.get?]
      · rw [b2]
        exact isImage_contractions' hb hw L (IsImage.refl hw) (fun _ _ => rfl) hends b3 b7
      · intro e he u hu
        obtain ⟨L1, L2, hL⟩ := List.append_of_mem he
        have hsub : ∀ e' ∈ L1, e' ∈ L := fun e' he' => by rw [hL]; exact List.mem_append_left _ he'
        have hnd := b3
        rw [hL, List.map_append, List.map_cons, List.nodup_append] at hnd
        have himg := isImage_contractions' hb hw L1 (IsImage.refl hw) (fun _ _ => rfl) (fun e' he' => hends e' (hsub e' he')) hnd.1 (by
          intro i e' hi
          have hlt : i < L1.length := by
            by_contra hc
            rw [List.getElem?_eq_none (by omega)] at hi; cases hi
          have := b7 i e' (by rw [hL, List.getElem?_append_left hlt]; exact hi)
          rwa [hL, List.take_append_of_le_length (by omega)] at this)
        have hi := b6 L1.length e (by rw [hL]; simp)
        have ht : L.take L1.length = L1 := by rw [hL]; simp
        rw [ht] at hi
        have hedge := (himg.edges _ _).2 ⟨u, e.2, hu, rfl, rfl⟩
        simp only [id_eq] at hedge
        rw [substAll_notin (x := e.2) (fun e' he' heq => hnd.2.2 e'.2 (List.mem_map.2 ⟨e', he', rfl⟩) e.2 (by simp) heq)] at hedge
        exact hi _ hedge

/-- How the flat graph comes about in general: `rep x` is the node of the variable `x` itself, `f x` the node read by the operations that use `x`. -/
structure ChainQuotient (m : Model) (I : NHeap) (g : Graph) (kids : Kids) (g' : Graph) (rep f : Nat → Nat) : Prop where
  wf : g'.WF
  bipartite : Bipartite I g'
  nodes : ∀ a ∈ g'.nodes, ∃ path g1 ks1, HierAt g kids path g1 ks1 ∧ a ∈ g1.nodes
  edges : ∀ a b, g'.Edge a b ↔ ∃ path g1 ks1 u v, HierAt g kids path g1 ks1 ∧ g1.Edge u v ∧ f u = a ∧ f v = b
  vars : ∀ x, IsVarOf I g kids x → f x ∈ g'.nodes ∧ IsVarOf I g kids (f x)
  own : ∀ x, IsVarOf I g kids x → IsVarOf I g kids (rep x)
  ops : ∀ n, (I n).kind = .op → f n = n
  results : ∀ path g1 ks1 n v, HierAt g kids path g1 ks1 → g1.Edge n v → (I n).kind = .op → rep v = v ∧ f v = v
  shared : ∀ x y p, HasPromotedName m I g kids x p → HasPromotedName m I g kids y p → rep x = rep y
  named : ∀ x p, HasPromotedName m I g kids x p → HasPromotedName m I g kids (rep x) p
  reads : ∀ x p, HasPromotedName m I g kids x p → ∃ q, ReadsAs m p q ∧ HasPromotedName m I g kids (f x) q ∧ rep (f x) = f x
  unnamed : ∀ x, IsVarOf I g kids x → (∀ p, ¬ HasPromotedName m I g kids x p) → rep x = x ∧ f x = x
  oneName : ∀ x p p', HasPromotedName m I g kids x p → HasPromotedName m I g kids x p' → p = p'
  /-- without chains both ends of a connection are read from the same node -/
  joined : NoChain m → ∀ path l subs a b p q, At m path (.mk l subs) → (a, b) ∈ l.connections → Denotes m (fullName path a) p → Denotes m (fullName path b) q →
    ∀ x y, HasPromotedName m I g kids x p → HasPromotedName m I g kids y q → f x = f y

theorem Follows.unique {m : Model} (hd : DotFree m) {r : Res} (hr : resolve m none = .ok r) {cs : List (List Name × Name × Name)} {p q q' : Name} (h : Follows m cs p q) (h' : Follows m cs p q') :
    q = q' := by
  induction h with
  | stop p => cases h'; rfl
  | other h1 _ ih =>
    cases h' with
    | other _ h2 => exact ih h2
    | target h2 _ _ => exact absurd h2 h1
  | target h1 h2 _ ih =>
    cases h' with
    | other h3 _ => exact absurd h1 h3
    | target _ h3 h4 => rw [C09_denotation_unique m hd r hr _ _ _ h3 h2] at h4; exact ih h4

theorem chain_quotient (m : Model) (hd : DotFree m) (hs : DistinctSources m) (r : Res) (hr : resolve m none = .ok r) (I : NHeap) (g : Graph) (kids : Kids)
    (hk : HierOk g kids) (hb : AllBipartite I g kids) (hrep : Represents m I g kids) (hn : NodesOk I g kids)
    (order : List Nat → List Nat) (ho : ∀ l x, x ∈ order l ↔ x ∈ l) (d : NodeMaps) (g' : Graph) (done : Dict Nat Nat)
    (h : constructFlat I order r.p2u (createReverseMap r.p2u) g kids (collectConnections m []) = .ok (d, g', done)) :
    ∃ rep f : Nat → Nat, ChainQuotient m I g kids g' rep f := by
  unfold constructFlat at h
  cases hf : flatten I r.p2u (createReverseMap r.p2u) g kids with
  | error e => rw [hf] at h; cases h
  | ok st =>
  rw [hf] at h; dsimp only at h
  obtain ⟨f1, i1, k1, k2, k3, k4⟩ := C30_merge_by_name m hd hs r hr I g kids st hk hb hrep hf order ho
  obtain ⟨mb, mw⟩ := mergeAuto_bipartite ho (flatten_facts hk hf).1 (flat_bipartite hk hb hf)
  obtain ⟨L, c1, c2, c3, cd, i2, c4⟩ := mergeConnections_image mw mb h
  set M := mergeAuto I order st with hM
  have hcs := collect_eq m []
  rw [hcs] at c1
  unfold ConnPairs at c1
  rw [List.forall₂_map_left_iff] at c1
  have c1' : List.Forall₂ (fun (i : List Name × Name × Name) (e : Nat × Nat) => (NodeFor I st r.p2u M (fullName i.1 i.2.1) e.1 ∧ NodeFor I st r.p2u M (fullName i.1 i.2.2) e.2))
      (issuedPost Local.connections m) L := by
    refine (forall₂_congr_mem ?_).1 c1
    rintro ⟨path, a, b⟩ hi e
    obtain ⟨l, subs, hat, _⟩ := (mem_issuedPost m path (a, b)).1 hi
    simp only [descend_full hd hat]
  have back1 : ∀ x, x ∈ st.graph.nodes → f1 x ∈ st.graph.nodes := by
    intro x hx
    by_cases ht : IsTarget I st.graph x
    · by_cases hsrc : ∃ s, IsSource I st.graph s ∧ st.pname I s = st.pname I x
      · obtain ⟨s, hs', hns⟩ := hsrc
        rw [k2 x s ht hs' hns]; exact hs'.1
      · exact (k3 x ht (fun s hs' hns => hsrc ⟨s, hs', hns⟩)).1.1
    · rw [k1 x ht]; exact hx
  have mergedFlat : ∀ a ∈ M.nodes, a ∈ st.graph.nodes := by
    intro a ha
    obtain ⟨x, hx, rfl⟩ := (i1.nodes a).1 ha
    exact back1 x hx
  have pname1 : ∀ x, x ∈ st.graph.nodes → (I x).kind = .var → f1 x ∈ M.nodes ∧ (I (f1 x)).kind = .var ∧ st.pname I (f1 x) = st.pname I x := by
    intro x hx hv
    refine ⟨(i1.nodes _).2 ⟨x, hx, rfl⟩, ?_⟩
    by_cases ht : IsTarget I st.graph x
    · by_cases hsrc : ∃ s, IsSource I st.graph s ∧ st.pname I s = st.pname I x
      · obtain ⟨s, hs', hns⟩ := hsrc
        rw [k2 x s ht hs' hns]; exact ⟨hs'.2.1, hns⟩
      · obtain ⟨t1, t2, _⟩ := k3 x ht (fun s hs' hns => hsrc ⟨s, hs', hns⟩)
        exact ⟨t1.2.1, t2⟩
    · rw [k1 x ht]; exact ⟨hv, rfl⟩
  have k4n : ∀ a ∈ M.nodes, ∀ b ∈ M.nodes, (I a).kind = .var → (I b).kind = .var → st.pname I a = st.pname I b → (I b).name ≠ (I b).auto → a = b := by
    intro a ha b hb' hka hkb hn' hc
    rcases k4 a ha b hb' hka hkb hn' with h' | ⟨_, e2, _, _⟩
    · exact h'
    · exact absurd e2 hc
  have tgtVar : ∀ e ∈ L, e.1 ∈ M.nodes ∧ (I e.1).kind = .var ∧ e.2 ∈ M.nodes ∧ (I e.2).kind = .var := by
    intro e he
    obtain ⟨i, hi, e1, e2⟩ := forall₂_mem_right c1' he
    exact ⟨e1.1, e1.2.1, e2.1, e2.2.1⟩
  have kind2 := substAll_kind (I := I) L (fun e he => ⟨(tgtVar e he).2.1, (tgtVar e he).2.2.2⟩)
  have flatVar := fun x => (isVarOf_flat hk hn hf (x := x))
  have opFix1 : ∀ n, (I n).kind = .op → f1 n = n := by
    intro n hop
    refine k1 n fun ht => ?_
    rw [ht.2.1] at hop; cases hop
  have opFix2 : ∀ n, (I n).kind = .op → substAll L n = n := by
    intro n hop
    refine substAll_notin fun e he heq => ?_
    have := (tgtVar e he).2.2.2
    rw [heq, hop] at this; cases this
  have outFix : ∀ n v, st.graph.Edge n v → (I n).kind = .op → f1 v = v ∧ substAll L v = v := by
    intro n v he hop
    have hrole : (I v).role = .output := by
      obtain ⟨path, g1, ks1, hp, he⟩ := (edge_flat hk hb hn hf).1 he
      exact hn.outputs path g1 ks1 hp n v he hop
    have e1 : f1 v = v := k1 v fun ht => by rw [ht.2.2] at hrole; cases hrole
    refine ⟨e1, substAll_notin fun e he' heq => ?_⟩
    have hM' : M.Edge n v := (i1.edges n v).2 ⟨n, v, he, opFix1 n hop, e1⟩
    rw [← heq] at hM'
    exact c4 e he' n hM'
  have edgeIn : ∀ u n, st.graph.Edge u n → g'.Edge (substAll L (f1 u)) (substAll L (f1 n)) := fun u n he => (i2.edges _ _).2 ⟨_, _, (i1.edges _ _).2 ⟨u, n, he, rfl, rfl⟩, rfl, rfl⟩
  have edgeOut : ∀ a b, g'.Edge a b → ∃ u n, st.graph.Edge u n ∧ substAll L (f1 u) = a ∧ substAll L (f1 n) = b := by
    intro a b he
    obtain ⟨x, y, he1, rfl, rfl⟩ := (i2.edges a b).1 he
    obtain ⟨u, n, he2, rfl, rfl⟩ := (i1.edges x y).1 he1
    exact ⟨u, n, he2, rfl, rfl⟩
  have flatB := flat_bipartite hk hb hf
  have inM : ∀ y ∈ M.nodes, substAll L y ∈ M.nodes := by
    intro y hy
    rcases substAll_cases L y with h' | ⟨e, he, h'⟩
    · rw [h']; exact hy
    · rw [h']; exact (tgtVar e he).1
  have fvar : ∀ x, x ∈ st.graph.nodes → (I x).kind = .var → substAll L (f1 x) ∈ g'.nodes ∧ substAll L (f1 x) ∈ M.nodes ∧ (I (substAll L (f1 x))).kind = .var := by
    intro x hx hv
    obtain ⟨a1, a2, _⟩ := pname1 x hx hv
    exact ⟨(i2.nodes _).2 ⟨_, a1, rfl⟩, inM _ a1, by rw [kind2]; exact a2⟩
  have stW := (flatten_facts hk hf).1
  have gB : Bipartite I g' := by
    intro a b he0
    obtain ⟨u, n, he, rfl, rfl⟩ := edgeOut a b he0
    rcases flatB u n he with ⟨h1, h2⟩ | ⟨h1, h2⟩
    · refine Or.inl ⟨(fvar u (stW.left _ _ he) h1).2.2, ?_⟩
      rw [opFix1 n h2, opFix2 n h2]; exact h2
    · refine Or.inr ⟨?_, (fvar n (stW.right _ _ he) h2).2.2⟩
      rw [opFix1 u h1, opFix2 u h1]; exact h1
  have ownNamed : ∀ x p, HasPromotedName m I g kids x p → f1 x ∈ M.nodes ∧ (I (f1 x)).kind = .var ∧ st.pname I (f1 x) = p ∧ (I (f1 x)).name ≠ (I (f1 x)).auto := by
    intro x p hx
    obtain ⟨x1, x2⟩ := (flatVar x).2 hx.isVarOf
    obtain ⟨a1, a2, a3⟩ := pname1 x x1 x2
    have hp := hasPromotedName_pname hd hr hk hf hx
    obtain ⟨_, _, _, _, _, _, _, _, hw, _⟩ := hx
    exact ⟨a1, a2, by rw [a3, hp], named_of_promoted hd hr hk hrep hf (mergedFlat _ a1) a2 hw (by rw [a3, hp])⟩
  have walk : ∀ (is : List (List Name × Name × Name)) (L : List (Nat × Nat)), List.Forall₂ (fun (i : List Name × Name × Name) (e : Nat × Nat) =>
      (NodeFor I st r.p2u M (fullName i.1 i.2.1) e.1 ∧ NodeFor I st r.p2u M (fullName i.1 i.2.2) e.2)) is L →
      ∀ a ∈ M.nodes, (I a).kind = .var → (I a).name ≠ (I a).auto → Follows m is (st.pname I a) (st.pname I (substAll L a)) ∧ substAll L a ∈ M.nodes ∧ (I (substAll L a)).name ≠ (I (substAll L a)).auto := by
    intro is L hL
    induction hL with
    | nil => intro a ha _ hna; exact ⟨.stop _, ha, hna⟩
    | cons h1 h2 ih =>
      rename_i i e is L
      intro a ha hka hna
      have hc : substAll (e :: L) a = substAll L (if a = e.2 then e.1 else a) := rfl
      rw [hc]
      obtain ⟨path, s, t⟩ := i
      by_cases hae : a = e.2
      · rw [if_pos hae]
        obtain ⟨w1, w2, w3⟩ := ih e.1 h1.1.1 h1.1.2.1 h1.1.2.2.1
        exact ⟨.target (by rw [hae]; exact nodeFor_denotes hr h1.2) (nodeFor_denotes hr h1.1) w1, w2, w3⟩
      · rw [if_neg hae]
        obtain ⟨w1, w2, w3⟩ := ih a ha hka hna
        refine ⟨.other (fun hden => hae ?_) w1, w2, w3⟩
        exact k4n _ ha _ h1.2.1 hka h1.2.2.1 (C09_denotation_unique m hd r hr _ _ _ hden (nodeFor_denotes hr h1.2)) h1.2.2.2.1
  refine ⟨f1, fun x => substAll L (f1 x), ⟨i2.wf, gB, ?_, ?_, ?_, ?_, fun n hop => by rw [opFix1 n hop, opFix2 n hop], ?_, ?_, ?_, ?_, ?_, ?_, ?_⟩⟩
  · intro a ha
    obtain ⟨y, hy, rfl⟩ := (i2.nodes a).1 ha
    obtain ⟨path, g1, ks1, hp, hm, _⟩ := ((C29_flat_graph_exact I _ _ g kids st hk hf).2.1 _).1 (mergedFlat _ (inM y hy))
    exact ⟨path, g1, ks1, hp, hm⟩
  · intro a b
    constructor
    · intro he
      obtain ⟨u, n, he1, e1, e2⟩ := edgeOut a b he
      obtain ⟨path, g1, ks1, hp, he2⟩ := (edge_flat hk hb hn hf).1 he1
      exact ⟨path, g1, ks1, u, n, hp, he2, e1, e2⟩
    · rintro ⟨path, g1, ks1, u, v, hp, he, rfl, rfl⟩
      exact edgeIn u v ((edge_flat hk hb hn hf).2 ⟨path, g1, ks1, hp, he⟩)
  · intro x hx
    obtain ⟨x1, x2⟩ := (flatVar x).2 hx
    obtain ⟨a1, a2, a3⟩ := fvar x x1 x2
    exact ⟨a1, (flatVar _).1 ⟨mergedFlat _ a2, a3⟩⟩
  · intro x hx
    obtain ⟨x1, x2⟩ := (flatVar x).2 hx
    obtain ⟨a1, a2, a3⟩ := pname1 x x1 x2
    exact (flatVar _).1 ⟨mergedFlat _ a1, a2⟩
  · intro path g1 ks1 n v hp he hop
    obtain ⟨o1, o2⟩ := outFix n v ((edge_flat hk hb hn hf).2 ⟨path, g1, ks1, hp, he⟩) hop
    exact ⟨o1, by rw [o1, o2]⟩
  · intro x y p hx hy
    obtain ⟨a1, a2, a3, a4⟩ := ownNamed x p hx
    obtain ⟨b1, b2, b3, b4⟩ := ownNamed y p hy
    exact k4n _ a1 _ b1 a2 b2 (by rw [a3, b3]) b4
  · intro x p hx
    obtain ⟨a1, a2, a3, a4⟩ := ownNamed x p hx
    rw [← a3]
    exact hasPromotedName_of_named hd hr hk hrep hf (mergedFlat _ a1) a2 a4
  · intro x p hx
    obtain ⟨a1, a2, a3, a4⟩ := ownNamed x p hx
    obtain ⟨w1, w2, w3⟩ := walk _ L c1' (f1 x) a1 a2 a4
    have hk2 : (I (substAll L (f1 x))).kind = .var := by rw [kind2]; exact a2
    have hq := hasPromotedName_of_named hd hr hk hrep hf (mergedFlat _ w2) hk2 w3
    refine ⟨_, by rw [a3] at w1; exact w1, hq, ?_⟩
    obtain ⟨b1, b2, b3, b4⟩ := ownNamed _ _ hq
    exact k4n _ b1 _ w2 b2 hk2 b3 w3
  · intro x hx hno
    obtain ⟨x1, x2⟩ := (flatVar x).2 hx
    obtain ⟨a1, a2, a3⟩ := pname1 x x1 x2
    have e1 : f1 x = x := by
      rcases sameName_cases hd hr hk hrep hf (back1 x x1) a2 x1 x2 a3 with he | ⟨p, _, h2⟩ | ⟨_, h2⟩
      · exact he
      · exact absurd h2 (hno p)
      · exact k1 x fun ht => h2 ht.2.2
    refine ⟨e1, ?_⟩
    show substAll L (f1 x) = x
    rw [e1]
    refine substAll_notin fun e he heq => ?_
    obtain ⟨i, _, _, n2⟩ := forall₂_mem_right c1' he
    rw [heq] at n2
    exact hno _ (hasPromotedName_of_named hd hr hk hrep hf (mergedFlat _ n2.1) n2.2.1 n2.2.2.1)
  · intro x p p' hx hx'
    rw [← hasPromotedName_pname hd hr hk hf hx, hasPromotedName_pname hd hr hk hf hx']
  · intro hno
    have hreuse : NoReuse L := by
      constructor
      · intro e he heq
        obtain ⟨i, hi, e1, e2⟩ := forall₂_mem_right c1' he
        have d1 := nodeFor_denotes hr e1
        have d2 := nodeFor_denotes hr e2
        rw [heq] at d1
        exact hno.1 i hi _ d1 d2
      · have hp := hno.2
        have : ∀ (is : List (List Name × Name × Name)) (L : List (Nat × Nat)), List.Forall₂ (fun (i : List Name × Name × Name) (e : Nat × Nat) =>
            (NodeFor I st r.p2u M (fullName i.1 i.2.1) e.1 ∧ NodeFor I st r.p2u M (fullName i.1 i.2.2) e.2)) is L →
            is.Pairwise (fun i j => ∀ p, Denotes m (fullName j.1 j.2.1) p → ¬ Denotes m (fullName i.1 i.2.2) p) → L.Pairwise (fun e e' => e'.1 ≠ e.2) := by
          intro is L hL
          induction hL with
          | nil => intro _; exact .nil
          | cons h1 h2 ih =>
            intro hp
            rw [List.pairwise_cons] at hp
            refine .cons ?_ (ih hp.2)
            intro e' he' heq
            obtain ⟨j, hj, e1, _⟩ := forall₂_mem_right h2 he'
            have d1 := nodeFor_denotes hr e1
            have d2 := nodeFor_denotes hr h1.2
            rw [heq] at d1
            exact hp.1 j hj _ d1 d2
        exact this _ _ c1' hp
    intro path l subs a b p q hat hab hp hq x y hx hy
    obtain ⟨e, he, n1, n2⟩ := forall₂_mem_left c1' ((mem_issuedPost m path (a, b)).2 ⟨l, subs, hat, hab⟩)
    obtain ⟨a1, a2, a3, a4⟩ := ownNamed x p hx
    obtain ⟨b1, b2, b3, b4⟩ := ownNamed y q hy
    have e1 : f1 x = e.1 := k4n _ a1 _ n1.1 a2 n1.2.1 (by rw [a3]; exact C09_denotation_unique m hd r hr _ _ _ hp (nodeFor_denotes hr n1)) n1.2.2.1
    have e2 : f1 y = e.2 := k4n _ b1 _ n2.1 b2 n2.2.1 (by rw [b3]; exact C09_denotation_unique m hd r hr _ _ _ hq (nodeFor_denotes hr n2)) n2.2.2.1
    obtain ⟨L1, L2, hL⟩ := List.append_of_mem he
    have hs := (noReuse_split (L1 := L1) (L2 := L2) (e := e) (hL ▸ hreuse) (hL ▸ c2)).1
    show substAll L (f1 x) = substAll L (f1 y)
    rw [e1, e2, hL]
    exact hs.symm

end Csdl
