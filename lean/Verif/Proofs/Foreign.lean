import Verif.Proofs.Shared
import Verif.Props.Compile
import Verif.Spec.Foreign
/-
Names of the variables of an accepted model.
-/
namespace Csdl

section
variable {I : NHeap} {p2u : Dict Name (List Name)} {u2p : Dict Name Name} {x : Name}

/-- the name is in one of the maps -/
def InMaps (p2u : Dict Name (List Name)) (u2p : Dict Name Name) (k : Name) : Prop := p2u.has k = true ∨ ∃ p, u2p.get? k = some p

/-- no custom operation computes a variable named `x` -/
def Clean (I : NHeap) (x : Name) (g : Graph) : Prop := ∀ a b, g.Edge a b → (I a).kind = .op → (I a).custom = true → (I b).name ≠ x

theorem assignNs_known {uns : Name} {st st' : FState} {v : Nat} (h : assignNs I p2u u2p uns st v = .ok st') (hc : Clean I x st.graph) (hx : (I v).name = x) (ha : (I v).auto ≠ x) :
    InMaps p2u u2p (prependNamespace uns x) := by
  unfold assignNs at h
  dsimp only at h
  rw [hx] at h
  by_cases hp : p2u.has (prependNamespace uns x) = true
  · exact Or.inl hp
  · rw [if_neg hp] at h
    cases hu : u2p.get? (prependNamespace uns x) with
    | some p => exact Or.inr ⟨p, hu⟩
    | none =>
      exfalso
      rw [hu] at h
      dsimp only at h
      cases hk : checkUnknown I st.graph v with
      | error e => rw [hk] at h; cases h
      | ok y =>
        unfold checkUnknown at hk
        rw [hx, if_neg (fun e => ha e.symm)] at hk
        cases hpr : st.graph.preds v with
        | nil => rw [hpr] at hk; cases hk
        | cons p l =>
          rw [hpr] at hk
          dsimp only at hk
          have he : st.graph.Edge p v := Graph.mem_preds.1 (by rw [hpr]; simp)
          by_cases h1 : (I p).kind ≠ .op
          · rw [if_pos h1] at hk; cases hk
          · rw [if_neg h1] at hk
            by_cases h2 : (I p).custom = true
            · exact hc p v he (not_not.1 h1) h2 hx
            · rw [if_neg h2] at hk; cases hk

theorem assignAll_known {uns : Name} (vs : List Nat) {st st' : FState} (h : assignAll I p2u u2p uns st vs = .ok st') (hc : Clean I x st.graph) :
    st'.graph = st.graph ∧ ∀ v ∈ vs, (I v).name = x → (I v).auto ≠ x → InMaps p2u u2p (prependNamespace uns x) := by
  induction vs generalizing st with
  | nil => cases h; simp
  | cons v vs ih =>
    simp only [assignAll] at h
    cases ha : assignNs I p2u u2p uns st v with
    | error e => rw [ha] at h; cases h
    | ok st1 =>
      rw [ha] at h
      dsimp only at h
      have hg := (assignNs_ok ha).1
      obtain ⟨b1, b2⟩ := ih h (by rw [hg]; exact hc)
      refine ⟨b1.trans hg, ?_⟩
      intro w hw
      rcases List.mem_cons.1 hw with rfl | hw
      · exact fun e1 e2 => assignNs_known ha hc e1 e2
      · exact b2 w hw

theorem mergeKids_known (kids : Kids) : ∀ {ns : Name} {st st' : FState}, mergeKids I p2u u2p kids ns st = .ok st' → Clean I x st.graph →
    (∀ path g ks, kids.At path g ks → Clean I x g) →
    Clean I x st'.graph ∧ ∀ path g ks, kids.At path g ks → ∀ v ∈ g.nodes, (I v).kind = .var → (I v).name = x → (I v).auto ≠ x →
      InMaps p2u u2p (prependNamespace (descend ns path) x) := by
  induction kids with
  | nil =>
    intro ns st st' h hc _
    cases h
    exact ⟨hc, fun path g ks h => by cases h⟩
  | cons id n g ks rest ihk ihr =>
    intro ns st st' h hc hk
    simp only [mergeKids] at h
    have hc1 : Clean I x ((st.graph.addEdges g.edges).addNodes g.nodes) := by
      intro a b he
      unfold Graph.Edge at he
      rw [Graph.edges_addNodes] at he
      rcases Graph.mem_edges_addEdges.1 he with he | he
      · exact hc a b he
      · exact hk _ _ _ .head a b he
    cases ha : assignAll I p2u u2p (prependNamespace ns n) { st with graph := (st.graph.addEdges g.edges).addNodes g.nodes } (varNodes I g) with
    | error e => rw [ha] at h; cases h
    | ok st2 =>
      rw [ha] at h
      dsimp only at h
      obtain ⟨a1, a2⟩ := assignAll_known (x := x) (varNodes I g) ha hc1
      dsimp only at a1
      cases hm : mergeKids I p2u u2p ks (prependNamespace ns n) { st2 with graph := st2.graph.removeNodes ks.ids } with
      | error e => rw [hm] at h; cases h
      | ok st3 =>
        rw [hm] at h
        dsimp only at h
        obtain ⟨k1, k2⟩ := ihk hm (by
          intro a b he
          dsimp only at he
          rw [Graph.edge_removeNodes, a1] at he
          exact hc1 a b he.1) (fun p a b hp => hk _ _ _ (.inside hp))
        obtain ⟨r1, r2⟩ := ihr h k1 (fun p a b hp => hk _ _ _ (.next hp))
        refine ⟨r1, ?_⟩
        intro path g' ks' hat v hv hkind
        cases hat with
        | head => exact a2 v (by simp [varNodes, hv, hkind])
        | inside hat => exact k2 _ _ _ hat v hv hkind
        | next hat => exact r2 _ _ _ hat v hv hkind

/-! ### contractions -/

theorem Graph.mem_contract_of {g : Graph} {u v a : Nat} (ha : a ∈ g.nodes) (hv : a ≠ v) : a ∈ (g.contract u v).nodes := by
  unfold Graph.contract
  dsimp only
  rw [Graph.mem_nodes_addEdges, Graph.mem_nodes_removeNode]
  exact Or.inl ⟨ha, hv⟩

theorem contractions_keep (L : List (Nat × Nat)) : ∀ {g : Graph} {a : Nat}, a ∈ g.nodes → (∀ e ∈ L, e.2 ≠ a) → a ∈ (L.foldl (fun g e => g.contract e.1 e.2) g).nodes := by
  induction L with
  | nil => intro g a h _; exact h
  | cons e L ih =>
    intro g a h hn
    rw [List.foldl_cons]
    exact ih (Graph.mem_contract_of h (fun h' => hn e (by simp) h'.symm)) (fun e' he' => hn e' (by simp [he']))

/-- no custom operation computes a variable with the promoted name `x` -/
def CleanP (I : NHeap) (st : FState) (x : Name) (g : Graph) : Prop := ∀ a b, g.Edge a b → (I a).kind = .op → (I a).custom = true → st.pname I b ≠ x

theorem contractions_clean {st : FState} (L : List (Nat × Nat)) : ∀ {g : Graph}, CleanP I st x g → (∀ e ∈ L, (I e.1).kind = .var ∧ st.pname I e.1 = st.pname I e.2) →
    CleanP I st x (L.foldl (fun g e => g.contract e.1 e.2) g) := by
  induction L with
  | nil => intro g h _; exact h
  | cons e L ih =>
    intro g h hL
    rw [List.foldl_cons]
    refine ih ?_ (fun e' he' => hL e' (by simp [he']))
    obtain ⟨h1, h2⟩ := hL e (by simp)
    intro a b hab hop hcu
    rcases Graph.edge_contract.1 hab with ⟨h3, _⟩ | ⟨h3, _, _, rfl⟩ | ⟨_, _, _, rfl⟩
    · exact h a b h3 hop hcu
    · rw [h2]; exact h a _ h3 hop hcu
    · rw [h1] at hop; cases hop

theorem mergeAuto_keeps {order : List Nat → List Nat} (ho : ∀ l x, x ∈ order l ↔ x ∈ l) {st : FState} (hnd : st.graph.nodes.Nodup) (hc : CleanP I st x st.graph) :
    CleanP I st x (mergeAuto I order st) ∧
    ∀ v ∈ st.graph.nodes, (I v).kind = .var → ∃ w ∈ (mergeAuto I order st).nodes, w ∈ st.graph.nodes ∧ (I w).kind = .var ∧ st.pname I w = st.pname I v := by
  obtain ⟨u1, u2, u3⟩ := uniqueTargets_spec (I := I) (st := st) (tgtNodes I (varNodes I st.graph))
  have hnd' : (tgtNodes I (varNodes I st.graph)).Nodup := (hnd.filter _).filter _
  generalize hu : uniqueTargets I st (tgtNodes I (varNodes I st.graph)) = u at u1 u2 u3
  have hrem := fun x => mem_removeAll (u.map (·.2)) hnd' x
  generalize hR : removeAll (tgtNodes I (varNodes I st.graph)) (u.map (·.2)) = R at hrem
  obtain ⟨g1, g2⟩ := groupTargets_spec (I := I) (st := st) R
  generalize hgr : groupTargets I st R = red at g1 g2
  have hsn : (Dict.ofPairs ((srcNodes I (varNodes I st.graph)).map fun x => (st.pname I x, x))).keys.Nodup := Dict.nodup_ofPairs _
  have hsg : ∀ k s, (Dict.ofPairs ((srcNodes I (varNodes I st.graph)).map fun x => (st.pname I x, x))).get? k = some s →
      IsSource I st.graph s ∧ st.pname I s = k := by
    intro k s h
    have h' : Dict.get? (Dict.update [] ((srcNodes I (varNodes I st.graph)).map fun x => (st.pname I x, x))) k = some s := h
    rcases Dict.mem_update h' with h1 | h1
    · obtain ⟨y, hy, he⟩ := List.mem_map.1 h1
      cases he
      exact ⟨mem_sources.1 hy, rfl⟩
    · simp [Dict.get?] at h1
  generalize hS : Dict.ofPairs ((srcNodes I (varNodes I st.graph)).map fun x => (st.pname I x, x)) = S at hsn hsg
  have hmerge : mergeAuto I order st = (redPairs order u red ++ srcPairs u S).foldl (fun g e => g.contract e.1 e.2) st.graph := by
    unfold mergeAuto
    dsimp only
    rw [hu, hR, hgr, hS, contractRedundant_eq, contractSources_eq, List.foldl_append]
  have hred : ∀ a b, (a, b) ∈ redPairs order u red → IsTarget I st.graph a ∧ IsTarget I st.graph b ∧ st.pname I a = st.pname I b ∧ u.get? (st.pname I a) = some a ∧ ∀ k, u.get? k ≠ some b := by
    intro a b h
    obtain ⟨k, ts, h1, h2, h3⟩ := (mem_redPairs ho g1).1 h
    obtain ⟨h4, rfl⟩ := (g2 k ts h1 b).1 h2
    obtain ⟨h5, h6⟩ := (hrem b).1 h4
    obtain ⟨h7, h8, _⟩ := u1 _ _ h3
    refine ⟨mem_targets.1 h7, mem_targets.1 h5, h8, by rw [h8]; exact h3, ?_⟩
    intro k hk
    exact h6 (List.mem_map.2 ⟨(k, b), Dict.get?_some_mem hk, rfl⟩)
  have hsrc : ∀ a b, (a, b) ∈ srcPairs u S → IsSource I st.graph a ∧ IsTarget I st.graph b ∧ st.pname I a = st.pname I b := by
    intro a b h
    obtain ⟨k, h1, h2⟩ := (mem_srcPairs hsn).1 h
    obtain ⟨h3, rfl⟩ := hsg _ _ h1
    obtain ⟨h4, h5, _⟩ := u1 _ _ h2
    exact ⟨h3, mem_targets.1 h4, h5.symm⟩
  have hpairs : ∀ e ∈ redPairs order u red ++ srcPairs u S, (I e.1).kind = .var ∧ st.pname I e.1 = st.pname I e.2 ∧ IsTarget I st.graph e.2 := by
    rintro ⟨a, b⟩ he
    rcases List.mem_append.1 he with he | he
    · obtain ⟨h1, h2, h3, _⟩ := hred a b he; exact ⟨h1.2.1, h3, h2⟩
    · obtain ⟨h1, h2, h3⟩ := hsrc a b he; exact ⟨h1.2.1, h3, h2⟩
  rw [hmerge]
  refine ⟨contractions_clean _ hc (fun e he => ⟨(hpairs e he).1, (hpairs e he).2.1⟩), ?_⟩
  -- sources stay
  have hstay : ∀ s, IsSource I st.graph s → s ∈ ((redPairs order u red ++ srcPairs u S).foldl (fun g e => g.contract e.1 e.2) st.graph).nodes := by
    intro s hs
    refine contractions_keep _ hs.1 ?_
    rintro e he rfl
    exact hs.2.2 (hpairs e he).2.2.2.2
  -- the chosen targets stay or are merged with a source
  have hchosen : ∀ r, IsTarget I st.graph r → (∀ a, (a, r) ∉ redPairs order u red) →
      ∃ w ∈ ((redPairs order u red ++ srcPairs u S).foldl (fun g e => g.contract e.1 e.2) st.graph).nodes, w ∈ st.graph.nodes ∧ (I w).kind = .var ∧ st.pname I w = st.pname I r := by
    intro r hr hn
    by_cases hs : ∃ a, (a, r) ∈ srcPairs u S
    · obtain ⟨a, ha⟩ := hs
      obtain ⟨h1, _, h3⟩ := hsrc a r ha
      exact ⟨a, hstay a h1, h1.1, h1.2.1, h3⟩
    · refine ⟨r, contractions_keep _ hr.1 ?_, hr.1, hr.2.1, rfl⟩
      rintro ⟨a, b⟩ he rfl
      rcases List.mem_append.1 he with he | he
      · exact hn a he
      · exact hs ⟨a, he⟩
  intro v hv hk
  by_cases hrole : (I v).role = .declared
  · by_cases hvr : ∃ a, (a, v) ∈ redPairs order u red
    · obtain ⟨a, ha⟩ := hvr
      obtain ⟨h1, _, h3, h4, _⟩ := hred a v ha
      obtain ⟨w, w1, w0, w2, w3⟩ := hchosen a h1 (by
        intro b hb
        exact (hred b a hb).2.2.2.2 _ h4)
      exact ⟨w, w1, w0, w2, w3.trans h3⟩
    · exact hchosen v ⟨hv, hk, hrole⟩ (fun a ha => hvr ⟨a, ha⟩)
  · exact ⟨v, hstay v ⟨hv, hk, hrole⟩, hv, hk, rfl⟩

/-! ### indexing -/

theorem indexNodes_inMaps {st : FState} {g : Graph} (vs : List Nat) : ∀ {d d' : NodeMaps}, indexNodes I st p2u u2p g vs d = .ok d' → CleanP I st x g →
    ∀ v ∈ vs, (I v).kind = .var → st.pname I v = x → (I v).name ≠ (I v).auto → p2u.has x = true := by
  induction vs with
  | nil => intro d d' _ _ v hv; simp at hv
  | cons w vs ih =>
    intro d d' h hc v hv hk hp ha
    simp only [indexNodes] at h
    cases hw : indexNode I st p2u u2p g d w with
    | error e => rw [hw] at h; cases h
    | ok d1 =>
      rw [hw] at h
      dsimp only at h
      rcases List.mem_cons.1 hv with rfl | hv
      · unfold indexNode at hw
        rw [if_neg (by simp [hk])] at hw
        by_cases h1 : 1 < (g.preds v).length
        · rw [if_pos h1] at hw; cases hw
        · rw [if_neg h1, if_neg ha, hp] at hw
          cases hg : p2u.get? x with
          | some us => rw [Dict.has_iff]; exact List.mem_map.2 ⟨_, Dict.get?_some_mem hg, rfl⟩
          | none =>
            exfalso
            rw [hg] at hw
            dsimp only at hw
            cases hk' : checkCustom I g v with
            | error e => rw [hk'] at hw; cases hw
            | ok y =>
              unfold checkCustom at hk'
              cases hpr : g.preds v with
              | nil => rw [hpr] at hk'; cases hk'
              | cons p l =>
                rw [hpr] at hk'
                dsimp only at hk'
                have he : g.Edge p v := Graph.mem_preds.1 (by rw [hpr]; simp)
                by_cases h2 : (I p).kind ≠ .op
                · rw [if_pos h2] at hk'; cases hk'
                · rw [if_neg h2] at hk'
                  by_cases h3 : (I p).custom = true
                  · exact hc p v he (not_not.1 h2) h3 hp
                  · rw [if_neg h3] at hk'; cases hk'
      · exact ih h hc v hv hk hp ha

theorem pname_nodot {ns y : Name} (hx : '.' ∉ x) (h : prependNamespace ns y = x) : ns = [] ∧ y = x := by
  unfold prependNamespace at h
  by_cases hn : ns = []
  · subst hn
    exact ⟨rfl, by simpa using h⟩
  · exfalso
    split at h
    · rename_i h'
      simp_all
    · rw [← h] at hx
      simp at hx

end
/-! ### the graphs of the models -/

/-- the graph of one model object, when only its names are known to be well formed -/
structure GraphNames (H : Objs) (m : OModel) (g : Graph) : Prop where
  wf : g.WF
  nodes : ∀ a ∈ g.nodes, m.Owns H a
  subs : ∀ i ∈ m.subs.map OSub.id, i ∈ g.nodes
  linked : ∀ c, m.Linked H c → ∃ r ∈ g.nodes, (m.Needs H r ∨ r ∈ m.inputs) ∧ (H r).name = (H c).name ∧ (H r).kind = (H c).kind
  edges : ∀ a b, g.Edge a b → ∃ u v, m.Needs H u ∧ m.Needs H v ∧ DependsOn H.heap v u ∧ (H b).name = (H v).name ∧ (H a).kind = (H u).kind ∧ ((H u).kind = .op → a = u)

theorem graphNames {H : Objs} {n fuel : Nat} {m : OModel} (hk : NamesOk H.heap (m.subs.map OSub.id) m.inputs (m.outputs ++ m.declared)) (hb : Bounded H.heap n (m.outputs ++ m.declared))
    (hn : (m.subs.map fun s => (H s.id).name).Nodup) (hf : (m.outputs ++ m.declared).length + n ≤ fuel) :
    ∃ st, buildGraph H.heap (m.subs.map OSub.id) m.inputs m.outputs m.declared fuel = .ok st ∧ GraphNames H m st.graph := by
  obtain ⟨st, hst, hi⟩ := buildGraph_inv hk hb hf
  obtain ⟨a1, a2, _, _, _, _, a7⟩ := addModels_spec (h := H.heap) (m.subs.map OSub.id) ({}, []) [] (by simp [Dict.get?]) (by simp [Dict.get?]) (by simp [Dict.get?]) rfl Graph.wf_empty
  have hin : ∀ k r, (Dict.ofPairs (m.inputs.map fun i => ((H.heap i).name, i))).get? k = some r → (H.heap r).name = k ∧ r ∈ m.inputs := by
    intro k r hr
    have hr' : Dict.get? (Dict.update [] (m.inputs.map fun i => ((H.heap i).name, i))) k = some r := hr
    rcases Dict.mem_update hr' with h1 | h1
    · obtain ⟨i, hi, he⟩ := List.mem_map.1 h1
      cases he
      exact ⟨rfl, hi⟩
    · simp [Dict.get?] at h1
  have hown : ∀ k r, st.nodes.get? k = some r → m.Owns H r := by
    intro k r hr
    rcases hi.content _ _ hr with h1 | h1 | h1
    · exact Or.inr (Or.inr h1)
    · exact Or.inl h1
    · exact Or.inr (Or.inl h1)
  have hnode : ∀ u, m.Needs H u → ∀ r, st.nodes.get? (H u).name = some r → (m.Needs H r ∨ r ∈ m.inputs) ∧ (H r).name = (H u).name ∧ (H r).kind = (H u).kind := by
    intro u hu r hr
    obtain ⟨h1, h2, _⟩ := hi.rep hk hu hr
    refine ⟨?_, h1, h2⟩
    rcases hi.content _ _ hr with h3 | h3 | h3
    · exact absurd h1 (hk.subNames r h3 u (Or.inl hu))
    · exact Or.inr h3
    · exact Or.inl h3
  refine ⟨st, hst, hi.wf, ?_, ?_, ?_, ?_⟩
  · intro a ha
    rcases (hi.nodes a).1 ha with (h1 | h1) | ⟨b, h1 | h1⟩
    · rcases a2 _ _ h1 with h2 | h2
      · cases h2
      · exact Or.inr (Or.inr h2)
    · exact Or.inl (hin _ _ h1).2
    · obtain ⟨u, v, _, h2, _⟩ := (hi.edges _ _).1 h1; exact hown _ _ h2
    · obtain ⟨u, v, _, _, h2⟩ := (hi.edges _ _).1 h1; exact hown _ _ h2
  · intro i hi'
    obtain ⟨r, hr⟩ := a7 i hi'
    have hrs : r ∈ m.subs.map OSub.id := by
      rcases a2 _ _ hr with h2 | h2
      · cases h2
      · exact h2
    have : i = r := by
      obtain ⟨s, hs, rfl⟩ := List.mem_map.1 hi'
      obtain ⟨s', hs', rfl⟩ := List.mem_map.1 hrs
      rw [List.inj_on_of_nodup_map hn hs hs' (a1 _ _ hr).symm]
    subst this
    exact (hi.nodes i).2 (Or.inl (Or.inl hr))
  · rintro c ⟨hc, w, hw, hd | hd⟩
    · have hE := (linkOf_iff (h := H.heap) (leaves := m.outputs ++ m.declared)).2 ⟨hw, hc, hd⟩
      obtain ⟨_, _, ⟨a, ha⟩, ⟨b, hb⟩⟩ := hi.present _ _ hE
      have he := (hi.edges a b).2 ⟨_, _, hE, ha, hb⟩
      exact ⟨b, hi.wf.right _ _ he, hnode c hc b hb⟩
    · have hE := (linkOf_iff (h := H.heap) (leaves := m.outputs ++ m.declared)).2 ⟨hc, hw, hd⟩
      obtain ⟨_, _, ⟨a, ha⟩, ⟨b, hb⟩⟩ := hi.present _ _ hE
      have he := (hi.edges a b).2 ⟨_, _, hE, ha, hb⟩
      exact ⟨a, hi.wf.left _ _ he, hnode c hc a ha⟩
  · intro a b hab
    obtain ⟨u, v, hE, h1, h2⟩ := (hi.edges a b).1 hab
    obtain ⟨hu, hv, hd⟩ := linkOf_iff.1 hE
    obtain ⟨p1, p2, p3⟩ := hi.rep hk hu h1
    obtain ⟨q1, q2, q3⟩ := hi.rep hk hv h2
    exact ⟨u, v, hu, hv, hd, q1, p2, p3⟩

section
variable {H : Objs} {n fuel : Nat} {root : OModel} {g : Graph} {kids : Kids}

/-- the models have separate objects -/
def Separate (H : Objs) (root : OModel) : Prop := ∀ path m path' m', OAt H root path m → OAt H root path' m' → ∀ c, m.Owns H c → m'.Owns H c → path = path'

theorem graphNames_graphs (hok : MixedOk H n root) (hf : Enough H n fuel root) {path m g' ks'} (h : OAt H root path m) (hg : m.graphs H fuel = .ok (g', ks')) : GraphNames H m g' := by
  obtain ⟨st, h1, h2⟩ := graphNames (hok.names path m h) (hok.bounded path m h).1 (hok.dotFree.subNames h) (hf path m h)
  obtain ⟨_, st', h3, rfl⟩ := graphs_ok hg
  rw [h1] at h3
  cases h3
  exact h2

theorem hierOk_mixed (hok : MixedOk H n root) (hsep : Separate H root) (hf : Enough H n fuel root) (hg : root.graphs H fuel = .ok (g, kids)) : HierOk g kids := by
  have hier : ∀ {path g' ks'}, HierAt g kids path g' ks' → ∃ m, OAt H root path m ∧ GraphNames H m g' ∧ m.graphs H fuel = .ok (g', ks') := by
    intro path g' ks' hp
    obtain ⟨m, h1, h2⟩ := hierAt_oat hg hp
    exact ⟨m, h1, graphNames_graphs hok hf h1 h2, h2⟩
  have hwf : ∀ path g' ks', HierAt g kids path g' ks' → g'.WF := by
    intro path g' ks' hp
    obtain ⟨m, _, h2, _⟩ := hier hp
    exact h2.wf
  have hs : ∀ path g' ks' path' g'' ks'', HierAt g kids path g' ks' → HierAt g kids path' g'' ks'' → ∀ x ∈ g'.nodes, x ∈ g''.nodes → path = path' := by
    intro path g' ks' path' g'' ks'' h h' x hx hx'
    obtain ⟨m, a1, a2, _⟩ := hier h
    obtain ⟨m', b1, b2, _⟩ := hier h'
    exact hsep path m path' m' a1 b1 x (a2.nodes x hx) (b2.nodes x hx')
  refine ⟨hwf, ?_, ?_⟩
  · rw [List.nodup_append]
    refine ⟨(hwf _ _ _ (Or.inl ⟨rfl, rfl, rfl⟩)).nodup, allNodes_nodup kids ?_ (kids_names kids (graphs_ok hg).1).1 ?_, ?_⟩
    · intro path g' ks' hp
      obtain ⟨m, _, _, h3⟩ := hier (Or.inr hp)
      exact ⟨(hwf _ _ _ (Or.inr hp)).nodup, (kids_names ks' (graphs_ok h3).1).1⟩
    · intro path g' ks' path' g'' ks'' h h'
      exact hs _ _ _ _ _ _ (Or.inr h) (Or.inr h')
    · intro a ha b hb hab
      subst hab
      obtain ⟨n', path, g', ks', h1, h2, _⟩ := mem_allNodes hb
      have := hs _ _ _ _ _ _ (Or.inl ⟨rfl, rfl, rfl⟩) (Or.inr h1) a ha h2
      cases this
  · intro path g' ks' hp i hi
    obtain ⟨m, _, h2, h3⟩ := hier hp
    refine h2.subs i ?_
    rw [OModel.subs_eq]
    exact kids_ids ks' (graphs_ok h3).1 i hi

theorem denotes_of_inMaps {m : Model} (hd : DotFree m) {r : Res} (hr : resolve m none = .ok r) {k : Name} (h : InMaps r.p2u (createReverseMap r.p2u) k) : ∃ p, Denotes m k p := by
  rcases h with h | ⟨p, h⟩
  · obtain ⟨path, kd, v, h1⟩ := (p2u_has hr k).1 h
    exact ⟨k, .promoted h1⟩
  · have h1 := (reverse_iff (p2u_facts m hr).1 (fun p p' u => p2u_functional hd hr) k p).1 h
    obtain ⟨path, kd, v, h2, rfl⟩ := ((p2u_facts m hr).2.2 p k).1 h1
    exact ⟨p, .full h2⟩

theorem known_names (hok : MixedOk H n root) (hsep : Separate H root) (hf : Enough H n fuel root) {order : List Nat → List Nat} (ho : ∀ l x, x ∈ order l ↔ x ∈ l) {rep : Rep}
    (hc : compile H fuel order root = .ok rep) {x : Name} (hx : UserName H n x) {path : List Name} {m : OModel} (hm : OAt H root path m) {c : Nat} (hl : m.Linked H c)
    (hk : (H c).kind = .var) (hn : (H c).name = x) : KnownAt H root path x := by
  obtain ⟨r, g, kids, hr, hg, hflat, _, _⟩ := compile_ok hc
  have hier : ∀ {path g' ks'}, HierAt g kids path g' ks' → ∃ m, OAt H root path m ∧ GraphNames H m g' ∧ m.graphs H fuel = .ok (g', ks') := by
    intro path g' ks' hp
    obtain ⟨m, h1, h2⟩ := hierAt_oat hg hp
    exact ⟨m, h1, graphNames_graphs hok hf h1 h2, h2⟩
  have below : ∀ {path m}, OAt H root path m → ∀ {a}, m.Needs H a ∨ a ∈ m.inputs → a < n := by
    intro path m h a ha
    exact ha.elim (needs_below (hok.bounded _ _ h).1) ((hok.bounded _ _ h).2.1 a)
  have hclean : ∀ path g' ks', HierAt g kids path g' ks' → Clean H.info x g' := by
    intro path g' ks' hp a b hab hop hcu
    obtain ⟨m', h1, h2, _⟩ := hier hp
    obtain ⟨u, v, hu, hv, hd, e1, e2, e3⟩ := h2.edges a b hab
    have hop' : (H a).kind = .op := hop
    have := e3 (e2.symm.trans hop')
    subst this
    show (H b).name ≠ x
    rw [e1]
    exact hx.custom a (below h1 (Or.inl hu)) hop' hcu v (below h1 (Or.inl hv)) hd
  obtain ⟨g', ks', hp, hgr⟩ := oat_hierAt hm hok.dotFree hg
  have hgn := graphNames_graphs hok hf hm hgr
  obtain ⟨a, ha, hb, e1, e2⟩ := hgn.linked c hl
  have haa : (H.info a).auto ≠ x := hx.auto a (below hm hb)
  have hak : (H.info a).kind = .var := e2.trans hk
  have han : (H.info a).name = x := e1.trans hn
  have hfull : prependNamespace (descend [] path) x = fullName path x := by
    rw [descend_prepend path (at_good hok.dotFree hm.toAt)]; simp [prependNamespace, fullName]
  unfold constructFlat at hflat
  cases hfl : flatten H.info r.p2u (createReverseMap r.p2u) g kids with
  | error e => rw [hfl] at hflat; cases hflat
  | ok st =>
    rw [hfl] at hflat
    dsimp only at hflat
    have hfl' := hfl
    unfold flatten at hfl
    obtain ⟨k1, k2⟩ := mergeKids_known (x := x) kids hfl (by
      intro a b hab
      dsimp only at hab
      rw [Graph.edge_removeNodes] at hab
      exact hclean _ _ _ (Or.inl ⟨rfl, rfl, rfl⟩) a b hab.1) (fun p a b hp => hclean _ _ _ (Or.inr hp))
    have hho := hierOk_mixed hok hsep hf hg
    rcases hp with ⟨rfl, rfl, rfl⟩ | hp
    · -- the main model
      have hdis : ∀ v ∈ g'.nodes, v ∉ ks'.allNodes := fun v hv hv' => (List.nodup_append.1 hho.distinct).2.2 v hv v hv' rfl
      have hnid : a ∉ ks'.ids := by
        intro hi
        have hs := kids_ids ks' (graphs_ok hg).1 a hi
        rw [← OModel.subs_eq] at hs
        have h0 : root = m := by cases hm; rfl
        subst h0
        exact (hok.names _ _ hm).subNames a hs a hb.symm.symm rfl
      have hw0 : (g'.removeNodes ks'.ids).WF := Graph.wf_removeNodes (hho.wf _ _ _ (Or.inl ⟨rfl, rfl, rfl⟩)) _
      obtain ⟨w1, w2, _, w4, _⟩ := mergeKids_graph ks' ⟨fun p a b hp => hho.wf p a b (Or.inr hp), (List.nodup_append.1 hho.distinct).2.1, fun p a b hp => hho.ids p a b (Or.inr hp)⟩
        hw0 (by
          intro v hv
          dsimp only at hv
          rw [Graph.mem_nodes_removeNodes] at hv
          exact hdis v hv.1) hfl
      dsimp only at w2 w4
      have hast : a ∈ st.graph.nodes := (w2 a).2 (Or.inl (by rw [Graph.mem_nodes_removeNodes]; exact ⟨ha, hnid⟩))
      have hns := (w4 a (hdis a ha)).1
      rw [if_pos (by simp [varNodes, ha, hak])] at hns
      unfold rootNs at hns
      rw [han] at hns
      unfold KnownAt
      show ∃ p, Denotes _ x p
      by_cases hin : InMaps r.p2u (createReverseMap r.p2u) x
      · exact denotes_of_inMaps hok.dotFree hr hin
      · exfalso
        apply hin
        have hp : r.p2u.has x ≠ true := fun h => hin (Or.inl h)
        have hu : (createReverseMap r.p2u).get? x = none := by
          cases hu : (createReverseMap r.p2u).get? x with
          | none => rfl
          | some p => exact absurd (Or.inr ⟨p, hu⟩) hin
        rw [if_neg hp, hu] at hns
        dsimp only at hns
        have hpn : st.pname H.info a = x := by
          unfold FState.pname
          rw [hns, han]
          simp [prependNamespace]
        have hcp : CleanP H.info st x st.graph := by
          intro u v huv hop hcu he
          exact k1 u v huv hop hcu (pname_nodot hx.dots he).2
        obtain ⟨c1, c2⟩ := mergeAuto_keeps ho w1.nodup hcp
        obtain ⟨w, hw1, hw0, hw2, hw3⟩ := c2 a hast hak
        have hwx := hw3.trans hpn
        have hwn := (pname_nodot hx.dots hwx).2
        unfold mergeConnections at hflat
        cases hix : indexNodes H.info st r.p2u (createReverseMap r.p2u) (mergeAuto H.info order st) (mergeAuto H.info order st).nodes {} with
        | error e => rw [hix] at hflat; cases hflat
        | ok d =>
          refine Or.inl (indexNodes_inMaps _ hix c1 w hw1 hw2 hwx ?_)
          rw [hwn]
          have howns : ∀ path g1 ks1, HierAt g' ks' path g1 ks1 → w ∈ g1.nodes → w < n := by
            intro path g1 ks1 hp1 hw
            obtain ⟨m1, o1, o2, _⟩ := hier hp1
            rcases o2.nodes w hw with h | h | h
            · exact below o1 (Or.inr h)
            · exact below o1 (Or.inl h)
            · obtain ⟨s, hs, rfl⟩ := List.mem_map.1 h
              exact (hok.bounded _ _ o1).2.2 s hs
          refine fun he => hx.auto w ?_ he.symm
          rcases (w2 w).1 hw0 with h | ⟨p1, g1, ks1, h1, h2, _⟩
          · rw [Graph.mem_nodes_removeNodes] at h
            exact howns [] _ _ (Or.inl ⟨rfl, rfl, rfl⟩) h.1
          · exact howns _ _ _ (Or.inr h1) h2
    · have := k2 path g' ks' hp a ha hak han haa
      rw [hfull] at this
      exact denotes_of_inMaps hok.dotFree hr this

/-! ### several uses of models and objects -/

theorem MixedOk.below (hok : MixedOk H n root) : AllBelow H n root := by
  intro path m hm
  obtain ⟨hb, h1, h2⟩ := hok.bounded path m hm
  refine ⟨fun c hc => ?_, h2⟩
  simp only [OModel.vars, List.mem_append] at hc
  rcases hc with (hc | hc) | hc
  · exact h1 c hc
  · exact hb.leaves c (by simp [hc])
  · exact hb.leaves c (by simp [hc])

theorem namesOk_unfold {m : OModel} (hb : Bounded H.heap n (m.outputs ++ m.declared)) (hk : NamesOk H.heap (m.subs.map OSub.id) m.inputs (m.outputs ++ m.declared))
    (hin : ∀ c ∈ m.inputs, c < n) (hsub : ∀ s ∈ m.subs, s.id < n) (k : Nat) :
    NamesOk (H.uses n).heap ((m.unfold n k).subs.map OSub.id) (m.unfold n k).inputs ((m.unfold n k).outputs ++ (m.unfold n k).declared) := by
  have below : ∀ c, m.Needs H c ∨ c ∈ m.inputs → c < n := fun c hc => hc.elim (needs_below hb) (hin c)
  have both : ∀ c, (Needed (H.uses n).heap ((m.unfold n k).outputs ++ (m.unfold n k).declared) c ∨ c ∈ (m.unfold n k).inputs) → ∃ i, c = k * n + i ∧ (m.Needs H i ∨ i ∈ m.inputs) := by
    rintro c (hc | hc)
    · obtain ⟨i, rfl, hi⟩ := (needs_unfold hb k).1 hc
      exact ⟨i, rfl, Or.inl hi⟩
    · rw [OModel.unfold_inputs] at hc
      obtain ⟨i, hi, rfl⟩ := List.mem_map.1 hc
      exact ⟨i, rfl, Or.inr hi⟩
  have subs' : ∀ s' ∈ (m.unfold n k).subs, ∃ s ∈ m.subs, s'.id = k * n + s.id := by
    intro s' hs'
    rw [OModel.subs_eq, OModel.unfold_osubs, mem_unfold_subs] at hs'
    obtain ⟨s, k1, hs, rfl⟩ := hs'
    exact ⟨s, by rw [OModel.subs_eq]; exact hs.mem, rfl⟩
  refine ⟨?_, ?_, ?_, ?_⟩
  · intro c hc
    obtain ⟨i, rfl, hi⟩ := (needs_unfold hb k).1 hc
    simp only [Objs.heap, uses_at H k (needs_below hb hi)]
    exact hk.kinds i hi
  · intro c hc
    rw [OModel.unfold_inputs] at hc
    obtain ⟨i, hi, rfl⟩ := List.mem_map.1 hc
    simp only [Objs.heap, uses_at H k (hin i hi)]
    exact hk.inputVars i hi
  · intro a b ha hb' hn' hk'
    obtain ⟨i, rfl, hi⟩ := both a ha
    obtain ⟨j, rfl, hj⟩ := both b hb'
    simp only [Objs.heap, uses_at H k (below i hi), uses_at H k (below j hj)] at hn' hk'
    rw [hk.ops i j hi hj hn' hk']
  · intro s' hs' c hc
    obtain ⟨x, hx, rfl⟩ := List.mem_map.1 hs'
    obtain ⟨s, hs, e⟩ := subs' x hx
    obtain ⟨i, rfl, hi⟩ := both c hc
    rw [e]
    simp only [Objs.heap, uses_at H k (below i hi), uses_at H k (hsub s hs)]
    exact hk.subNames s.id (List.mem_map_of_mem hs) i hi

theorem bounded_unfold {m : OModel} (hb : Bounded H.heap n (m.outputs ++ m.declared)) (k size : Nat) (hk : k < size) (hn : 0 < n) :
    Bounded (H.uses n).heap (size * n) ((m.unfold n k).outputs ++ (m.unfold n k).declared) := by
  have bound : ∀ k, k < size → ∀ i, i < n → k * n + i < size * n := by
    intro k hk i hi
    calc k * n + i < k * n + n := by omega
      _ = (k + 1) * n := by rw [Nat.succ_mul]
      _ ≤ size * n := Nat.mul_le_mul_right n hk
  refine ⟨?_, ?_, ?_⟩
  · intro c hc
    obtain ⟨i, rfl, hi⟩ := (needs_unfold hb k).1 (.leaf c hc)
    exact bound k hk i (needs_below hb hi)
  · intro c hc u hu
    simp only [Objs.heap, Objs.uses] at hu
    obtain ⟨j, hj, rfl⟩ := List.mem_map.1 hu
    exact bound _ (Nat.div_lt_of_lt_mul (by rw [Nat.mul_comm]; exact hc)) j (hb.deps _ (Nat.mod_lt _ hn) j hj)
  · intro c hc u hu
    simp only [Objs.heap, Objs.uses] at hu
    obtain ⟨j, hj, rfl⟩ := List.mem_map.1 hu
    exact bound _ (Nat.div_lt_of_lt_mul (by rw [Nat.mul_comm]; exact hc)) j (hb.outs _ (Nat.mod_lt _ hn) j hj)

theorem MixedOk.toModel (hok : MixedOk H n root) : (root.unfold n 0).toModel (H.uses n) = root.toModel H := toModel_unfold root 0 hok.below

theorem MixedOk.unfold (hok : MixedOk H n root) (hn : 0 < n) : MixedOk (H.uses n) (root.size * n) (root.unfold n 0) ∧ Separate (H.uses n) (root.unfold n 0) := by
  have use : ∀ {path m'}, OAt (H.uses n) (root.unfold n 0) path m' → ∃ k m, UseAt H root 0 path k m ∧ m' = m.unfold n k := fun h => h.ofUnfold rfl hok.below
  have bound : ∀ k, k < root.size → ∀ i, i < n → k * n + i < root.size * n := by
    intro k hk i hi
    calc k * n + i < k * n + n := by omega
      _ = (k + 1) * n := by rw [Nat.succ_mul]
      _ ≤ root.size * n := Nat.mul_le_mul_right n hk
  have small : ∀ {path k m}, UseAt H root 0 path k m → k < root.size := by
    intro path k m hu
    have := hu.range
    have := m.size_pos
    omega
  refine ⟨⟨?_, ?_, by rw [hok.toModel]; exact hok.dotFree⟩, ?_⟩
  · intro path m' hm'
    obtain ⟨k, m, hu, rfl⟩ := use hm'
    obtain ⟨hb, h1, h2⟩ := hok.bounded path m hu.oat
    refine ⟨bounded_unfold hb k root.size (small hu) hn, ?_, ?_⟩
    · intro c hc
      rw [OModel.unfold_inputs] at hc
      obtain ⟨i, hi, rfl⟩ := List.mem_map.1 hc
      exact bound k (small hu) i (h1 i hi)
    · intro s hs
      rw [OModel.subs_eq, OModel.unfold_osubs, mem_unfold_subs] at hs
      obtain ⟨s', k1, hs', rfl⟩ := hs
      exact bound k (small hu) s'.id (h2 s' (by rw [OModel.subs_eq]; exact hs'.mem))
  · intro path m' hm'
    obtain ⟨k, m, hu, rfl⟩ := use hm'
    obtain ⟨hb, h1, h2⟩ := hok.bounded path m hu.oat
    exact namesOk_unfold hb (hok.names path m hu.oat) h1 h2 k
  · have owns : ∀ {path k m}, UseAt H root 0 path k m → ∀ {c}, (m.unfold n k).Owns (H.uses n) c → ∃ i, c = k * n + i ∧ i < n := by
      intro path k m hu c h
      obtain ⟨hb, h1, h2⟩ := hok.bounded path m hu.oat
      rcases h with h | h | h
      · rw [OModel.unfold_inputs] at h
        obtain ⟨i, hi, rfl⟩ := List.mem_map.1 h
        exact ⟨i, rfl, h1 i hi⟩
      · obtain ⟨i, rfl, hi⟩ := (needs_unfold hb k).1 h
        exact ⟨i, rfl, needs_below hb hi⟩
      · obtain ⟨s', hs', rfl⟩ := List.mem_map.1 h
        rw [OModel.subs_eq, OModel.unfold_osubs, mem_unfold_subs] at hs'
        obtain ⟨s, k1, hs, rfl⟩ := hs'
        exact ⟨s.id, rfl, h2 s (by rw [OModel.subs_eq]; exact hs.mem)⟩
    intro path m1 path' m2 h1 h2 c o1 o2
    obtain ⟨k1, m1, u1, rfl⟩ := use h1
    obtain ⟨k2, m2, u2, rfl⟩ := use h2
    obtain ⟨i, e1, hi⟩ := owns u1 o1
    obtain ⟨j, e2, hj⟩ := owns u2 o2
    obtain ⟨rfl, rfl⟩ := use_inj hi hj (e1.symm.trans e2)
    exact (u1.inj u2).1

theorem UserName.unfold (hok : MixedOk H n root) (hn : 0 < n) {x : Name} (hx : UserName H n x) (size : Nat) : UserName (H.uses n) (size * n) x := by
  obtain ⟨hb, _⟩ := hok.bounded [] root (.here root)
  refine ⟨hx.dots, fun i _ => hx.auto (i % n) (Nat.mod_lt _ hn), ?_⟩
  intro op _ hop hcu v _ hd
  refine hx.custom (op % n) (Nat.mod_lt _ hn) hop hcu (v % n) (Nat.mod_lt _ hn) ?_
  have mod : ∀ k j, j < n → (k * n + j) % n = j := by
    intro k j hj
    rw [Nat.add_comm, Nat.add_mul_mod_self_right, Nat.mod_eq_of_lt hj]
  rcases hd with hd | ⟨h1, h2⟩
  · simp only [Objs.heap, Objs.uses] at hd
    obtain ⟨j, hj, rfl⟩ := List.mem_map.1 hd
    rw [mod _ _ (hb.deps _ (Nat.mod_lt _ hn) j hj)]
    exact Or.inl hj
  · simp only [Objs.heap, Objs.uses] at h2
    obtain ⟨j, hj, rfl⟩ := List.mem_map.1 h2
    rw [mod _ _ (hb.outs _ (Nat.mod_lt _ hn) j hj)]
    exact Or.inr ⟨h1, hj⟩

end

end Csdl
