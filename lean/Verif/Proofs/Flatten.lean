import Verif.Spec.Flatten
import Verif.Props.Graph
import Verif.Proofs.BuildGraph
import Verif.Proofs.Collect
/-
Flattening a hierarchy of graphs.
-/
namespace Csdl

/-! ### graph operations -/

theorem Graph.mem_nodes_addEdges {g : Graph} {l : List (Nat × Nat)} {v : Nat} :
    v ∈ (g.addEdges l).nodes ↔ v ∈ g.nodes ∨ ∃ e ∈ l, v = e.1 ∨ v = e.2 := by
  unfold addEdges
  induction l generalizing g with
  | nil => simp
  | cons e l ih =>
    rw [List.foldl_cons, ih, mem_nodes_addEdge]
    simp only [List.mem_cons, exists_eq_or_imp]
    exact or_assoc

theorem Graph.mem_edges_addEdges {g : Graph} {l : List (Nat × Nat)} {u v : Nat} :
    (g.addEdges l).Edge u v ↔ g.Edge u v ∨ (u, v) ∈ l := by
  unfold addEdges
  induction l generalizing g with
  | nil => simp
  | cons e l ih =>
    rw [List.foldl_cons, ih, mem_edges_addEdge, List.mem_cons]
    constructor
    · rintro ((h | ⟨rfl, rfl⟩) | h)
      · exact Or.inl h
      · exact Or.inr (Or.inl rfl)
      · exact Or.inr (Or.inr h)
    · rintro (h | h | h)
      · exact Or.inl (Or.inl h)
      · exact Or.inl (Or.inr ⟨by rw [← h], by rw [← h]⟩)
      · exact Or.inr h

theorem Graph.mem_nodes_removeNode {g : Graph} {n v : Nat} : v ∈ (g.removeNode n).nodes ↔ v ∈ g.nodes ∧ v ≠ n := by
  simp [removeNode]

theorem Graph.edge_removeNode {g : Graph} {n u v : Nat} : (g.removeNode n).Edge u v ↔ g.Edge u v ∧ u ≠ n ∧ v ≠ n := by
  simp [removeNode, Edge]

theorem Graph.mem_nodes_removeNodes {g : Graph} {l : List Nat} {v : Nat} : v ∈ (g.removeNodes l).nodes ↔ v ∈ g.nodes ∧ v ∉ l := by
  unfold removeNodes
  induction l generalizing g with
  | nil => simp
  | cons n l ih => rw [List.foldl_cons, ih, mem_nodes_removeNode, List.mem_cons]; tauto

theorem Graph.edge_removeNodes {g : Graph} {l : List Nat} {u v : Nat} : (g.removeNodes l).Edge u v ↔ g.Edge u v ∧ u ∉ l ∧ v ∉ l := by
  unfold removeNodes
  induction l generalizing g with
  | nil => simp
  | cons n l ih => rw [List.foldl_cons, ih, edge_removeNode, List.mem_cons, List.mem_cons]; tauto

/-! ### attributes -/

section
variable {I : NHeap} {p2u : Dict Name (List Name)} {u2p : Dict Name Name}

/-- The namespace given to a variable named `x` of the model with namespace `uns`. -/
def assignedNs (p2u : Dict Name (List Name)) (u2p : Dict Name Name) (uns x old : Name) : Name :=
  if p2u.has (prependNamespace uns x) then uns
  else match u2p.get? (prependNamespace uns x) with
    | some p => namespaceOf p
    | none => old

theorem assignNs_ok {uns : Name} {st st' : FState} {v : Nat} (h : assignNs I p2u u2p uns st v = .ok st') :
    st'.graph = st.graph ∧ st'.uns = setAttr st.uns v uns ∧ st'.ns v = assignedNs p2u u2p uns (I v).name (st.ns v) ∧
    (∀ w, w ≠ v → st'.ns w = st.ns w) := by
  unfold assignNs at h
  unfold assignedNs
  dsimp only at h
  by_cases hp : p2u.has (prependNamespace uns (I v).name) = true
  · rw [if_pos hp] at h; cases h
    rw [if_pos hp]
    exact ⟨rfl, rfl, by simp [setAttr], fun w hw => by simp [setAttr, hw]⟩
  · rw [if_neg hp] at h
    rw [if_neg hp]
    cases hu : u2p.get? (prependNamespace uns (I v).name) with
    | some p =>
      rw [hu] at h; cases h
      exact ⟨rfl, rfl, by simp [setAttr], fun w hw => by simp [setAttr, hw]⟩
    | none =>
      rw [hu] at h
      dsimp only at h
      cases hc : checkUnknown I st.graph v with
      | error e => rw [hc] at h; cases h
      | ok x => rw [hc] at h; cases h; exact ⟨rfl, rfl, rfl, fun w hw => rfl⟩

theorem assignAll_ok {uns : Name} (vs : List Nat) {st st' : FState} (hn : vs.Nodup) (h : assignAll I p2u u2p uns st vs = .ok st') :
    st'.graph = st.graph ∧ (∀ v ∈ vs, st'.uns v = uns ∧ st'.ns v = assignedNs p2u u2p uns (I v).name (st.ns v)) ∧
    (∀ v, v ∉ vs → st'.uns v = st.uns v ∧ st'.ns v = st.ns v) := by
  induction vs generalizing st with
  | nil => cases h; simp
  | cons v vs ih =>
    simp only [assignAll] at h
    cases ha : assignNs I p2u u2p uns st v with
    | error e => rw [ha] at h; cases h
    | ok st1 =>
      rw [ha] at h
      dsimp only at h
      obtain ⟨a1, a2, a3, a4⟩ := assignNs_ok ha
      obtain ⟨b1, b2, b3⟩ := ih (List.nodup_cons.1 hn).2 h
      refine ⟨b1.trans a1, ?_, ?_⟩
      · intro w hw
        by_cases hwv : w = v
        · subst hwv
          have := b3 w (List.nodup_cons.1 hn).1
          rw [this.1, this.2, a2, a3]
          simp [setAttr]
        · have hw' : w ∈ vs := by
            rcases List.mem_cons.1 hw with h1 | h1
            · exact absurd h1 hwv
            · exact h1
          have := b2 w hw'
          rw [this.1, this.2, a4 w hwv]
          exact ⟨rfl, rfl⟩
      · intro w hw
        rw [List.mem_cons, not_or] at hw
        have := b3 w hw.2
        rw [this.1, this.2, a2, a4 w hw.1]
        simp [setAttr, hw.1]

/-! ### structure -/

/-- Conditions on child models. -/
structure KidsOk (kids : Kids) : Prop where
  wf : ∀ path g' ks', kids.At path g' ks' → g'.WF
  distinct : kids.allNodes.Nodup
  ids : ∀ path g' ks', kids.At path g' ks' → ∀ i ∈ ks'.ids, i ∈ g'.nodes

theorem KidsOk.split {id : Nat} {n : Name} {g : Graph} {ks rest : Kids} (h : KidsOk (.cons id n g ks rest)) :
    g.WF ∧ (∀ i ∈ ks.ids, i ∈ g.nodes) ∧ KidsOk ks ∧ KidsOk rest ∧ (∀ a ∈ g.nodes, a ∉ ks.allNodes ∧ a ∉ rest.allNodes) ∧
    (∀ a ∈ ks.allNodes, a ∉ rest.allNodes) := by
  have hd := h.distinct
  simp only [Kids.allNodes] at hd
  rw [List.nodup_append, List.nodup_append] at hd
  obtain ⟨⟨d1, d2, d3⟩, d4, d5⟩ := hd
  refine ⟨h.wf _ _ _ .head, h.ids _ _ _ .head, ⟨fun p a b hp => h.wf _ _ _ (.inside hp), d2, fun p a b hp => h.ids _ _ _ (.inside hp)⟩,
    ⟨fun p a b hp => h.wf _ _ _ (.next hp), d4, fun p a b hp => h.ids _ _ _ (.next hp)⟩, ?_, ?_⟩
  · intro a ha
    exact ⟨fun hb => d3 a ha a hb rfl, fun hb => d5 a (List.mem_append_left _ ha) a hb rfl⟩
  · intro a ha hb
    exact d5 a (List.mem_append_right _ ha) a hb rfl

theorem Kids.At.sub {kids : Kids} {path g ks} (h : kids.At path g ks) : ∀ a ∈ g.nodes, a ∈ kids.allNodes := by
  induction h with
  | head => intro a ha; simp [Kids.allNodes, ha]
  | inside _ ih => intro a ha; simp [Kids.allNodes, ih a ha]
  | next _ ih => intro a ha; simp [Kids.allNodes, ih a ha]

theorem prefix_addNode {A : List Nat} {g : Graph} {n : Nat} (h : A <+: g.nodes) : A <+: (g.addNode n).nodes := by
  unfold Graph.addNode
  split
  · exact h
  · exact h.trans (List.prefix_append _ _)

theorem prefix_addNodes {A : List Nat} : ∀ (l : List Nat) {g : Graph}, A <+: g.nodes → A <+: (g.addNodes l).nodes
  | [], _, h => h
  | _ :: l, _, h => prefix_addNodes l (prefix_addNode h)

theorem prefix_addEdges {A : List Nat} : ∀ (l : List (Nat × Nat)) {g : Graph}, A <+: g.nodes → A <+: (g.addEdges l).nodes
  | [], _, h => h
  | e :: l, g, h => by
    refine prefix_addEdges l (g := g.addEdge e.1 e.2) ?_
    unfold Graph.addEdge
    dsimp only
    split <;> exact prefix_addNode (prefix_addNode h)

theorem prefix_removeNodes {A : List Nat} : ∀ (l : List Nat) {g : Graph}, (∀ a ∈ A, a ∉ l) → A <+: g.nodes → A <+: (g.removeNodes l).nodes
  | [], _, _, h => h
  | n :: l, g, hn, h => by
    refine prefix_removeNodes l (g := g.removeNode n) (fun a ha => fun hl => hn a ha (List.mem_cons_of_mem _ hl)) ?_
    obtain ⟨B, hB⟩ := h
    refine ⟨B.filter (· ≠ n), ?_⟩
    show A ++ _ = g.nodes.filter (· ≠ n)
    have e : A.filter (· ≠ n) = A := List.filter_eq_self.2 (fun a ha => by
      simpa using fun h : a = n => hn a ha (by simp [h]))
    rw [← hB, List.filter_append, e]

/-- nodes of the child models come after those that are there -/
theorem mergeKids_prefix (kids : Kids) : ∀ {ns : Name} {st st' : FState} {A : List Nat}, KidsOk kids → A <+: st.graph.nodes →
    (∀ a ∈ A, a ∉ kids.allNodes) → mergeKids I p2u u2p kids ns st = .ok st' → A <+: st'.graph.nodes := by
  induction kids with
  | nil =>
    intro ns st st' A _ hA _ h
    cases h
    exact hA
  | cons id n g ks rest ihk ihr =>
    intro ns st st' A hok hA hdis h
    obtain ⟨hg, hids, hks, hrest, _, _⟩ := hok.split
    simp only [mergeKids] at h
    cases ha : assignAll I p2u u2p (prependNamespace ns n) { st with graph := (st.graph.addEdges g.edges).addNodes g.nodes } (varNodes I g) with
    | error e => rw [ha] at h; cases h
    | ok st2 =>
      rw [ha] at h
      dsimp only at h
      obtain ⟨a1, _, _⟩ := assignAll_ok (varNodes I g) (hg.nodup.filter _) ha
      dsimp only at a1
      cases hk : mergeKids I p2u u2p ks (prependNamespace ns n) { st2 with graph := st2.graph.removeNodes ks.ids } with
      | error e => rw [hk] at h; cases h
      | ok st3 =>
        rw [hk] at h
        dsimp only at h
        have h2 : A <+: (st2.graph.removeNodes ks.ids).nodes := by
          refine prefix_removeNodes _ (fun a ha hi => hdis a ha (by simp [Kids.allNodes, hids a hi])) ?_
          rw [a1]
          exact prefix_addNodes _ (prefix_addEdges _ hA)
        exact ihr hrest (ihk hks h2 (fun a ha hb => hdis a ha (by simp [Kids.allNodes, hb])) hk) (fun a ha hb => hdis a ha (by simp [Kids.allNodes, hb])) h

theorem mergeKids_graph (kids : Kids) : ∀ {ns : Name} {st st' : FState}, KidsOk kids → st.graph.WF →
    (∀ a ∈ st.graph.nodes, a ∉ kids.allNodes) → mergeKids I p2u u2p kids ns st = .ok st' →
    st'.graph.WF ∧
    (∀ a, a ∈ st'.graph.nodes ↔ a ∈ st.graph.nodes ∨ ∃ path g ks, kids.At path g ks ∧ a ∈ g.nodes ∧ a ∉ ks.ids) ∧
    (∀ a b, st'.graph.Edge a b ↔ st.graph.Edge a b ∨ ∃ path g ks, kids.At path g ks ∧ g.Edge a b ∧ a ∉ ks.ids ∧ b ∉ ks.ids) ∧
    (∀ v, v ∉ kids.allNodes → st'.ns v = st.ns v ∧ st'.uns v = st.uns v) ∧
    (∀ path g ks, kids.At path g ks → ∀ v ∈ g.nodes, (I v).kind = .var →
      st'.uns v = descend ns path ∧ st'.ns v = assignedNs p2u u2p (descend ns path) (I v).name (st.ns v)) := by
  induction kids with
  | nil =>
    intro ns st st' _ hwf _ h
    cases h
    refine ⟨hwf, ?_, ?_, fun _ _ => ⟨rfl, rfl⟩, ?_⟩
    · intro a; constructor
      · exact Or.inl
      · rintro (h | ⟨_, _, _, h, _⟩)
        · exact h
        · cases h
    · intro a b; constructor
      · exact Or.inl
      · rintro (h | ⟨_, _, _, h, _⟩)
        · exact h
        · cases h
    · intro path g ks h; cases h
  | cons id n g ks rest ihk ihr =>
    intro ns st st' hok hwf hdis h
    obtain ⟨hg, hids, hks, hrest, hd1, hd2⟩ := hok.split
    simp only [mergeKids] at h
    cases ha : assignAll I p2u u2p (prependNamespace ns n) { st with graph := (st.graph.addEdges g.edges).addNodes g.nodes } (varNodes I g) with
    | error e => rw [ha] at h; cases h
    | ok st2 =>
      rw [ha] at h
      dsimp only at h
      obtain ⟨a1, a2, a3⟩ := assignAll_ok (varNodes I g) (hg.nodup.filter _) ha
      dsimp only at a1
      cases hk : mergeKids I p2u u2p ks (prependNamespace ns n) { st2 with graph := st2.graph.removeNodes ks.ids } with
      | error e => rw [hk] at h; cases h
      | ok st3 =>
        rw [hk] at h
        dsimp only at h
        have hn2 : ∀ a, a ∈ (st2.graph.removeNodes ks.ids).nodes ↔ a ∈ st.graph.nodes ∨ (a ∈ g.nodes ∧ a ∉ ks.ids) := by
          intro a
          rw [Graph.mem_nodes_removeNodes, a1, Graph.mem_addNodes, Graph.mem_nodes_addEdges]
          constructor
          · rintro ⟨(h1 | ⟨e, he, h1⟩) | h1, h2⟩
            · exact Or.inl h1
            · right
              refine ⟨?_, h2⟩
              rcases h1 with rfl | rfl
              · exact hg.left e.1 e.2 he
              · exact hg.right e.1 e.2 he
            · exact Or.inr ⟨h1, h2⟩
          · rintro (h1 | ⟨h1, h2⟩)
            · refine ⟨Or.inl (Or.inl h1), fun h2 => hdis a h1 ?_⟩
              simp [Kids.allNodes, hids a h2]
            · exact ⟨Or.inr h1, h2⟩
        have he2 : ∀ a b, (st2.graph.removeNodes ks.ids).Edge a b ↔ st.graph.Edge a b ∨ (g.Edge a b ∧ a ∉ ks.ids ∧ b ∉ ks.ids) := by
          intro a b
          have hx : st2.graph.Edge a b ↔ (st.graph.Edge a b ∨ g.Edge a b) := by
            rw [a1]
            unfold Graph.Edge
            rw [Graph.edges_addNodes]
            exact Graph.mem_edges_addEdges
          rw [Graph.edge_removeNodes, hx]
          constructor
          · rintro ⟨h1 | h1, h2⟩
            · exact Or.inl h1
            · exact Or.inr ⟨h1, h2⟩
          · rintro (h1 | ⟨h1, h2⟩)
            · refine ⟨Or.inl h1, fun h2 => hdis a (hwf.left _ _ h1) ?_, fun h2 => hdis b (hwf.right _ _ h1) ?_⟩ <;>
                simp [Kids.allNodes, hids _ h2]
            · exact ⟨Or.inr h1, h2⟩
        have hwf2 : (st2.graph.removeNodes ks.ids).WF := by
          apply Graph.wf_removeNodes
          rw [a1]
          exact Graph.wf_addNodes (Graph.wf_addEdges hwf _) _
        obtain ⟨k1, k2, k3, k4, k5⟩ := ihk (ns := prependNamespace ns n) hks hwf2 (by
          intro a ha' hb
          dsimp only at ha'
          rcases (hn2 a).1 ha' with h1 | ⟨h1, _⟩
          · exact hdis a h1 (by simp [Kids.allNodes, hb])
          · exact (hd1 a h1).1 hb) hk
        dsimp only at k2 k3 k4 k5
        obtain ⟨r1, r2, r3, r4, r5⟩ := ihr (ns := ns) hrest k1 (by
          intro a ha' hb
          rcases (k2 a).1 ha' with h1 | ⟨path, g', ks', hat, h1, _⟩
          · rcases (hn2 a).1 h1 with h1 | ⟨h1, _⟩
            · exact hdis a h1 (by simp [Kids.allNodes, hb])
            · exact (hd1 a h1).2 hb
          · exact hd2 a (hat.sub a h1) hb) h
        have hvar : ∀ v, v ∈ varNodes I g ↔ v ∈ g.nodes ∧ (I v).kind = .var := by intro v; simp [varNodes]
        refine ⟨r1, ?_, ?_, ?_, ?_⟩
        · intro a
          rw [r2, k2, hn2]
          constructor
          · rintro (((h1 | ⟨h1, h2⟩) | ⟨p, x, y, h1, h2⟩) | ⟨p, x, y, h1, h2⟩)
            · exact Or.inl h1
            · exact Or.inr ⟨_, _, _, .head, h1, h2⟩
            · exact Or.inr ⟨_, _, _, .inside h1, h2⟩
            · exact Or.inr ⟨_, _, _, .next h1, h2⟩
          · rintro (h1 | ⟨p, x, y, hat, h2⟩)
            · exact Or.inl (Or.inl (Or.inl h1))
            · cases hat with
              | head => exact Or.inl (Or.inl (Or.inr h2))
              | inside hat => exact Or.inl (Or.inr ⟨_, _, _, hat, h2⟩)
              | next hat => exact Or.inr ⟨_, _, _, hat, h2⟩
        · intro a b
          rw [r3, k3, he2]
          constructor
          · rintro (((h1 | ⟨h1, h2⟩) | ⟨p, x, y, h1, h2⟩) | ⟨p, x, y, h1, h2⟩)
            · exact Or.inl h1
            · exact Or.inr ⟨_, _, _, .head, h1, h2⟩
            · exact Or.inr ⟨_, _, _, .inside h1, h2⟩
            · exact Or.inr ⟨_, _, _, .next h1, h2⟩
          · rintro (h1 | ⟨p, x, y, hat, h2⟩)
            · exact Or.inl (Or.inl (Or.inl h1))
            · cases hat with
              | head => exact Or.inl (Or.inl (Or.inr h2))
              | inside hat => exact Or.inl (Or.inr ⟨_, _, _, hat, h2⟩)
              | next hat => exact Or.inr ⟨_, _, _, hat, h2⟩
        · intro v hv
          simp only [Kids.allNodes, List.mem_append, not_or] at hv
          have h3 := a3 v (fun hx => hv.1.1 ((hvar v).1 hx).1)
          have hk4 := k4 v hv.1.2
          have hr4 := r4 v hv.2
          exact ⟨hr4.1.trans (hk4.1.trans h3.2), hr4.2.trans (hk4.2.trans h3.1)⟩
        · intro path g' ks' hat v hv hkind
          cases hat with
          | head =>
            obtain ⟨x1, x2⟩ := hd1 v hv
            have h2 := a2 v ((hvar v).2 ⟨hv, hkind⟩)
            have hk4 := k4 v x1
            have hr4 := r4 v x2
            simp only [descend]
            exact ⟨hr4.2.trans (hk4.2.trans h2.1), hr4.1.trans (hk4.1.trans h2.2)⟩
          | inside hat =>
            have x1 := hat.sub v hv
            have h5 := k5 _ _ _ hat v hv hkind
            have hr4 := r4 v (hd2 v x1)
            have h3 := a3 v (fun hx => (hd1 v ((hvar v).1 hx).1).1 x1)
            simp only [descend]
            rw [h3.2] at h5
            exact ⟨hr4.2.trans h5.1, hr4.1.trans h5.2⟩
          | next hat =>
            have x1 := hat.sub v hv
            have h5 := r5 _ _ _ hat v hv hkind
            have hk4 := k4 v (fun hx => hd2 v hx x1)
            have h3 := a3 v (fun hx => (hd1 v ((hvar v).1 hx).1).2 x1)
            dsimp only at h3
            rw [hk4.1, h3.2] at h5
            exact h5

/-! ### namespaces of promoted names -/

theorem splitDot_append {s : Name} (hs : '.' ∉ s) (y : Name) : splitDot (s ++ '.' :: y) = s :: splitDot y := by
  induction s with
  | nil => simp [splitDot]
  | cons c s ih =>
    simp only [List.mem_cons, not_or] at hs
    simp only [List.cons_append, splitDot]
    rw [if_neg (Ne.symm hs.1), ih hs.2]

theorem splitDot_dotfree {x : Name} (hx : '.' ∉ x) : splitDot x = [x] := by
  induction x with
  | nil => rfl
  | cons c x ih =>
    simp only [List.mem_cons, not_or] at hx
    simp only [splitDot]
    rw [if_neg (Ne.symm hx.1), ih hx.2]

theorem splitDot_fullName {qs : List Name} (hq : ∀ s ∈ qs, GoodName s) {x : Name} (hx : '.' ∉ x) :
    splitDot (fullName qs x) = qs ++ [x] := by
  induction qs with
  | nil => exact splitDot_dotfree hx
  | cons s qs ih =>
    have hg := hq s (by simp)
    simp only [fullName, List.foldr_cons, prependNamespace]
    rw [if_neg hg.1, splitDot_append hg.2]
    have := ih (fun t ht => hq t (by simp [ht]))
    unfold fullName at this
    rw [this]; rfl

theorem prepend_joinDot {qs : List Name} (hq : ∀ s ∈ qs, GoodName s) (x : Name) : prependNamespace (joinDot qs) x = fullName qs x := by
  induction qs with
  | nil => simp [joinDot, fullName, prependNamespace]
  | cons s qs ih =>
    have hg := hq s (by simp)
    have ih := ih (fun t ht => hq t (by simp [ht]))
    cases qs with
    | nil => simp [joinDot, fullName]
    | cons t qs =>
      simp only [joinDot]
      have hne : joinDot (t :: qs) ≠ [] := by
        have ht := hq t (by simp)
        cases qs with
        | nil => simpa [joinDot] using ht.1
        | cons _ _ => simp [joinDot]
      have e1 : s ++ '.' :: joinDot (t :: qs) = prependNamespace s (joinDot (t :: qs)) := by simp [prependNamespace, hg.1]
      rw [e1, prepend_assoc hne, ih]
      rfl

theorem prepend_namespaceOf {qs : List Name} (hq : ∀ s ∈ qs, GoodName s) {x : Name} (hx : '.' ∉ x) :
    prependNamespace (namespaceOf (fullName qs x)) x = fullName qs x := by
  unfold namespaceOf
  rw [splitDot_fullName hq hx]
  simp only [List.dropLast_concat]
  exact prepend_joinDot hq x

theorem promoted_form {m : Model} (hd : DotFree m) {path k v p} (h : PromotedAs m path k v p) :
    ∃ qs : List Name, (∀ s ∈ qs, GoodName s) ∧ p = fullName qs v.name := by
  induction h with
  | here hv => exact ⟨[], by simp, rfl⟩
  | up hs _ _ ih => exact ih (hd.sub hs)
  | @stay _ _ _ _ _ _ s hs _ _ ih =>
    obtain ⟨qs, h1, rfl⟩ := ih (hd.sub hs)
    refine ⟨s.name :: qs, ?_, rfl⟩
    intro t ht
    rcases List.mem_cons.1 ht with rfl | ht
    · exact hd.loc.2.1 _ hs
    · exact h1 t ht

/-- The namespace given to a variable makes its name the promoted name. -/
theorem assigned_promoted {m : Model} (hd : DotFree m) {r : Res} (hr : resolve m none = .ok r) {path k w p} (h : PromotedAs m path k w p) (old : Name) :
    prependNamespace (assignedNs r.p2u (createReverseMap r.p2u) (descend [] path) w.name old) w.name = p := by
  obtain ⟨hg, hx⟩ := promoted_good m hd h
  have hfull : prependNamespace (descend [] path) w.name = fullName path w.name := by
    rw [descend_prepend path (fun s hs => (hg s hs).1)]; simp [prependNamespace, fullName]
  unfold assignedNs
  rw [hfull]
  by_cases hp : r.p2u.has (fullName path w.name) = true
  · rw [if_pos hp, hfull]
    obtain ⟨path', k', v', h'⟩ := (p2u_has hr _).1 hp
    exact (full_promoted_coincide m hd hr h h').symm
  · rw [if_neg hp]
    have h1 := fun p u => reverse_iff (p2u_facts m hr).1 (fun p p' u => p2u_functional hd hr) u p
    have : (createReverseMap r.p2u).get? (fullName path w.name) = some p :=
      (h1 p _).2 (((p2u_facts m hr).2.2 p _).2 ⟨path, k, w, h, rfl⟩)
    rw [this]
    dsimp only
    obtain ⟨qs, hq, rfl⟩ := promoted_form hd h
    exact prepend_namespaceOf hq hx

end
end Csdl
