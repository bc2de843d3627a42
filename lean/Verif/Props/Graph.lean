import Verif.Proofs.Graph
/-!
# C24, C25: execution order
-/
namespace Csdl

/-! ### C24 -/

/-- C24: building the node list of a graph succeeds exactly when the graph has no cycle; the list then contains every node exactly once, each
after all nodes it depends on; a graph with a cycle gives KeyError; no other error is possible. -/
theorem C24_sorted_iff_acyclic (g : Graph) (hw : g.WF) :
    (∀ l, flatSort g = .ok l → g.Order l) ∧ (flatSort g = .error .key ↔ g.Cyclic) ∧ flatSort g ≠ .error .value := by
  obtain ⟨P, D, hinv, hk⟩ := kahn_spec hw
  by_cases hD : D = []
  · subst hD
    rw [if_pos rfl] at hk
    have ho := kahnInv_order hinv
    have hlen : g.nodes.length = P.length := by
      apply le_antisymm
      · exact (List.subperm_of_subset hw.nodup (fun v hv => (ho.all v).2 hv)).length_le
      · exact (List.subperm_of_subset ho.nodup (fun v hv => (ho.all v).1 hv)).length_le
    have hs : flatSort g = .ok P := by
      unfold flatSort; rw [hk]
      simp [hlen]
    rw [hs]
    refine ⟨?_, ?_, by simp⟩
    · intro l hl; cases hl; exact ho
    · constructor
      · intro h; cases h
      · intro h; exact absurd h (ho.acyclic hw)
  · rw [if_neg hD] at hk
    have hs : flatSort g = .error .key := by unfold flatSort; rw [hk]
    rw [hs]
    refine ⟨?_, ?_, by simp⟩
    · intro l hl; cases hl
    · exact ⟨fun _ => kahnInv_cyclic hw hinv hD, fun _ => rfl⟩

/-- C24: without a cycle a node list is produced. -/
theorem C24_acyclic_ok (g : Graph) (hw : g.WF) (h : ¬ g.Cyclic) : ∃ l, flatSort g = .ok l ∧ g.Order l := by
  obtain ⟨h1, h2, h3⟩ := C24_sorted_iff_acyclic g hw
  cases hs : flatSort g with
  | ok l => exact ⟨l, rfl, h1 l hs⟩
  | error e =>
    cases e with
    | key => exact absurd (h2.1 hs) h
    | value => exact absurd hs h3

/-! The graphs csdl builds are made with the networkx operations below, all of which give well-formed graphs, so `WF` holds
of every graph that is sorted. -/

theorem Graph.wf_empty : Graph.WF {} := ⟨by simp, by simp, by simp [Graph.Edge], by simp [Graph.Edge]⟩

theorem Graph.mem_addNode {g : Graph} {n v : Nat} : v ∈ (g.addNode n).nodes ↔ v ∈ g.nodes ∨ v = n := by
  unfold addNode
  split
  · rename_i h
    constructor
    · exact Or.inl
    · rintro (h1 | rfl)
      · exact h1
      · exact h
  · simp

theorem Graph.edges_addNode (g : Graph) (n : Nat) : (g.addNode n).edges = g.edges := by
  unfold addNode; split <;> rfl

theorem Graph.wf_addNode {g : Graph} (h : g.WF) (n : Nat) : (g.addNode n).WF := by
  refine ⟨?_, by rw [edges_addNode]; exact h.edges_nodup, ?_, ?_⟩
  · unfold addNode
    split
    · exact h.nodup
    · rename_i hn
      rw [List.nodup_append]
      refine ⟨h.nodup, by simp, ?_⟩
      intro a ha b hb
      rw [List.mem_singleton] at hb
      subst hb
      rintro rfl
      exact hn ha
  · intro u v he
    rw [Graph.Edge, edges_addNode] at he
    exact mem_addNode.2 (Or.inl (h.left u v he))
  · intro u v he
    rw [Graph.Edge, edges_addNode] at he
    exact mem_addNode.2 (Or.inl (h.right u v he))

theorem Graph.mem_nodes_addEdge {g : Graph} {a b v : Nat} : v ∈ (g.addEdge a b).nodes ↔ v ∈ g.nodes ∨ v = a ∨ v = b := by
  have : (g.addEdge a b).nodes = ((g.addNode a).addNode b).nodes := by
    unfold addEdge; dsimp only; split <;> rfl
  rw [this, mem_addNode, mem_addNode]; tauto

theorem Graph.mem_edges_addEdge {g : Graph} {a b u v : Nat} : (g.addEdge a b).Edge u v ↔ g.Edge u v ∨ (u = a ∧ v = b) := by
  unfold addEdge Edge
  dsimp only
  split
  · rename_i h
    rw [edges_addNode, edges_addNode] at *
    constructor
    · exact Or.inl
    · rintro (h1 | ⟨rfl, rfl⟩)
      · exact h1
      · exact h
  · rw [edges_addNode, edges_addNode, List.mem_append]; simp

theorem Graph.wf_addEdge {g : Graph} (h : g.WF) (a b : Nat) : (g.addEdge a b).WF := by
  have hn : (g.addEdge a b).nodes = ((g.addNode a).addNode b).nodes := by
    unfold addEdge; dsimp only; split <;> rfl
  refine ⟨by rw [hn]; exact (wf_addNode (wf_addNode h a) b).nodup, ?_, ?_, ?_⟩
  · unfold addEdge
    dsimp only
    split
    · rw [edges_addNode, edges_addNode]; exact h.edges_nodup
    · rename_i hne
      rw [edges_addNode, edges_addNode] at *
      rw [List.nodup_append]
      refine ⟨h.edges_nodup, by simp, ?_⟩
      intro x hx y hy
      rw [List.mem_singleton] at hy
      subst hy
      rintro rfl
      exact hne hx
  · intro u v he
    rw [mem_nodes_addEdge]
    rcases mem_edges_addEdge.1 he with he | ⟨rfl, _⟩
    · exact Or.inl (h.left u v he)
    · exact Or.inr (Or.inl rfl)
  · intro u v he
    rw [mem_nodes_addEdge]
    rcases mem_edges_addEdge.1 he with he | ⟨_, rfl⟩
    · exact Or.inl (h.right u v he)
    · exact Or.inr (Or.inr rfl)

theorem Graph.wf_addEdges {g : Graph} (h : g.WF) (l : List (Nat × Nat)) : (g.addEdges l).WF := by
  unfold addEdges
  induction l generalizing g with
  | nil => exact h
  | cons e l ih => exact ih (wf_addEdge h e.1 e.2)

theorem Graph.wf_addNodes {g : Graph} (h : g.WF) (l : List Nat) : (g.addNodes l).WF := by
  unfold addNodes
  induction l generalizing g with
  | nil => exact h
  | cons e l ih => exact ih (wf_addNode h e)

theorem Graph.wf_removeNode {g : Graph} (h : g.WF) (n : Nat) : (g.removeNode n).WF := by
  have key : ∀ u v, (g.removeNode n).Edge u v → g.Edge u v ∧ u ≠ n ∧ v ≠ n := by
    intro u v he
    have he : (u, v) ∈ (g.removeNode n).edges := he
    unfold removeNode at he
    have := List.mem_filter.1 he
    exact ⟨this.1, by simpa using this.2⟩
  refine ⟨h.nodup.filter _, h.edges_nodup.filter _, ?_, ?_⟩
  · intro u v he
    obtain ⟨h1, h2, h3⟩ := key u v he
    unfold removeNode
    simpa using ⟨h.left u v h1, h2⟩
  · intro u v he
    obtain ⟨h1, h2, h3⟩ := key u v he
    unfold removeNode
    simpa using ⟨h.right u v h1, h3⟩

theorem Graph.wf_removeNodes {g : Graph} (h : g.WF) (l : List Nat) : (g.removeNodes l).WF := by
  unfold removeNodes
  induction l generalizing g with
  | nil => exact h
  | cons e l ih => exact ih (wf_removeNode h e)

/-- every networkx operation csdl uses gives a well-formed graph -/
theorem C24_graph_operations_wf (g : Graph) (h : g.WF) (n u v : Nat) (l : List Nat) (es : List (Nat × Nat)) :
    (g.addNode n).WF ∧ (g.addEdge u v).WF ∧ (g.removeNode n).WF ∧ (g.removeNodes l).WF ∧ (g.addNodes l).WF ∧ (g.addEdges es).WF ∧
      (g.contract u v).WF :=
  ⟨Graph.wf_addNode h n, Graph.wf_addEdge h u v, Graph.wf_removeNode h n, Graph.wf_removeNodes h l, Graph.wf_addNodes h l,
    Graph.wf_addEdges h es, Graph.wf_addEdges (Graph.wf_removeNode h v) _⟩

/-- a diamond is sorted; a two-node cycle is rejected -/
example : flatSort ((((({} : Graph).addEdge 0 1).addEdge 0 2).addEdge 2 3).addEdge 1 3) = .ok [0, 1, 2, 3] := by rfl
example : flatSort ((({} : Graph).addEdge 0 1).addEdge 1 0) = .error .key := by rfl
example : ((({} : Graph).addEdge 0 1).addEdge 1 0).WF := Graph.wf_addEdge (Graph.wf_addEdge Graph.wf_empty 0 1) 1 0

/-! ### C25 -/

/-- `σ` is a solution: outputs of operations are their values, other variables have the initial values. -/
structure Solution {V : Type} (g : Graph) (I : Interp V) (σ0 σ : Env V) : Prop where
  op : ∀ n v, n ∈ g.nodes → I.isOp n = true → g.Edge n v → σ v = I.fn n ((I.args n).map σ) v
  free : ∀ v, (∀ n, I.isOp n = true → ¬ g.Edge n v) → σ v = σ0 v

theorem execAll_partial {V : Type} {g : Graph} {I : Interp V} (hw : g.WF) (hc : Computes g I) {l : List Nat} (ho : g.Order l) (σ0 : Env V)
    (rest P : List Nat) (hl : l = P ++ rest) (σ : Env V)
    (h1 : ∀ n v, n ∈ P → I.isOp n = true → g.Edge n v → σ v = I.fn n ((I.args n).map σ) v)
    (h2 : ∀ v, (∀ n ∈ P, I.isOp n = true → ¬ g.Edge n v) → σ v = σ0 v) :
    Solution g I σ0 (execAll g I σ rest) := by
  induction rest generalizing P σ with
  | nil =>
    rw [List.append_nil] at hl
    subst hl
    exact ⟨fun n v hn hop he => h1 n v ((ho.all n).2 hn) hop he, fun v hv => h2 v (fun n _ => hv n)⟩
  | cons n rest ih =>
    have posn : l[P.length]? = some n := by rw [hl]; simp
    -- n comes before everything that depends on its outputs
    have hbefore : ∀ m ∈ P, ∀ u, g.Edge u m → ¬ g.Edge n u := by
      intro m hm u hu hnu
      obtain ⟨i, hi⟩ := List.mem_iff_getElem?.1 hm
      have hil := (List.getElem?_eq_some_iff.1 hi).1
      have hi' : l[i]? = some m := by rw [hl, List.getElem?_append_left hil]; exact hi
      obtain ⟨k, hk⟩ := List.mem_iff_getElem?.1 ((ho.all u).2 (hw.left u m hu))
      have a1 := ho.before k i u m hk hi' hu
      have a2 := ho.before P.length k n u posn hk hnu
      omega
    have hself : ∀ u, g.Edge u n → ¬ g.Edge n u := by
      intro u hu hnu
      obtain ⟨k, hk⟩ := List.mem_iff_getElem?.1 ((ho.all u).2 (hw.left u n hu))
      have a1 := ho.before k P.length u n hk posn hu
      have a2 := ho.before P.length k n u posn hk hnu
      omega
    rw [execAll, List.foldl_cons]
    refine ih (P ++ [n]) (by simp [hl]) (execNode g I σ n) ?_ ?_
    · intro m v hm hop he
      rcases List.mem_append.1 hm with hm | hm
      · -- an operation done before
        have hargs : (I.args m).map (execNode g I σ n) = (I.args m).map σ := by
          apply List.map_congr_left
          intro u hu
          unfold execNode
          rw [if_neg]
          rintro ⟨_, hnu⟩
          exact hbefore m hm u (hc.args m hop u hu) hnu
        rw [hargs, ← h1 m v hm hop he]
        unfold execNode
        rw [if_neg]
        rintro ⟨hopn, hnv⟩
        have hv : I.isOp v = false := by
          have := hc.bipartite m v he
          cases hh : I.isOp v <;> simp_all
        have : n = m := hc.one n m v hnv he hv
        subst this
        have := ho.nodup
        rw [hl, List.nodup_append] at this
        exact this.2.2 n hm n (by simp) rfl
      · rw [List.mem_singleton] at hm
        subst hm
        have hargs : (I.args m).map (execNode g I σ m) = (I.args m).map σ := by
          apply List.map_congr_left
          intro u hu
          unfold execNode
          rw [if_neg]
          rintro ⟨_, hnu⟩
          exact hself u (hc.args m hop u hu) hnu
        rw [hargs]
        unfold execNode
        rw [if_pos ⟨hop, he⟩]
    · intro v hv
      rw [← h2 v (fun m hm => hv m (List.mem_append_left _ hm))]
      unfold execNode
      rw [if_neg]
      rintro ⟨hop, he⟩
      exact hv n (by simp) hop he

/-- Executing the nodes in an order that respects dependencies gives a solution. -/
theorem execAll_solution {V : Type} {g : Graph} {I : Interp V} (hw : g.WF) (hc : Computes g I) {l : List Nat} (ho : g.Order l) (σ0 : Env V) :
    Solution g I σ0 (execAll g I σ0 l) :=
  execAll_partial hw hc ho σ0 l [] rfl σ0 (by simp) (fun _ _ => rfl)

theorem solution_unique {V : Type} {g : Graph} {I : Interp V} (hw : g.WF) (hc : Computes g I) {l : List Nat} (ho : g.Order l) (σ0 σ τ : Env V)
    (h1 : Solution g I σ0 σ) (h2 : Solution g I σ0 τ) : σ = τ := by
  have key : ∀ (k : Nat) (v : Nat), l[k]? = some v → σ v = τ v := by
    intro k
    induction k using Nat.strong_induction_on with
    | _ k ih =>
      intro v hk
      by_cases hv : ∃ n, I.isOp n = true ∧ g.Edge n v
      · obtain ⟨n, hop, he⟩ := hv
        have hn := hw.left n v he
        rw [h1.op n v hn hop he, h2.op n v hn hop he]
        congr 1
        apply List.map_congr_left
        intro u hu
        have hun := hc.args n hop u hu
        obtain ⟨i, hi⟩ := List.mem_iff_getElem?.1 ((ho.all n).2 hn)
        obtain ⟨j, hj⟩ := List.mem_iff_getElem?.1 ((ho.all u).2 (hw.left u n hun))
        have a1 := ho.before j i u n hj hi hun
        have a2 := ho.before i k n v hi hk he
        exact ih j (by omega) u hj
      · have hv' : ∀ n, I.isOp n = true → ¬ g.Edge n v := fun n hop he => hv ⟨n, hop, he⟩
        rw [h1.free v hv', h2.free v hv']
  funext v
  by_cases hv : v ∈ g.nodes
  · obtain ⟨k, hk⟩ := List.mem_iff_getElem?.1 ((ho.all v).2 hv)
    exact key k v hk
  · have hv' : ∀ n, I.isOp n = true → ¬ g.Edge n v := fun n _ he => hv (hw.right n v he)
    rw [h1.free v hv', h2.free v hv']

/-- C25: executing the operations in any two orders that respect dependencies gives every variable the same value. -/
theorem C25_order_independent {V : Type} (g : Graph) (I : Interp V) (hw : g.WF) (hc : Computes g I) (l l' : List Nat) (ho : g.Order l) (ho' : g.Order l')
    (σ0 : Env V) : execAll g I σ0 l = execAll g I σ0 l' :=
  solution_unique hw hc ho σ0 _ _ (execAll_solution hw hc ho σ0) (execAll_solution hw hc ho' σ0)

/-- C25: in particular the node list of the representation computes the values of any other valid order, and they are the only values that satisfy all operations. -/
theorem C25_sorted_nodes_compute {V : Type} (g : Graph) (I : Interp V) (hw : g.WF) (hc : Computes g I) (l : List Nat) (h : flatSort g = .ok l)
    (σ0 : Env V) : Solution g I σ0 (execAll g I σ0 l) ∧ (∀ σ, Solution g I σ0 σ → σ = execAll g I σ0 l) ∧
      ∀ l', g.Order l' → execAll g I σ0 l' = execAll g I σ0 l := by
  have ho := (C24_sorted_iff_acyclic g hw).1 l h
  have hs := execAll_solution hw hc ho σ0
  exact ⟨hs, fun σ hσ => solution_unique hw hc ho σ0 _ _ hσ hs, fun l' ho' => C25_order_independent g I hw hc l' l ho' ho σ0⟩

/-- the hypotheses are met: x, y -> + -> z, x -> sin -> w; nodes 0 = x, 1 = y, 2 = z, 3 = w, operations 10, 11 -/
def exGraph : Graph := ((((({} : Graph).addEdge 0 10).addEdge 1 10).addEdge 10 2).addEdge 0 11).addEdge 11 3

def exInterp : Interp Nat where
  isOp n := decide (10 ≤ n)
  args n := if n = 10 then [0, 1] else if n = 11 then [0] else []
  fn n l _ := if n = 10 then l.sum else 7 * l.sum

theorem exGraph_wf : exGraph.WF := by
  unfold exGraph; repeat (first | exact Graph.wf_empty | apply Graph.wf_addEdge)

example : flatSort exGraph = .ok [0, 1, 11, 10, 3, 2] := by rfl

example : Computes exGraph exInterp := by
  have he : ∀ u v, exGraph.Edge u v ↔ (u, v) ∈ [(0, 10), (1, 10), (10, 2), (0, 11), (11, 3)] := by
    intro u v; rfl
  refine ⟨?_, ?_, ?_⟩
  · intro u v h
    rw [he] at h
    simp at h
    rcases h with ⟨rfl, rfl⟩ | ⟨rfl, rfl⟩ | ⟨rfl, rfl⟩ | ⟨rfl, rfl⟩ | ⟨rfl, rfl⟩ <;> decide
  · intro n hn u hu
    rw [he]
    simp only [exInterp] at hu
    split at hu
    · simp at hu; rcases hu with rfl | rfl <;> simp [*]
    · split at hu
      · simp at hu; subst hu; simp [*]
      · simp at hu
  · intro u u' v h h' hv
    rw [he] at h h'
    simp at h h'
    simp [exInterp] at hv
    omega

example : execAll exGraph exInterp (fun v => v + 1) [0, 1, 11, 10, 3, 2] 2 = 3 ∧
    execAll exGraph exInterp (fun v => v + 1) [1, 0, 10, 2, 11, 3] 3 = 7 := by decide

end Csdl
