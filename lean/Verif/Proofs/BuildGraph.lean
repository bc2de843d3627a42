import Verif.Spec.BuildGraph
import Verif.Props.Graph
import Verif.Proofs.Dict
import Mathlib.Data.Finset.Card
import Mathlib.Data.Finset.Range
/-
The loop invariant of the construction of the graph of one model.
-/
namespace Csdl

theorem Graph.mem_addNodes {g : Graph} {l : List Nat} {v : Nat} : v ∈ (g.addNodes l).nodes ↔ v ∈ g.nodes ∨ v ∈ l := by
  unfold addNodes
  induction l generalizing g with
  | nil => simp
  | cons n l ih => rw [List.foldl_cons, ih, mem_addNode, List.mem_cons]; tauto

theorem Graph.edges_addNodes (g : Graph) (l : List Nat) : (g.addNodes l).edges = g.edges := by
  unfold addNodes
  induction l generalizing g with
  | nil => rfl
  | cons n l ih => rw [List.foldl_cons, ih, edges_addNode]

/-- The graph contains exactly the links `E` between csdl objects, as edges between the graph nodes of their names. -/
structure BInv (h : Heap) (subs inputs leaves : List Nat) (base : Nat → Prop) (E : Nat → Nat → Prop) (st : BState) : Prop where
  names : ∀ k r, st.nodes.get? k = some r → (h r).name = k
  content : ∀ k r, st.nodes.get? k = some r → r ∈ subs ∨ r ∈ inputs ∨ Needed h leaves r
  baseNodes : ∀ a, base a → st.nodes.get? (h a).name = some a
  queue : ∀ c ∈ st.queue, c ∈ st.queued
  queued : ∀ c ∈ st.queued, Needed h leaves c
  leaves : ∀ c ∈ leaves, c ∈ st.queued
  present : ∀ u v, E u v → u ∈ st.queued ∧ v ∈ st.queued ∧ (∃ a, st.nodes.get? (h u).name = some a) ∧ (∃ b, st.nodes.get? (h v).name = some b)
  edges : ∀ a b, st.graph.Edge a b ↔ ∃ u v, E u v ∧ st.nodes.get? (h u).name = some a ∧ st.nodes.get? (h v).name = some b
  nodes : ∀ a, a ∈ st.graph.nodes ↔ base a ∨ ∃ b, st.graph.Edge a b ∨ st.graph.Edge b a
  wf : st.graph.WF

/-- What the step from `st` to `st'` does, apart from `BInv`. -/
structure BStep (n : Nat) (st st' : BState) : Prop where
  grow : ∀ k r, st.nodes.get? k = some r → st'.nodes.get? k = some r
  queued : ∀ c ∈ st.queued, c ∈ st'.queued
  new : ∀ c ∈ st'.queued, c ∈ st.queued ∨ c ∈ st'.queue
  queue : ∀ c ∈ st.queue, c ∈ st'.queue
  measure : (∀ c ∈ st.queued, c < n) → (∀ c ∈ st'.queued, c < n) →
    st'.queue.length + (Finset.range n \ st'.queued.toFinset).card ≤ st.queue.length + (Finset.range n \ st.queued.toFinset).card

theorem BStep.refl (n : Nat) (st : BState) : BStep n st st :=
  ⟨fun _ _ h => h, fun _ h => h, fun _ h => Or.inl h, fun _ h => h, fun _ _ => le_refl _⟩

theorem BStep.trans {n : Nat} {a b c : BState} (h1 : BStep n a b) (h2 : BStep n b c) : BStep n a c := by
  refine ⟨fun k r h => h2.grow k r (h1.grow k r h), fun x h => h2.queued x (h1.queued x h), ?_, fun x h => h2.queue x (h1.queue x h), ?_⟩
  · intro x hx
    rcases h2.new x hx with h | h
    · rcases h1.new x h with h | h
      · exact Or.inl h
      · exact Or.inr (h2.queue x h)
    · exact Or.inr h
  · intro ha hc
    have hb : ∀ x ∈ b.queued, x < n := fun x hx => hc x (h2.queued x hx)
    exact le_trans (h2.measure hb hc) (h1.measure ha hb)

section
variable {h : Heap} {subs inputs leaves : List Nat} {base : Nat → Prop} {n : Nat}

theorem getGraphNode_ok {nodes : Dict Name Nat} (hk : NamesOk h subs inputs leaves)
    (hc : ∀ k r, nodes.get? k = some r → (h r).name = k) (hcont : ∀ k r, nodes.get? k = some r → r ∈ subs ∨ r ∈ inputs ∨ Needed h leaves r)
    {c : Nat} (hn : Needed h leaves c) : ∃ nodes' r, getGraphNode h nodes c = .ok (nodes', r) ∧ nodes'.get? (h c).name = some r ∧
      (∀ k r, nodes.get? k = some r → nodes'.get? k = some r) ∧
      (∀ k r, nodes'.get? k = some r → nodes.get? k = some r ∨ (r = c ∧ k = (h c).name)) := by
  unfold getGraphNode
  cases hg : nodes.get? (h c).name with
  | none =>
    dsimp only
    rw [if_neg (hk.kinds c hn)]
    refine ⟨_, _, rfl, by rw [Dict.get?_set]; simp, ?_, ?_⟩
    · intro k r hr
      rw [Dict.get?_set]
      split
      · rename_i e; subst e; rw [hg] at hr; cases hr
      · exact hr
    · intro k r hr
      rw [Dict.get?_set] at hr
      split at hr
      · rename_i e; subst e; cases hr; exact Or.inr ⟨rfl, rfl⟩
      · exact Or.inl hr
  | some r =>
    dsimp only
    have : ¬ ((h c).kind = .var ∧ (h r).kind ≠ .var) := by
      rintro ⟨h1, h2⟩
      have hname := hc _ _ hg
      rcases hcont _ _ hg with hs | hi | hr
      · exact hk.subNames r hs c (Or.inl hn) hname
      · exact h2 (hk.inputVars r hi)
      · have hop : (h r).kind = .op := by
          cases hkd : (h r).kind with
          | var => exact absurd hkd h2
          | op => rfl
          | model => exact absurd hkd (hk.kinds r hr)
        have := hk.ops r c (Or.inl hr) (Or.inl hn) hname hop
        subst this
        exact h2 h1
    rw [if_neg this]
    exact ⟨_, _, rfl, hg, fun _ _ x => x, fun _ _ x => Or.inl x⟩

/-- Adding one link. -/
theorem BInv.link (hk : NamesOk h subs inputs leaves) {E : Nat → Nat → Prop} {st : BState} (hi : BInv h subs inputs leaves base E st)
    {c gn p : Nat} (hgn : st.nodes.get? (h c).name = some gn) (hc : c ∈ st.queued) (hp : Needed h leaves p) (fwd : Bool) :
    ∃ st', Csdl.link h gn fwd st p = .ok st' ∧
      BInv h subs inputs leaves base (fun u v => E u v ∨ (if fwd then u = c ∧ v = p else u = p ∧ v = c)) st' ∧ BStep n st st' := by
  obtain ⟨nodes', r, hg, hr, hgrow, hnew⟩ := getGraphNode_ok hk hi.names hi.content hp
  have hgn' := hgrow _ _ hgn
  unfold Csdl.link
  rw [hg]
  dsimp only
  -- facts about the new dictionary, common to both branches
  have hnames : ∀ k r, nodes'.get? k = some r → (h r).name = k := by
    intro k x hx
    rcases hnew k x hx with hx | ⟨rfl, rfl⟩
    · exact hi.names k x hx
    · rfl
  have hcontent : ∀ k r, nodes'.get? k = some r → r ∈ subs ∨ r ∈ inputs ∨ Needed h leaves r := by
    intro k x hx
    rcases hnew k x hx with hx | ⟨rfl, rfl⟩
    · exact hi.content k x hx
    · exact Or.inr (Or.inr hp)
  have hedges : ∀ a b, (if fwd = true then st.graph.addEdge gn r else st.graph.addEdge r gn).Edge a b ↔
      ∃ u v, (E u v ∨ (if fwd then u = c ∧ v = p else u = p ∧ v = c)) ∧ nodes'.get? (h u).name = some a ∧ nodes'.get? (h v).name = some b := by
    intro a b
    have key : st.graph.Edge a b ↔ ∃ u v, E u v ∧ nodes'.get? (h u).name = some a ∧ nodes'.get? (h v).name = some b := by
      rw [hi.edges]
      constructor
      · rintro ⟨u, v, he, h1, h2⟩
        exact ⟨u, v, he, hgrow _ _ h1, hgrow _ _ h2⟩
      · rintro ⟨u, v, he, h1, h2⟩
        obtain ⟨_, _, ⟨a', ha'⟩, ⟨b', hb'⟩⟩ := hi.present u v he
        have e1 := hgrow _ _ ha'
        have e2 := hgrow _ _ hb'
        rw [h1] at e1; rw [h2] at e2
        cases e1; cases e2
        exact ⟨u, v, he, ha', hb'⟩
    cases fwd with
    | true =>
      simp only [if_true]
      rw [Graph.mem_edges_addEdge, key]
      constructor
      · rintro (⟨u, v, he, h1, h2⟩ | ⟨rfl, rfl⟩)
        · exact ⟨u, v, Or.inl he, h1, h2⟩
        · exact ⟨c, p, Or.inr ⟨rfl, rfl⟩, hgn', hr⟩
      · rintro ⟨u, v, he | ⟨rfl, rfl⟩, h1, h2⟩
        · exact Or.inl ⟨u, v, he, h1, h2⟩
        · rw [hgn'] at h1; rw [hr] at h2; cases h1; cases h2
          exact Or.inr ⟨rfl, rfl⟩
    | false =>
      simp only [Bool.false_eq_true, if_false]
      rw [Graph.mem_edges_addEdge, key]
      constructor
      · rintro (⟨u, v, he, h1, h2⟩ | ⟨rfl, rfl⟩)
        · exact ⟨u, v, Or.inl he, h1, h2⟩
        · exact ⟨p, c, Or.inr ⟨rfl, rfl⟩, hr, hgn'⟩
      · rintro ⟨u, v, he | ⟨rfl, rfl⟩, h1, h2⟩
        · exact Or.inl ⟨u, v, he, h1, h2⟩
        · rw [hr] at h1; rw [hgn'] at h2; cases h1; cases h2
          exact Or.inr ⟨rfl, rfl⟩
  have hwf : (if fwd = true then st.graph.addEdge gn r else st.graph.addEdge r gn).WF := by
    split <;> exact Graph.wf_addEdge hi.wf _ _
  have hnodes : ∀ a, a ∈ (if fwd = true then st.graph.addEdge gn r else st.graph.addEdge r gn).nodes ↔
      base a ∨ ∃ b, (if fwd = true then st.graph.addEdge gn r else st.graph.addEdge r gn).Edge a b ∨
        (if fwd = true then st.graph.addEdge gn r else st.graph.addEdge r gn).Edge b a := by
    intro a
    constructor
    · intro ha
      cases fwd with
      | true =>
        simp only [if_true] at ha ⊢
        rw [Graph.mem_nodes_addEdge, hi.nodes] at ha
        simp only [Graph.mem_edges_addEdge]
        rcases ha with (ha | ⟨b, hb⟩) | rfl | rfl
        · exact Or.inl ha
        · exact Or.inr ⟨b, hb.imp Or.inl Or.inl⟩
        · exact Or.inr ⟨r, Or.inl (Or.inr ⟨rfl, rfl⟩)⟩
        · exact Or.inr ⟨gn, Or.inr (Or.inr ⟨rfl, rfl⟩)⟩
      | false =>
        simp only [Bool.false_eq_true, if_false] at ha ⊢
        rw [Graph.mem_nodes_addEdge, hi.nodes] at ha
        simp only [Graph.mem_edges_addEdge]
        rcases ha with (ha | ⟨b, hb⟩) | rfl | rfl
        · exact Or.inl ha
        · exact Or.inr ⟨b, hb.imp Or.inl Or.inl⟩
        · exact Or.inr ⟨gn, Or.inl (Or.inr ⟨rfl, rfl⟩)⟩
        · exact Or.inr ⟨r, Or.inr (Or.inr ⟨rfl, rfl⟩)⟩
    · rintro (ha | ⟨b, hb | hb⟩)
      · split <;> rw [Graph.mem_nodes_addEdge, hi.nodes] <;> exact Or.inl (Or.inl ha)
      · exact hwf.left _ _ hb
      · exact hwf.right _ _ hb
  have hbase : ∀ a, base a → nodes'.get? (h a).name = some a := fun a ha => hgrow _ _ (hi.baseNodes a ha)
  have hpres : ∀ Q : List Nat, (∀ x ∈ st.queued, x ∈ Q) → p ∈ Q → ∀ u v, (E u v ∨ (if fwd then u = c ∧ v = p else u = p ∧ v = c)) →
      u ∈ Q ∧ v ∈ Q ∧ (∃ a, nodes'.get? (h u).name = some a) ∧ (∃ b, nodes'.get? (h v).name = some b) := by
    intro Q hQ hpQ u v he
    rcases he with he | he
    · obtain ⟨q1, q2, ⟨a', ha'⟩, ⟨b', hb'⟩⟩ := hi.present u v he
      exact ⟨hQ _ q1, hQ _ q2, ⟨a', hgrow _ _ ha'⟩, ⟨b', hgrow _ _ hb'⟩⟩
    · cases fwd with
      | true =>
        simp only [if_true] at he
        obtain ⟨rfl, rfl⟩ := he
        exact ⟨hQ _ hc, hpQ, ⟨_, hgn'⟩, ⟨_, hr⟩⟩
      | false =>
        simp only [Bool.false_eq_true, if_false] at he
        obtain ⟨rfl, rfl⟩ := he
        exact ⟨hpQ, hQ _ hc, ⟨_, hr⟩, ⟨_, hgn'⟩⟩
  by_cases hq : p ∈ st.queued
  · rw [if_pos hq]
    refine ⟨_, rfl, ⟨hnames, hcontent, hbase, hi.queue, hi.queued, hi.leaves, hpres _ (fun _ x => x) hq, hedges, hnodes, hwf⟩, ?_⟩
    exact ⟨hgrow, fun _ x => x, fun _ x => Or.inl x, fun _ x => x, fun _ _ => le_refl _⟩
  · rw [if_neg hq]
    refine ⟨_, rfl, ⟨hnames, hcontent, hbase, ?_, ?_, fun x hx => List.mem_cons_of_mem _ (hi.leaves x hx),
      hpres _ (fun _ x => List.mem_cons_of_mem _ x) (by simp), hedges, hnodes, hwf⟩, ?_⟩
    · intro x hx
      rcases List.mem_cons.1 hx with rfl | hx
      · simp
      · exact List.mem_cons_of_mem _ (hi.queue x hx)
    · intro x hx
      rcases List.mem_cons.1 hx with rfl | hx
      · exact hp
      · exact hi.queued x hx
    · refine ⟨hgrow, fun _ x => List.mem_cons_of_mem _ x, ?_, fun _ x => List.mem_cons_of_mem _ x, ?_⟩
      · intro x hx
        rcases List.mem_cons.1 hx with rfl | hx
        · exact Or.inr (by simp)
        · exact Or.inl hx
      · intro h1 h2
        dsimp only at h2 ⊢
        have hpn : p < n := h2 p (by simp)
        have hlt : (Finset.range n \ (p :: st.queued).toFinset).card < (Finset.range n \ st.queued.toFinset).card := by
          apply Finset.card_lt_card
          rw [Finset.ssubset_iff_of_subset]
          · exact ⟨p, by simp [hpn, hq], by simp⟩
          · intro x hx
            simp only [Finset.mem_sdiff, List.mem_toFinset, List.mem_cons, not_or] at hx ⊢
            exact ⟨hx.1, hx.2.2⟩
        simp only [List.length_cons]
        omega

theorem BInv.congr {E E' : Nat → Nat → Prop} {st : BState} (hi : BInv h subs inputs leaves base E st) (he : ∀ u v, E u v ↔ E' u v) :
    BInv h subs inputs leaves base E' st := by
  have : E = E' := by funext u v; exact propext (he u v)
  subst this; exact hi

theorem BInv.linkAll (hk : NamesOk h subs inputs leaves) (fwd : Bool) (ps : List Nat) {E : Nat → Nat → Prop} {st : BState}
    (hi : BInv h subs inputs leaves base E st) {c gn : Nat} (hgn : st.nodes.get? (h c).name = some gn) (hc : c ∈ st.queued)
    (hp : ∀ p ∈ ps, Needed h leaves p) : ∃ st', Csdl.linkAll h gn fwd st ps = .ok st' ∧
      BInv h subs inputs leaves base (fun u v => E u v ∨ (if fwd then u = c ∧ v ∈ ps else u ∈ ps ∧ v = c)) st' ∧ BStep n st st' := by
  induction ps generalizing E st with
  | nil =>
    refine ⟨st, rfl, hi.congr ?_, BStep.refl n st⟩
    intro u v; cases fwd <;> simp
  | cons p ps ih =>
    obtain ⟨st1, h1, hi1, hs1⟩ := hi.link (n := n) hk hgn hc (hp p (by simp)) fwd
    obtain ⟨st2, h2, hi2, hs2⟩ := ih hi1 (hs1.grow _ _ hgn) (hs1.queued _ hc) (fun q hq => hp q (List.mem_cons_of_mem _ hq))
    refine ⟨st2, by simp only [Csdl.linkAll]; rw [h1]; exact h2, hi2.congr ?_, hs1.trans hs2⟩
    intro u v
    cases fwd with
    | true => simp only [if_true, List.mem_cons]; tauto
    | false => simp only [Bool.false_eq_true, if_false, List.mem_cons]; tauto

/-- The links of an object. -/
def LinkOf (h : Heap) (c u v : Nat) : Prop := (u ∈ (h c).deps ∧ v = c) ∨ ((h c).kind = .op ∧ u = c ∧ v ∈ (h c).outs)

theorem BInv.visit (hk : NamesOk h subs inputs leaves) {E : Nat → Nat → Prop} {st : BState}
    (hi : BInv h subs inputs leaves base E st) {c : Nat} (hc : c ∈ st.queued) :
    ∃ st', Csdl.visit h c st = .ok st' ∧ BInv h subs inputs leaves base (fun u v => E u v ∨ LinkOf h c u v) st' ∧ BStep n st st' := by
  have hn := hi.queued c hc
  obtain ⟨nodes', r, hg, hr, hgrow, hnew⟩ := getGraphNode_ok hk hi.names hi.content hn
  have hi0 : BInv h subs inputs leaves base E { st with nodes := nodes' } := by
    refine ⟨?_, ?_, fun a ha => hgrow _ _ (hi.baseNodes a ha), hi.queue, hi.queued, hi.leaves, ?_, ?_, hi.nodes, hi.wf⟩
    · intro k x hx
      rcases hnew k x hx with hx | ⟨rfl, rfl⟩
      · exact hi.names k x hx
      · rfl
    · intro k x hx
      rcases hnew k x hx with hx | ⟨rfl, rfl⟩
      · exact hi.content k x hx
      · exact Or.inr (Or.inr hn)
    · intro u v he
      obtain ⟨q1, q2, ⟨a', ha'⟩, ⟨b', hb'⟩⟩ := hi.present u v he
      exact ⟨q1, q2, ⟨a', hgrow _ _ ha'⟩, ⟨b', hgrow _ _ hb'⟩⟩
    · intro a b
      rw [hi.edges]
      constructor
      · rintro ⟨u, v, he, h1, h2⟩
        exact ⟨u, v, he, hgrow _ _ h1, hgrow _ _ h2⟩
      · rintro ⟨u, v, he, h1, h2⟩
        obtain ⟨_, _, ⟨a', ha'⟩, ⟨b', hb'⟩⟩ := hi.present u v he
        have e1 := hgrow _ _ ha'
        have e2 := hgrow _ _ hb'
        dsimp only at h1 h2
        rw [h1] at e1; rw [h2] at e2
        cases e1; cases e2
        exact ⟨u, v, he, ha', hb'⟩
  have hs0 : BStep n st { st with nodes := nodes' } := ⟨hgrow, fun _ x => x, fun _ x => Or.inl x, fun _ x => x, fun _ _ => le_refl _⟩
  obtain ⟨st1, h1, hi1, hs1⟩ := hi0.linkAll (n := n) hk false (h c).deps (c := c) (gn := r) hr hc (fun p hp => .dep c p hn hp)
  unfold Csdl.visit
  rw [hg]
  dsimp only
  rw [h1]
  dsimp only
  by_cases hop : (h c).kind = .op
  · rw [if_pos hop]
    obtain ⟨st2, h2, hi2, hs2⟩ := hi1.linkAll (n := n) hk true (h c).outs (c := c) (gn := r) (hs1.grow _ _ hr) (hs1.queued _ hc) (fun p hp => .out c p hn hop hp)
    refine ⟨st2, h2, hi2.congr ?_, hs0.trans (hs1.trans hs2)⟩
    intro u v
    simp only [LinkOf, hop, Bool.false_eq_true, if_false, if_true, true_and, or_assoc]
  · rw [if_neg hop]
    refine ⟨st1, rfl, hi1.congr ?_, hs0.trans hs1⟩
    intro u v
    simp only [LinkOf, hop, Bool.false_eq_true, if_false, false_and, or_false]

theorem BInv.loop (hk : NamesOk h subs inputs leaves) (hb : Bounded h n leaves) (fuel : Nat) {P : List Nat} {st : BState}
    (hi : BInv h subs inputs leaves base (fun u v => ∃ c ∈ P, LinkOf h c u v) st) (hP : ∀ c ∈ st.queued, c ∈ P ∨ c ∈ st.queue)
    (hPq : ∀ c ∈ P, c ∈ st.queued)
    (hf : st.queue.length + (Finset.range n \ st.queued.toFinset).card ≤ fuel) :
    ∃ st', buildLoop h fuel st = .ok st' ∧
      BInv h subs inputs leaves base (fun u v => ∃ c, Needed h leaves c ∧ LinkOf h c u v) st' := by
  have hlt : ∀ c, Needed h leaves c → c < n := by
    intro c hc
    induction hc with
    | leaf c hc => exact hb.leaves c hc
    | dep v u _ hu ih => exact hb.deps v ih u hu
    | out u v _ _ hv ih => exact hb.outs u ih v hv
  have done : ∀ st : BState, ∀ P : List Nat, BInv h subs inputs leaves base (fun u v => ∃ c ∈ P, LinkOf h c u v) st →
      (∀ c ∈ st.queued, c ∈ P ∨ c ∈ st.queue) → (∀ c ∈ P, c ∈ st.queued) → st.queue = [] →
      BInv h subs inputs leaves base (fun u v => ∃ c, Needed h leaves c ∧ LinkOf h c u v) st := by
    intro st P hi hP hPq hq
    have hall : ∀ c, Needed h leaves c → c ∈ P := by
      intro c hc
      have toP : ∀ x ∈ st.queued, x ∈ P := by
        intro x hx
        rcases hP x hx with hx | hx
        · exact hx
        · rw [hq] at hx; cases hx
      induction hc with
      | leaf c hc => exact toP _ (hi.leaves c hc)
      | dep v u _ hu ih => exact toP _ (hi.present u v ⟨v, ih, Or.inl ⟨hu, rfl⟩⟩).1
      | out u v _ hop hv ih => exact toP _ (hi.present u v ⟨u, ih, Or.inr ⟨hop, rfl, hv⟩⟩).2.1
    refine hi.congr ?_
    intro u v
    constructor
    · rintro ⟨c, hc, hl⟩; exact ⟨c, hi.queued c (hPq c hc), hl⟩
    · rintro ⟨c, hc, hl⟩; exact ⟨c, hall c hc, hl⟩
  induction fuel generalizing P st with
  | zero =>
    have hq : st.queue = [] := by
      apply List.eq_nil_of_length_eq_zero; omega
    exact ⟨st, by simp [buildLoop, hq], done st P hi hP hPq hq⟩
  | succ fuel ih =>
    cases hq : st.queue with
    | nil => exact ⟨st, by simp [buildLoop, hq], done st P hi hP hPq hq⟩
    | cons c queue =>
      have hcq : c ∈ st.queued := hi.queue c (by rw [hq]; simp)
      have hi0 : BInv h subs inputs leaves base (fun u v => ∃ c ∈ P, LinkOf h c u v) { st with queue := queue } :=
        ⟨hi.names, hi.content, hi.baseNodes, fun x hx => hi.queue x (by rw [hq]; exact List.mem_cons_of_mem _ hx), hi.queued, hi.leaves, hi.present, hi.edges, hi.nodes, hi.wf⟩
      obtain ⟨st1, h1, hi1, hs1⟩ := hi0.visit (n := n) hk hcq
      have hi1' : BInv h subs inputs leaves base (fun u v => ∃ x ∈ c :: P, LinkOf h x u v) st1 := by
        refine hi1.congr ?_
        intro u v
        simp only [List.mem_cons, exists_eq_or_imp]
        exact or_comm
      obtain ⟨st2, h2, hi2⟩ := ih hi1' (st := st1) (by
        intro x hx
        rcases hs1.new x hx with hx | hx
        · rcases hP x hx with hx | hx
          · exact Or.inl (List.mem_cons_of_mem _ hx)
          · rw [hq] at hx
            rcases List.mem_cons.1 hx with rfl | hx
            · exact Or.inl (by simp)
            · exact Or.inr (hs1.queue x hx)
        · exact Or.inr hx) (by
        intro x hx
        rcases List.mem_cons.1 hx with rfl | hx
        · exact hs1.queued x hcq
        · exact hs1.queued x (hPq x hx)) (by
        have := hs1.measure (fun x hx => hlt x (hi.queued x hx)) (fun x hx => hlt x (hi1.queued x hx))
        rw [hq, List.length_cons] at hf
        dsimp only at this
        omega)
      refine ⟨st2, ?_, hi2⟩
      simp only [buildLoop]
      rw [hq]
      dsimp only
      rw [h1]
      exact h2

/-! ### the initial state -/

theorem addModels_spec (subs : List Nat) (gn : Graph × Dict Name Nat) (l : List Nat)
    (hnames : ∀ k r, gn.2.get? k = some r → (h r).name = k) (hcont : ∀ k r, gn.2.get? k = some r → r ∈ l)
    (hnodes : ∀ a, a ∈ gn.1.nodes ↔ gn.2.get? (h a).name = some a) (he : gn.1.edges = []) (hwf : gn.1.WF) :
    (∀ k r, (addModels h gn subs).2.get? k = some r → (h r).name = k) ∧
    (∀ k r, (addModels h gn subs).2.get? k = some r → r ∈ l ∨ r ∈ subs) ∧
    (∀ a, a ∈ (addModels h gn subs).1.nodes ↔ (addModels h gn subs).2.get? (h a).name = some a) ∧
    (addModels h gn subs).1.edges = [] ∧ (addModels h gn subs).1.WF ∧
    (∀ k r, gn.2.get? k = some r → (addModels h gn subs).2.get? k = some r) ∧
    (∀ s ∈ subs, ∃ r, (addModels h gn subs).2.get? (h s).name = some r) := by
  induction subs generalizing gn l with
  | nil => exact ⟨hnames, fun k r hr => Or.inl (hcont k r hr), hnodes, he, hwf, fun _ _ x => x, by simp⟩
  | cons s subs ih =>
    unfold addModels
    split
    · rename_i hh
      obtain ⟨a1, a2, a3, a4, a5, a6, a7⟩ := ih gn l hnames hcont hnodes he hwf
      refine ⟨a1, fun k r hr => (a2 k r hr).imp id (List.mem_cons_of_mem _), a3, a4, a5, a6, ?_⟩
      intro x hx
      rcases List.mem_cons.1 hx with rfl | hx
      · obtain ⟨r, hr⟩ := Dict.mem_keys_get? (Dict.has_iff.1 hh)
        exact ⟨r, a6 _ _ hr⟩
      · exact a7 x hx
    · rename_i hh
      have hnone : gn.2.get? (h s).name = none := Dict.get?_none_iff.2 (fun x => hh (Dict.has_iff.2 x))
      have hgrow : ∀ k r, gn.2.get? k = some r → (gn.2.set (h s).name s).get? k = some r := by
        intro k r hr
        rw [Dict.get?_set]
        split
        · rename_i e; subst e; rw [hnone] at hr; cases hr
        · exact hr
      obtain ⟨a1, a2, a3, a4, a5, a6, a7⟩ := ih (gn.1.addNode s, gn.2.set (h s).name s) (l ++ [s])
        (by
          intro k r hr
          rw [Dict.get?_set] at hr
          split at hr
          · rename_i e; cases hr; exact e
          · exact hnames k r hr)
        (by
          intro k r hr
          rw [Dict.get?_set] at hr
          rw [List.mem_append]
          split at hr
          · cases hr; right; simp
          · exact Or.inl (hcont k r hr))
        (by
          intro a
          rw [Graph.mem_addNode, hnodes, Dict.get?_set]
          constructor
          · rintro (ha | rfl)
            · split
              · rename_i e; rw [← e, hnone] at ha; cases ha
              · exact ha
            · simp
          · intro ha
            split at ha
            · cases ha; exact Or.inr rfl
            · exact Or.inl ha)
        (by dsimp only; rw [Graph.edges_addNode, he]) (Graph.wf_addNode hwf s)
      refine ⟨a1, ?_, a3, a4, a5, fun k r hr => a6 k r (hgrow k r hr), ?_⟩
      · intro k r hr
        rcases a2 k r hr with h1 | h1
        · rw [List.mem_append] at h1
          rcases h1 with h1 | h1
          · exact Or.inl h1
          · rw [List.mem_singleton] at h1; subst h1; exact Or.inr (by simp)
        · exact Or.inr (List.mem_cons_of_mem _ h1)
      · intro x hx
        rcases List.mem_cons.1 hx with rfl | hx
        · exact ⟨x, a6 _ _ (by rw [Dict.get?_set]; simp)⟩
        · exact a7 x hx

/-- The graph nodes of the submodels and inputs of a model. -/
def initNodes (h : Heap) (subs inputs : List Nat) (a : Nat) : Prop :=
  (addModels h ({}, []) subs).2.get? (h a).name = some a ∨ (Dict.ofPairs (inputs.map fun i => ((h i).name, i))).get? (h a).name = some a

theorem BInv.init (hk : NamesOk h subs inputs leaves) :
    BInv h subs inputs leaves (initNodes h subs inputs) (fun u v => ∃ c ∈ ([] : List Nat), LinkOf h c u v)
      { graph := (addModels h ({}, []) subs).1.addNodes ((Dict.ofPairs (inputs.map fun i => ((h i).name, i))).map (·.2)), nodes := (addModels h ({}, []) subs).2.update (Dict.ofPairs (inputs.map fun i => ((h i).name, i))), queue := leaves.reverse, queued := leaves } := by
  obtain ⟨a1, a2, a3, a4, a5, a6, a7⟩ := addModels_spec (h := h) subs ({}, []) [] (by simp [Dict.get?]) (by simp [Dict.get?]) (by simp [Dict.get?]) rfl Graph.wf_empty
  have hnd := Dict.nodup_ofPairs (inputs.map fun i => ((h i).name, i))
  have hin : ∀ k r, (Dict.ofPairs (inputs.map fun i => ((h i).name, i))).get? k = some r → (h r).name = k ∧ r ∈ inputs := by
    intro k r hr
    have hr' : Dict.get? (Dict.update [] (inputs.map fun i => ((h i).name, i))) k = some r := hr
    rcases Dict.mem_update hr' with h1 | h1
    · obtain ⟨i, hi, he⟩ := List.mem_map.1 h1
      cases he
      exact ⟨rfl, hi⟩
    · simp [Dict.get?] at h1
  have hget := Dict.get?_update (addModels h ({}, []) subs).2 hnd
  have hdisj : ∀ a, (addModels h ({}, []) subs).2.get? (h a).name = some a →
      (Dict.ofPairs (inputs.map fun i => ((h i).name, i))).get? (h a).name = none := by
    intro a ha
    cases hx : (Dict.ofPairs (inputs.map fun i => ((h i).name, i))).get? (h a).name with
    | none => rfl
    | some r =>
      obtain ⟨h1, h2⟩ := hin _ _ hx
      rcases a2 _ _ ha with h3 | h3
      · cases h3
      · exact absurd h1.symm (hk.subNames a h3 r (Or.inr h2))
  refine ⟨?_, ?_, ?_, by simp, fun c hc => .leaf c hc, fun _ x => x, by simp, ?_, ?_, Graph.wf_addNodes a5 _⟩
  · intro k r hr
    dsimp only at hr
    rw [hget] at hr
    cases hx : (Dict.ofPairs (inputs.map fun i => ((h i).name, i))).get? k with
    | none => rw [hx] at hr; exact a1 k r (by simpa using hr)
    | some x => rw [hx] at hr; simp at hr; subst hr; exact (hin _ _ hx).1
  · intro k r hr
    dsimp only at hr
    rw [hget] at hr
    cases hx : (Dict.ofPairs (inputs.map fun i => ((h i).name, i))).get? k with
    | none =>
      rw [hx] at hr
      rcases a2 k r (by simpa using hr) with h1 | h1
      · cases h1
      · exact Or.inl h1
    | some x => rw [hx] at hr; simp at hr; subst hr; exact Or.inr (Or.inl (hin _ _ hx).2)
  · rintro a (ha | ha)
    · dsimp only; rw [hget, hdisj a ha]; simpa using ha
    · dsimp only; rw [hget, ha]
  · intro a b
    simp [Graph.Edge, Graph.edges_addNodes, a4]
  · intro a
    dsimp only
    rw [Graph.mem_addNodes, a3]
    simp only [Graph.Edge, Graph.edges_addNodes, a4, List.not_mem_nil, or_self, exists_false, or_false]
    unfold initNodes
    apply or_congr Iff.rfl
    rw [List.mem_map]
    constructor
    · rintro ⟨⟨k, r⟩, hm, he⟩
      dsimp only at he; subst he
      have := Dict.mem_get? hnd hm
      rw [(hin _ _ this).1]; exact this
    · intro ha
      exact ⟨_, Dict.get?_some_mem ha, rfl⟩

end
end Csdl
