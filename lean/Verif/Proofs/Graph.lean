import Verif.Spec.Graph
import Verif.Proofs.Dict
import Mathlib.Data.List.Nodup
import Mathlib.Order.WellFounded
import Mathlib.Data.Fintype.Order
import Mathlib.Data.List.Count
namespace Csdl

theorem Dict.get?_pop {κ ν : Type} [DecidableEq κ] (d : Dict κ ν) (k k' : κ) :
    (Dict.pop d k).get? k' = if k = k' then none else d.get? k' := by
  induction d with
  | nil => simp [Dict.pop, Dict.get?]
  | cons kv d ih =>
    obtain ⟨a, b⟩ := kv
    unfold Dict.pop at ih ⊢
    rw [List.filter_cons]
    by_cases h : a = k
    · subst h
      simp only [ne_eq, not_true, decide_false, Bool.false_eq_true, if_false, ih, Dict.get?]
      split <;> simp_all
    · simp only [ne_eq, h, not_false_eq_true, decide_true, if_true, Dict.get?, ih]
      by_cases h2 : a = k'
      · subst h2; simp [Ne.symm h]
      · simp [h2]

namespace Graph

theorem mem_succs {g : Graph} {n v : Nat} : v ∈ g.succs n ↔ g.Edge n v := by
  unfold succs Edge
  simp only [List.mem_map, List.mem_filter]
  constructor
  · rintro ⟨⟨a, b⟩, ⟨h1, h2⟩, rfl⟩
    simp at h2; subst h2; exact h1
  · intro h; exact ⟨(n, v), ⟨h, by simp⟩, rfl⟩

theorem mem_preds {g : Graph} {n v : Nat} : v ∈ g.preds n ↔ g.Edge v n := by
  unfold preds Edge
  simp only [List.mem_map, List.mem_filter]
  constructor
  · rintro ⟨⟨a, b⟩, ⟨h1, h2⟩, rfl⟩
    simp at h2; subst h2; exact h1
  · intro h; exact ⟨(v, n), ⟨h, by simp⟩, rfl⟩

theorem nodup_succs {g : Graph} (h : g.edges.Nodup) (n : Nat) : (g.succs n).Nodup := by
  unfold succs
  refine List.Nodup.map_on ?_ (h.filter _)
  rintro ⟨a, b⟩ ha ⟨c, d⟩ hc heq
  simp only [List.mem_filter, decide_eq_true_eq] at ha hc
  obtain ⟨_, rfl⟩ := ha
  obtain ⟨_, rfl⟩ := hc
  cases heq; rfl

theorem nodup_preds {g : Graph} (h : g.edges.Nodup) (n : Nat) : (g.preds n).Nodup := by
  unfold preds
  refine List.Nodup.map_on ?_ (h.filter _)
  rintro ⟨a, b⟩ ha ⟨c, d⟩ hc heq
  simp only [List.mem_filter, decide_eq_true_eq] at ha hc
  obtain ⟨_, rfl⟩ := ha
  obtain ⟨_, rfl⟩ := hc
  cases heq; rfl

end Graph

/-- Number of predecessors of `v` that are not in `P`. -/
def waiting (g : Graph) (P : List Nat) (v : Nat) : Nat := ((g.preds v).filter fun u => decide (u ∉ P)).length

theorem waiting_snoc {g : Graph} (hw : g.edges.Nodup) {P : List Nat} {n : Nat} (hn : n ∉ P) (v : Nat) :
    waiting g P v = waiting g (P ++ [n]) v + if v ∈ g.succs n then 1 else 0 := by
  unfold waiting
  have hnd := Graph.nodup_preds hw v
  have hmem : v ∈ g.succs n ↔ n ∈ g.preds v := by rw [Graph.mem_succs, Graph.mem_preds]
  rw [show (if v ∈ g.succs n then 1 else 0 : Nat) = if n ∈ g.preds v then 1 else 0 by simp only [hmem]]
  generalize g.preds v = l at *
  clear hmem
  induction l with
  | nil => simp
  | cons a l ih =>
    rw [List.nodup_cons] at hnd
    have ih := ih hnd.2
    have e : ∀ x, decide (x ∉ P ++ [n]) = (decide (x ∉ P) && decide (x ≠ n)) := by
      intro x; by_cases h1 : x ∈ P <;> by_cases h2 : x = n <;> simp [h1, h2]
    simp only [e] at ih ⊢
    by_cases han : a = n
    · subst han
      have : ¬ a ∈ l := hnd.1
      simp only [this, if_false, Nat.add_zero] at ih
      rw [List.filter_cons_of_pos (by simpa using hn), List.filter_cons_of_neg (by simp), List.length_cons, ih]
      simp
    · have hna : n ≠ a := fun e => han e.symm
      simp only [List.mem_cons, hna, false_or]
      by_cases haP : a ∈ P
      · rw [List.filter_cons_of_neg (by simpa using haP), List.filter_cons_of_neg (by simp [haP])]
        exact ih
      · rw [List.filter_cons_of_pos (by simpa using haP), List.filter_cons_of_pos (by simp [haP, han]), List.length_cons,
          List.length_cons]
        omega

/-- Invariant of the loop over the children of a node; `c v` is the number of dependencies of `v` not yet done, `cs` are the children still to
be visited. -/
structure RelaxInv (nodes P : List Nat) (c : Nat → Nat) (D : Dict Nat Nat) (Q cs : List Nat) : Prop where
  deg : ∀ v ∈ nodes, v ∉ P ++ Q → D.get? v = some (c v + if v ∈ cs then 1 else 0) ∧ 0 < (c v + if v ∈ cs then 1 else 0)
  keys : ∀ v d, D.get? v = some d → v ∈ nodes ∧ v ∉ P ++ Q
  cnd : cs.Nodup
  cs : ∀ v ∈ cs, v ∈ nodes ∧ v ∉ P ++ Q
  nd : (P ++ Q).Nodup
  ready : ∀ v ∈ Q, c v = 0
  sub : ∀ v ∈ Q, v ∈ nodes

theorem relax_inv {nodes P : List Nat} {c : Nat → Nat} (cs : List Nat) {D : Dict Nat Nat} {Q : List Nat}
    (h : RelaxInv nodes P c D Q cs) : ∃ D2 Q2, relax (D, Q) cs = some (D2, Q2) ∧ RelaxInv nodes P c D2 Q2 [] := by
  induction cs generalizing D Q with
  | nil => exact ⟨D, Q, rfl, h⟩
  | cons a cs ih =>
    obtain ⟨ha1, ha2⟩ := h.cs a (by simp)
    have hcnd := List.nodup_cons.1 h.cnd
    have hg := (h.deg a ha1 ha2).1
    simp only [List.mem_cons, true_or, if_true] at hg
    rw [relax, relaxOne]
    simp only [hg, Nat.add_sub_cancel]
    by_cases hc : c a = 0
    · rw [if_pos hc]
      refine ih ⟨?_, ?_, hcnd.2, ?_, ?_, ?_, ?_⟩
      · intro v hv hvn
        have hva : v ≠ a := by rintro rfl; apply hvn; simp
        have hvn' : v ∉ P ++ Q := by intro h'; apply hvn; rw [← List.append_assoc]; exact List.mem_append_left _ h'
        have := h.deg v hv hvn'
        simp only [List.mem_cons, hva, false_or] at this
        rw [Dict.get?_pop, if_neg (fun e => hva e.symm)]
        exact this
      · intro v d hvd
        rw [Dict.get?_pop] at hvd
        split at hvd
        · cases hvd
        · rename_i hne
          obtain ⟨h1, h2⟩ := h.keys v d hvd
          refine ⟨h1, ?_⟩
          rw [← List.append_assoc, List.mem_append, List.mem_singleton]
          rintro (h3 | h3)
          · exact h2 h3
          · exact hne h3.symm
      · intro v hv
        obtain ⟨h1, h2⟩ := h.cs v (by simp [hv])
        refine ⟨h1, ?_⟩
        rw [← List.append_assoc, List.mem_append, List.mem_singleton]
        rintro (h3 | h3)
        · exact h2 h3
        · subst h3; exact hcnd.1 hv
      · rw [← List.append_assoc, List.nodup_append]
        refine ⟨h.nd, by simp, ?_⟩
        intro x hx y hy
        rw [List.mem_singleton] at hy
        subst hy
        rintro rfl
        exact ha2 hx
      · intro v hv
        rcases List.mem_append.1 hv with hv | hv
        · exact h.ready v hv
        · rw [List.mem_singleton] at hv; subst hv; exact hc
      · intro v hv
        rcases List.mem_append.1 hv with hv | hv
        · exact h.sub v hv
        · rw [List.mem_singleton] at hv; subst hv; exact ha1
    · rw [if_neg hc]
      refine ih ⟨?_, ?_, hcnd.2, ?_, h.nd, h.ready, h.sub⟩
      · intro v hv hvn
        rw [Dict.get?_set]
        by_cases hva : a = v
        · subst hva
          rw [if_pos rfl]
          simp only [hcnd.1, if_false, Nat.add_zero]
          exact ⟨trivial, by omega⟩
        · rw [if_neg hva]
          have := h.deg v hv hvn
          simp only [List.mem_cons, show ¬ v = a from fun e => hva e.symm, false_or] at this
          exact this
      · intro v d hvd
        rw [Dict.get?_set] at hvd
        split at hvd
        · rename_i e; subst e; exact ⟨ha1, ha2⟩
        · exact h.keys v d hvd
      · intro v hv; exact h.cs v (by simp [hv])

/-- Invariant of the main loop: `P` are the nodes done, `Q` is the queue, `D` the in-degree map. -/
structure KahnInv (g : Graph) (P Q : List Nat) (D : Dict Nat Nat) : Prop where
  rel : RelaxInv g.nodes P (waiting g P) D Q []
  psub : ∀ v ∈ P, v ∈ g.nodes
  order : ∀ (i : Nat) (v u : Nat), P[i]? = some v → g.Edge u v → ∃ j, j < i ∧ P[j]? = some u

theorem waiting_zero {g : Graph} {P : List Nat} {v : Nat} (h : waiting g P v = 0) {u : Nat} (he : g.Edge u v) : u ∈ P := by
  unfold waiting at h
  rw [List.length_eq_zero_iff, List.filter_eq_nil_iff] at h
  have := h u (Graph.mem_preds.2 he)
  simpa using this

theorem KahnInv.step {g : Graph} (hw : g.WF) {P Q : List Nat} {D : Dict Nat Nat} {n : Nat} (h : KahnInv g P (n :: Q) D) :
    ∃ D2 Q2, relax (D, Q) (g.succs n) = some (D2, Q2) ∧ KahnInv g (P ++ [n]) Q2 D2 := by
  have hnd := h.rel.nd
  have hnP : n ∉ P := by
    rw [List.nodup_append] at hnd
    intro hp
    exact hnd.2.2 n hp n (by simp) rfl
  have hn0 : waiting g P n = 0 := h.rel.ready n (by simp)
  have hP : ∀ v ∈ P, ¬ g.Edge n v := by
    intro v hv he
    obtain ⟨i, hi⟩ := List.mem_iff_getElem?.1 hv
    obtain ⟨j, _, hj⟩ := h.order i v n hi he
    exact hnP (List.mem_of_getElem? hj)
  have hQ : ∀ v ∈ n :: Q, ¬ g.Edge n v := by
    intro v hv he
    exact hnP (waiting_zero (h.rel.ready v hv) he)
  have eqPQ : P ++ [n] ++ Q = P ++ n :: Q := by simp
  have hchild : ∀ v ∈ g.succs n, v ∈ g.nodes ∧ v ∉ (P ++ [n]) ++ Q := by
    intro v hv
    have he := Graph.mem_succs.1 hv
    refine ⟨hw.right n v he, ?_⟩
    rw [eqPQ, List.mem_append]
    rintro (h1 | h1)
    · exact hP v h1 he
    · exact hQ v h1 he
  obtain ⟨D2, Q2, h1, h2⟩ := relax_inv (nodes := g.nodes) (P := P ++ [n]) (c := waiting g (P ++ [n])) (g.succs n) (D := D) (Q := Q) (by
    refine ⟨?_, ?_, Graph.nodup_succs hw.edges_nodup n, hchild, by rw [eqPQ]; exact hnd, ?_, ?_⟩
    · intro v hv hvn
      rw [eqPQ] at hvn
      have := h.rel.deg v hv hvn
      simp only [List.not_mem_nil, if_false, Nat.add_zero] at this
      rw [← waiting_snoc hw.edges_nodup hnP]
      exact this
    · intro v d hvd
      rw [eqPQ]; exact h.rel.keys v d hvd
    · intro v hv
      have h0 := h.rel.ready v (by simp [hv])
      have := waiting_snoc hw.edges_nodup hnP v
      omega
    · intro v hv; exact h.rel.sub v (by simp [hv]))
  refine ⟨D2, Q2, h1, h2, ?_, ?_⟩
  · intro v hv
    rcases List.mem_append.1 hv with hv | hv
    · exact h.psub v hv
    · rw [List.mem_singleton] at hv; subst hv; exact h.rel.sub v (by simp)
  · intro i v u hi he
    by_cases hlt : i < P.length
    · rw [List.getElem?_append_left hlt] at hi
      obtain ⟨j, hj, hj'⟩ := h.order i v u hi he
      exact ⟨j, hj, by rw [List.getElem?_append_left (by omega)]; exact hj'⟩
    · have hi' : i < (P ++ [n]).length := (List.getElem?_eq_some_iff.1 hi).1
      simp at hi'
      have hie : i = P.length := by omega
      subst hie
      simp at hi
      subst hi
      have hu := waiting_zero hn0 he
      obtain ⟨j, hj⟩ := List.mem_iff_getElem?.1 hu
      have hjl := (List.getElem?_eq_some_iff.1 hj).1
      exact ⟨j, hjl, by rw [List.getElem?_append_left hjl]; exact hj⟩

theorem kahnLoop_spec {g : Graph} (hw : g.WF) (fuel : Nat) {P Q : List Nat} {D : Dict Nat Nat} (h : KahnInv g P Q D)
    (hf : P.length + fuel = g.nodes.length) :
    ∃ P' D', KahnInv g P' [] D' ∧ kahnLoop g fuel D Q P = if D' = [] then some P' else none := by
  induction fuel generalizing P Q D with
  | zero =>
    cases Q with
    | nil => exact ⟨P, D, h, by rw [kahnLoop]⟩
    | cons n Q =>
      exfalso
      have hsub : (P ++ n :: Q) ⊆ g.nodes := by
        intro v hv
        rcases List.mem_append.1 hv with hv | hv
        · exact h.psub v hv
        · exact h.rel.sub v hv
      have := (List.subperm_of_subset h.rel.nd hsub).length_le
      simp at this
      omega
  | succ fuel ih =>
    cases Q with
    | nil => exact ⟨P, D, h, by rw [kahnLoop]⟩
    | cons n Q =>
      obtain ⟨D2, Q2, h1, h2⟩ := h.step hw
      obtain ⟨P', D', h3, h4⟩ := ih h2 (by simp; omega)
      refine ⟨P', D', h3, ?_⟩
      rw [kahnLoop, h1]
      exact h4

theorem kahnInv_init {g : Graph} (hw : g.WF) : KahnInv g [] (g.nodes.filter fun v => decide (g.inDegree v = 0))
    ((g.nodes.filter fun v => decide (0 < g.inDegree v)).map fun v => (v, g.inDegree v)) := by
  have hwait : ∀ v, waiting g [] v = g.inDegree v := by
    intro v; unfold waiting Graph.inDegree; simp
  have hget : ∀ (l : List Nat) (v : Nat), Dict.get? ((l.filter fun v => decide (0 < g.inDegree v)).map fun v => (v, g.inDegree v)) v =
      if v ∈ l ∧ 0 < g.inDegree v then some (g.inDegree v) else none := by
    intro l v
    induction l with
    | nil => simp [Dict.get?]
    | cons a l ih =>
      rw [List.filter_cons]
      by_cases ha : 0 < g.inDegree a
      · simp only [ha, decide_true, if_true, List.map_cons, Dict.get?, ih]
        by_cases hav : a = v
        · subst hav; simp [ha]
        · simp [hav, Ne.symm hav]
      · simp only [ha, decide_false, Bool.false_eq_true, if_false, ih]
        by_cases hav : v = a
        · subst hav; simp [ha]
        · simp [hav]
  refine ⟨⟨?_, ?_, by simp, by simp, ?_, ?_, ?_⟩, by simp, by simp⟩
  · intro v hv hvn
    simp only [List.nil_append, List.mem_filter, decide_eq_true_eq, not_and] at hvn
    have := hvn hv
    rw [hget, if_pos ⟨hv, by omega⟩, hwait]
    simp; omega
  · intro v d hvd
    rw [hget] at hvd
    split at hvd
    · rename_i h
      refine ⟨h.1, ?_⟩
      simp only [List.nil_append, List.mem_filter, decide_eq_true_eq, not_and]
      intro _; omega
    · cases hvd
  · simpa using hw.nodup.filter _
  · intro v hv
    rw [hwait]
    simpa using (List.mem_filter.1 hv).2
  · intro v hv
    exact (List.mem_filter.1 hv).1

theorem kahn_spec {g : Graph} (hw : g.WF) :
    ∃ P D, KahnInv g P [] D ∧ kahn g = if D = [] then some P else none :=
  kahnLoop_spec hw _ (kahnInv_init hw) (by simp)

theorem kahnInv_order {g : Graph} {P : List Nat} (h : KahnInv g P [] []) : g.Order P := by
  have hnd : P.Nodup := by simpa using h.rel.nd
  refine ⟨hnd, ?_, ?_⟩
  · intro v
    refine ⟨h.psub v, ?_⟩
    intro hv
    by_contra hvP
    have := (h.rel.deg v hv (by simpa using hvP)).1
    simp [Dict.get?] at this
  · intro i j u v hi hj he
    obtain ⟨k, hk, hk'⟩ := h.order j v u hj he
    have : k = i := by
      have h1 := (List.getElem?_eq_some_iff.1 hi).1
      have h2 := (List.getElem?_eq_some_iff.1 hk').1
      apply (List.Nodup.getElem_inj_iff hnd (hi := h2) (hj := h1)).1
      have e1 := (List.getElem?_eq_some_iff.1 hi).2
      have e2 := (List.getElem?_eq_some_iff.1 hk').2
      rw [e1, e2]
    omega

/-- A graph with an order that respects dependencies has no cycle. -/
theorem Graph.Order.acyclic {g : Graph} (hw : g.WF) {l : List Nat} (h : g.Order l) : ¬ g.Cyclic := by
  rintro ⟨v, hv⟩
  have key : ∀ a b, Relation.TransGen g.Edge a b → ∀ i j : Nat, l[i]? = some a → l[j]? = some b → i < j := by
    intro a b hab
    induction hab with
    | single he => intro i j hi hj; exact h.before i j _ _ hi hj he
    | @tail b c hab hbc ih =>
      intro i j hi hj
      obtain ⟨k, hk⟩ := List.mem_iff_getElem?.1 ((h.all b).2 (hw.left b c hbc))
      have h1 := ih i k hi hk
      have h2 := h.before k j b c hk hj hbc
      omega
  have hvn : v ∈ g.nodes := by
    obtain ⟨c, hc, _⟩ := Relation.TransGen.tail'_iff.1 hv
    exact hw.right _ _ ‹_›
  obtain ⟨i, hi⟩ := List.mem_iff_getElem?.1 ((h.all v).2 hvn)
  have := key v v hv i i hi hi
  omega

/-- If every node of a non-empty finite set has a predecessor in the set, there is a cycle. -/
theorem cyclic_of_pred {g : Graph} {S : List Nat} (hne : S ≠ []) (h : ∀ v ∈ S, ∃ u ∈ S, g.Edge u v) : g.Cyclic := by
  by_contra hac
  have hac' : ∀ v, ¬ Relation.TransGen g.Edge v v := fun v hv => hac ⟨v, hv⟩
  have hwf : WellFounded (fun a b : {v // v ∈ S} => Relation.TransGen g.Edge a.1 b.1) := by
    have : Finite {v // v ∈ S} := (List.finite_toSet S).to_subtype
    have : IsTrans {v // v ∈ S} (fun a b => Relation.TransGen g.Edge a.1 b.1) := ⟨fun a b c h1 h2 => h1.trans h2⟩
    have : Std.Irrefl (fun a b : {v // v ∈ S} => Relation.TransGen g.Edge a.1 b.1) := ⟨fun a h => hac' a.1 h⟩
    exact Finite.wellFounded_of_trans_of_irrefl _
  obtain ⟨x, hx⟩ := List.exists_mem_of_ne_nil S hne
  obtain ⟨m, _, hm⟩ := hwf.has_min Set.univ ⟨⟨x, hx⟩, trivial⟩
  obtain ⟨u, hu, he⟩ := h m.1 m.2
  exact hm ⟨u, hu⟩ trivial (Relation.TransGen.single he)

theorem kahnInv_cyclic {g : Graph} (hw : g.WF) {P : List Nat} {D : Dict Nat Nat} (h : KahnInv g P [] D) (hD : D ≠ []) : g.Cyclic := by
  apply cyclic_of_pred (S := g.nodes.filter fun v => decide (v ∉ P))
  · obtain ⟨⟨k, d⟩, rest, rfl⟩ := List.exists_cons_of_ne_nil hD
    obtain ⟨h1, h2⟩ := h.rel.keys k d (by simp [Dict.get?])
    apply List.ne_nil_of_mem (a := k)
    rw [List.mem_filter]
    exact ⟨h1, by simpa using h2⟩
  · intro v hv
    obtain ⟨hv1, hv2⟩ := List.mem_filter.1 hv
    have := (h.rel.deg v hv1 (by simpa using hv2)).2
    simp only [List.not_mem_nil, if_false, Nat.add_zero] at this
    unfold waiting at this
    obtain ⟨u, hu⟩ := List.exists_mem_of_length_pos this
    rw [List.mem_filter] at hu
    have he := Graph.mem_preds.1 hu.1
    refine ⟨u, ?_, he⟩
    rw [List.mem_filter]
    exact ⟨hw.left u v he, hu.2⟩

end Csdl
