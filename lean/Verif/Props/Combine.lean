import Verif.Spec.Combine
import Verif.Proofs.Flatten
import Verif.Props.Graph
/-
C49 (combining operations), C60 (dead code).
-/
namespace Csdl.Opt
open Csdl

theorem list_singleton {l : List Nat} (hn : l.Nodup) {a : Nat} : l = [a] ↔ ∀ u, u ∈ l ↔ u = a := by
  constructor
  · rintro rfl; simp
  · intro h
    cases l with
    | nil => exact absurd ((h a).2 rfl) (by simp)
    | cons x l =>
      have hx : x = a := (h x).1 (by simp)
      subst hx
      cases l with
      | nil => rfl
      | cons y l =>
        have hy : y = x := (h y).1 (by simp)
        subst hy
        simp at hn

theorem preds_singleton {g : Graph} (h : g.WF) {o a : Nat} : g.preds o = [a] ↔ ∀ u, g.Edge u o ↔ u = a := by
  rw [list_singleton (Graph.nodup_preds h.edges_nodup o)]
  simp only [Graph.mem_preds]

theorem succs_singleton {g : Graph} (h : g.WF) {o a : Nat} : g.succs o = [a] ↔ ∀ u, g.Edge o u ↔ u = a := by
  rw [list_singleton (Graph.nodup_succs h.edges_nodup o)]
  simp only [Graph.mem_succs]

/-- What holds of the graph during the pass. -/
structure Inv {V : Type} (fn : Nat → List V → Nat → V) (cg : CGraph) : Prop where
  wf : cg.g.WF
  bipartite : ∀ u v, cg.g.Edge u v → (∃ b c, cg.kind u = .var b ∧ cg.kind v = .op c) ∨ (∃ b c, cg.kind u = .op b ∧ cg.kind v = .var c)
  rank : ∃ r : Nat → Nat, ∀ u v, cg.g.Edge u v → r u < r v
  oneSource : ∀ v b, cg.kind v = .var b → ∀ o o', cg.g.Edge o v → cg.g.Edge o' v → o = o'
  fresh : ∀ n ∈ cg.g.nodes, n < cg.next
  dep : ∀ o ∈ cg.g.nodes, (∃ b, cg.kind o = .op b) → ∀ v, cg.g.Edge o v → ∀ env env', (∀ u, cg.g.Edge u o → env u = env' u) → exec fn (cg.prog o) env v = exec fn (cg.prog o) env' v
  use : SingleUse cg

/-- How the graph changes. -/
structure Rel {V : Type} (fn : Nat → List V → Nat → V) (cg cg' : CGraph) : Prop where
  nodes : ∀ n ∈ cg'.g.nodes, n < cg.next → n ∈ cg.g.nodes
  newOps : ∀ n ∈ cg'.g.nodes, cg.next ≤ n → cg'.kind n = .op true
  next : cg.next ≤ cg'.next
  kind : ∀ n, n < cg.next → cg'.kind n = cg.kind n
  prog : ∀ n, n < cg.next → cg'.prog n = cg.prog n
  args : ∀ o b, o ∈ cg'.g.nodes → o < cg.next → cg.kind o = .op b → ∀ u, cg'.g.Edge u o ↔ cg.g.Edge u o
  removed : ∀ v b, v ∈ cg.g.nodes → v ∉ cg'.g.nodes → cg.kind v = .var b → b = true ∧ (∃ o, cg.g.Edge o v) ∧ ∃ o, cg.g.Edge v o
  used : ∀ v, v < cg.next → (∃ o, cg'.g.Edge v o) → ∃ o, cg.g.Edge v o
  made : ∀ v, v < cg.next → (∃ o, cg'.g.Edge o v) → ∃ o, cg.g.Edge o v
  fwd : ∀ val, Sat fn cg val → Sat fn cg' val
  bwd : ∀ val', Sat fn cg' val' → ∃ val, (∀ v b, v ∈ cg'.g.nodes → cg'.kind v = .var b → val v = val' v) ∧ Sat fn cg val

theorem exec_append {V : Type} (fn : Nat → List V → Nat → V) (p q : List Line) (env : Nat → V) : exec fn (p ++ q) env = exec fn q (exec fn p env) := by
  induction p generalizing env with
  | nil => rfl
  | cons l p ih => rw [List.cons_append, exec, exec, ih]

section
variable {V : Type} {fn : Nat → List V → Nat → V} {cg : CGraph} {v01 op1 v12 op2 v23 : Nat}

theorem edge' (cg : CGraph) (v01 op1 v12 op2 v23 u v : Nat) : (insertNewOp cg v01 op1 v12 op2 v23).g.Edge u v ↔
    (cg.g.Edge u v ∧ (u ≠ op1 ∧ u ≠ v12 ∧ u ≠ op2) ∧ (v ≠ op1 ∧ v ≠ v12 ∧ v ≠ op2)) ∨ (u = v01 ∧ v = cg.next) ∨ (u = cg.next ∧ v = v23) := by
  unfold insertNewOp
  rw [Graph.mem_edges_addEdges, Graph.edge_removeNodes]
  simp [not_or]

theorem nodes' (cg : CGraph) (v01 op1 v12 op2 v23 n : Nat) : n ∈ (insertNewOp cg v01 op1 v12 op2 v23).g.nodes ↔
    (n ∈ cg.g.nodes ∧ n ≠ op1 ∧ n ≠ v12 ∧ n ≠ op2) ∨ n = v01 ∨ n = cg.next ∨ n = v23 := by
  unfold insertNewOp
  rw [Graph.mem_nodes_addEdges, Graph.mem_nodes_removeNodes]
  simp [not_or]
  tauto

theorem insert_graph (cg : CGraph) (v01 op1 v12 op2 v23 : Nat) :
    (insertNewOp cg v01 op1 v12 op2 v23).g = (cg.g.removeNodes [op1, v12, op2]).addEdges [(v01, cg.next), (cg.next, v23)] := by
  simp only [insertNewOp]

theorem insert_wf {cg : CGraph} (h : cg.g.WF) (v01 op1 v12 op2 v23 : Nat) : (insertNewOp cg v01 op1 v12 op2 v23).g.WF := by
  rw [insert_graph]
  generalize [op1, v12, op2] = l
  generalize [(v01, cg.next), (cg.next, v23)] = l'
  exact Graph.wf_addEdges (Graph.wf_removeNodes h l) l'

/-- The situation in which `insert_new_op` is called. -/
structure Chain {V : Type} (fn : Nat → List V → Nat → V) (cg : CGraph) (v01 op1 v12 op2 v23 : Nat) : Prop where
  inv : Inv fn cg
  u1 : Unary cg op1 v01 v12
  u2 : Unary cg op2 v12 v23
  out : cg.kind v12 = .var true

namespace Chain
variable (h : Chain fn cg v01 op1 v12 op2 v23)
include h

theorem e1 (u : Nat) : cg.g.Edge u op1 ↔ u = v01 := (preds_singleton h.inv.wf).1 h.u1.2.1 u
theorem e2 (u : Nat) : cg.g.Edge op1 u ↔ u = v12 := (succs_singleton h.inv.wf).1 h.u1.2.2 u
theorem e3 (u : Nat) : cg.g.Edge u op2 ↔ u = v12 := (preds_singleton h.inv.wf).1 h.u2.2.1 u
theorem e4 (u : Nat) : cg.g.Edge op2 u ↔ u = v23 := (succs_singleton h.inv.wf).1 h.u2.2.2 u
theorem e5 (o : Nat) (he : cg.g.Edge o v12) : o = op1 := h.inv.oneSource v12 true h.out o op1 he ((h.e2 _).2 rfl)
theorem e6 (o : Nat) (he : cg.g.Edge v12 o) : o = op2 := h.inv.use op1 v01 v12 op2 v23 h.u1 h.u2 o he

theorem ranks : ∃ r : Nat → Nat, (∀ u v, cg.g.Edge u v → r u < r v) ∧ r v01 < r op1 ∧ r op1 < r v12 ∧ r v12 < r op2 ∧ r op2 < r v23 := by
  obtain ⟨r, hr⟩ := h.inv.rank
  exact ⟨r, hr, hr _ _ ((h.e1 _).2 rfl), hr _ _ ((h.e2 _).2 rfl), hr _ _ ((h.e3 _).2 rfl), hr _ _ ((h.e4 _).2 rfl)⟩

theorem distinct : v01 ≠ op1 ∧ v01 ≠ v12 ∧ v01 ≠ op2 ∧ v01 ≠ v23 ∧ op1 ≠ v12 ∧ op1 ≠ op2 ∧ op1 ≠ v23 ∧ v12 ≠ op2 ∧ v12 ≠ v23 ∧ op2 ≠ v23 := by
  obtain ⟨r, _, h1, h2, h3, h4⟩ := h.ranks
  refine ⟨?_, ?_, ?_, ?_, ?_, ?_, ?_, ?_, ?_, ?_⟩ <;> (rintro rfl; omega)

theorem mem : v01 ∈ cg.g.nodes ∧ op1 ∈ cg.g.nodes ∧ v12 ∈ cg.g.nodes ∧ op2 ∈ cg.g.nodes ∧ v23 ∈ cg.g.nodes :=
  ⟨h.inv.wf.left _ _ ((h.e1 _).2 rfl), h.inv.wf.right _ _ ((h.e1 _).2 rfl), h.inv.wf.right _ _ ((h.e2 _).2 rfl), h.inv.wf.left _ _ ((h.e4 _).2 rfl), h.inv.wf.right _ _ ((h.e4 _).2 rfl)⟩

theorem ne_next {n : Nat} (hn : n ∈ cg.g.nodes) : n ≠ cg.next := by
  have := h.inv.fresh n hn; omega

theorem kind01 : ∃ b, cg.kind v01 = .var b := by
  rcases h.inv.bipartite _ _ ((h.e1 _).2 rfl) with ⟨b, _, hb, _⟩ | ⟨_, c, _, hc⟩
  · exact ⟨b, hb⟩
  · rw [h.u1.1] at hc; cases hc

theorem kind23 : ∃ b, cg.kind v23 = .var b := by
  rcases h.inv.bipartite _ _ ((h.e4 _).2 rfl) with ⟨b, _, hb, _⟩ | ⟨_, c, _, hc⟩
  · rw [h.u2.1] at hb; cases hb
  · exact ⟨c, hc⟩

theorem no_next (u : Nat) : ¬cg.g.Edge u cg.next ∧ ¬cg.g.Edge cg.next u :=
  ⟨fun he => h.ne_next (h.inv.wf.right _ _ he) rfl, fun he => h.ne_next (h.inv.wf.left _ _ he) rfl⟩

/-- The nodes that remain. -/
theorem old {n : Nat} : (n ∈ (insertNewOp cg v01 op1 v12 op2 v23).g.nodes ∧ n ≠ cg.next) ↔ (n ∈ cg.g.nodes ∧ n ≠ op1 ∧ n ≠ v12 ∧ n ≠ op2) := by
  rw [nodes']
  obtain ⟨d1, d2, d3, d4, d5, d6, d7, d8, d9, d10⟩ := h.distinct
  obtain ⟨m1, m2, m3, m4, m5⟩ := h.mem
  constructor
  · rintro ⟨h1 | rfl | rfl | rfl, h2⟩
    · exact h1
    · exact ⟨m1, d1, d2, d3⟩
    · exact absurd rfl h2
    · exact ⟨m5, d7.symm, d9.symm, d10.symm⟩
  · intro h1
    exact ⟨Or.inl h1, h.ne_next h1.1⟩

/-- The arguments of the remaining operations. -/
theorem args_old {o : Nat} {b : Bool} (ho : o ∈ (insertNewOp cg v01 op1 v12 op2 v23).g.nodes) (hne : o ≠ cg.next) (hk : cg.kind o = .op b) (u : Nat) :
    (insertNewOp cg v01 op1 v12 op2 v23).g.Edge u o ↔ cg.g.Edge u o := by
  obtain ⟨_, n1, n2, n3⟩ := h.old.1 ⟨ho, hne⟩
  rw [edge']
  constructor
  · rintro (⟨he, _⟩ | ⟨_, rfl⟩ | ⟨_, rfl⟩)
    · exact he
    · exact absurd rfl hne
    · obtain ⟨c, hc⟩ := h.kind23
      rw [hk] at hc; cases hc
  · intro he
    left
    refine ⟨he, ⟨?_, ?_, ?_⟩, n1, n2, n3⟩
    · rintro rfl; exact n2 ((h.e2 _).1 he)
    · rintro rfl; exact n3 (h.e6 _ he)
    · rintro rfl
      have := (h.e4 _).1 he
      subst this
      obtain ⟨c, hc⟩ := h.kind23
      rw [hk] at hc; cases hc

/-- The outputs of the remaining operations. -/
theorem outs_old {o : Nat} {b : Bool} (ho : o ∈ (insertNewOp cg v01 op1 v12 op2 v23).g.nodes) (hne : o ≠ cg.next) (hk : cg.kind o = .op b) (v : Nat) :
    (insertNewOp cg v01 op1 v12 op2 v23).g.Edge o v ↔ cg.g.Edge o v := by
  obtain ⟨_, n1, n2, n3⟩ := h.old.1 ⟨ho, hne⟩
  rw [edge']
  constructor
  · rintro (⟨he, _⟩ | ⟨rfl, _⟩ | ⟨rfl, _⟩)
    · exact he
    · obtain ⟨c, hc⟩ := h.kind01
      rw [hk] at hc; cases hc
    · exact absurd rfl hne
  · intro he
    left
    refine ⟨he, ⟨n1, n2, n3⟩, ?_, ?_, ?_⟩
    · rintro rfl
      have := (h.e1 _).1 he
      subst this
      obtain ⟨c, hc⟩ := h.kind01
      rw [hk] at hc; cases hc
    · rintro rfl; exact n1 (h.e5 _ he)
    · rintro rfl; exact n2 ((h.e3 _).1 he)

theorem args_new (u : Nat) : (insertNewOp cg v01 op1 v12 op2 v23).g.Edge u cg.next ↔ u = v01 := by
  rw [edge']
  obtain ⟨m1, m2, m3, m4, m5⟩ := h.mem
  constructor
  · rintro (⟨he, _⟩ | ⟨rfl, _⟩ | ⟨_, hc⟩)
    · exact absurd he (h.no_next u).1
    · rfl
    · exact absurd hc.symm (h.ne_next m5)
  · rintro rfl; exact Or.inr (Or.inl ⟨rfl, rfl⟩)

theorem outs_new (u : Nat) : (insertNewOp cg v01 op1 v12 op2 v23).g.Edge cg.next u ↔ u = v23 := by
  rw [edge']
  obtain ⟨m1, m2, m3, m4, m5⟩ := h.mem
  constructor
  · rintro (⟨he, _⟩ | ⟨hc, _⟩ | ⟨_, rfl⟩)
    · exact absurd he (h.no_next u).2
    · exact absurd hc.symm (h.ne_next m1)
    · rfl
  · rintro rfl; exact Or.inr (Or.inr ⟨rfl, rfl⟩)

theorem kind_new (n : Nat) : (insertNewOp cg v01 op1 v12 op2 v23).kind n = if n = cg.next then .op true else cg.kind n := rfl

theorem prog_new (n : Nat) : (insertNewOp cg v01 op1 v12 op2 v23).prog n = if n = cg.next then cg.prog op1 ++ cg.prog op2 else cg.prog n := rfl

theorem wf' : (insertNewOp cg v01 op1 v12 op2 v23).g.WF := insert_wf h.inv.wf _ _ _ _ _

/-- The combined operation does what the two operations did one after the other. -/
theorem exec_new (env : Nat → V) : exec fn (cg.prog op1 ++ cg.prog op2) env v23 = exec fn (cg.prog op2) (exec fn (cg.prog op1) env) v23 := by rw [exec_append]

theorem dep1 {env env' : Nat → V} (he : env v01 = env' v01) : exec fn (cg.prog op1) env v12 = exec fn (cg.prog op1) env' v12 :=
  h.inv.dep op1 h.mem.2.1 ⟨true, h.u1.1⟩ v12 ((h.e2 _).2 rfl) env env' (fun u hu => by rw [(h.e1 u).1 hu]; exact he)

theorem dep2 {env env' : Nat → V} (he : env v12 = env' v12) : exec fn (cg.prog op2) env v23 = exec fn (cg.prog op2) env' v23 :=
  h.inv.dep op2 h.mem.2.2.2.1 ⟨true, h.u2.1⟩ v23 ((h.e4 _).2 rfl) env env' (fun u hu => by rw [(h.e3 u).1 hu]; exact he)

theorem fwd (val : Nat → V) (hs : Sat fn cg val) : Sat fn (insertNewOp cg v01 op1 v12 op2 v23) val := by
  intro o ho hk v hv
  by_cases hc : o = cg.next
  · subst hc
    have := (h.outs_new v).1 hv
    subst this
    rw [h.prog_new, if_pos rfl, h.exec_new]
    have s1 := hs op1 h.mem.2.1 ⟨true, h.u1.1⟩ v12 ((h.e2 _).2 rfl)
    have s2 := hs op2 h.mem.2.2.2.1 ⟨true, h.u2.1⟩ v ((h.e4 _).2 rfl)
    rw [s2]
    exact h.dep2 s1
  · rw [h.prog_new, if_neg hc]
    obtain ⟨b, hb⟩ := hk
    rw [h.kind_new, if_neg hc] at hb
    exact hs o (h.old.1 ⟨ho, hc⟩).1 ⟨b, hb⟩ v ((h.outs_old ho hc hb v).1 hv)

theorem bwd (val' : Nat → V) (hs : Sat fn (insertNewOp cg v01 op1 v12 op2 v23) val') :
    ∃ val, (∀ v, v ≠ v12 → val v = val' v) ∧ Sat fn cg val := by
  refine ⟨fun n => if n = v12 then exec fn (cg.prog op1) val' v12 else val' n, fun v hv => by simp [hv], ?_⟩
  obtain ⟨d1, d2, d3, d4, d5, d6, d7, d8, d9, d10⟩ := h.distinct
  obtain ⟨m1, m2, m3, m4, m5⟩ := h.mem
  intro o ho hk v hv
  obtain ⟨b, hb⟩ := hk
  by_cases h1 : o = op1
  · subst h1
    have := (h.e2 v).1 hv
    subst this
    simp only [if_true]
    exact h.dep1 (by simp [d2])
  · by_cases h2 : o = op2
    · subst h2
      have := (h.e4 v).1 hv
      subst this
      have s := hs cg.next ((nodes' ..).2 (by simp)) ⟨true, by rw [h.kind_new, if_pos rfl]⟩ v ((h.outs_new v).2 rfl)
      rw [h.prog_new, if_pos rfl, h.exec_new] at s
      simp only [d9.symm, if_false]
      rw [s]
      exact h.dep2 (by simp)
    · have h3 : o ≠ v12 := by rintro rfl; rw [h.out] at hb; cases hb
      obtain ⟨ho', hc⟩ := h.old.2 ⟨ho, h1, h3, h2⟩
      have hvn : v ≠ v12 := by rintro rfl; exact h1 (h.e5 o hv)
      simp only [hvn, if_false]
      have s := hs o ho' ⟨b, by rw [h.kind_new, if_neg hc]; exact hb⟩ v ((h.outs_old ho' hc hb v).2 hv)
      rw [h.prog_new, if_neg hc] at s
      rw [s]
      apply h.inv.dep o ho ⟨b, hb⟩ v hv
      intro u hu
      have : u ≠ v12 := by rintro rfl; exact h2 (h.e6 o hu)
      simp [this]

theorem rel : Rel fn cg (insertNewOp cg v01 op1 v12 op2 v23) := by
  obtain ⟨m1, m2, m3, m4, m5⟩ := h.mem
  refine ⟨?_, ?_, by simp [insertNewOp], ?_, ?_, ?_, ?_, ?_, ?_, h.fwd, ?_⟩
  · intro n hn hlt
    exact (h.old.1 ⟨hn, by omega⟩).1
  · intro n hn hge
    by_cases hc : n = cg.next
    · rw [h.kind_new, if_pos hc]
    · have := h.inv.fresh n (h.old.1 ⟨hn, hc⟩).1; omega
  · intro n hn; rw [h.kind_new, if_neg (by omega)]
  · intro n hn; rw [h.prog_new, if_neg (by omega)]
  · intro o b ho hlt hk u
    exact h.args_old ho (by omega) hk u
  · intro v b hv hv' hk
    have : v = v12 := by
      by_contra hne
      apply hv'
      exact (h.old.2 ⟨hv, fun e => (by rw [e, h.u1.1] at hk; cases hk), hne, fun e => (by rw [e, h.u2.1] at hk; cases hk)⟩).1
    subst this
    rw [h.out] at hk
    cases hk
    exact ⟨rfl, ⟨op1, (h.e2 _).2 rfl⟩, op2, (h.e3 _).2 rfl⟩
  · rintro v hlt ⟨o, he⟩
    rw [edge'] at he
    rcases he with ⟨he, _⟩ | ⟨rfl, _⟩ | ⟨hh, _⟩
    · exact ⟨o, he⟩
    · exact ⟨op1, (h.e1 _).2 rfl⟩
    · omega
  · rintro v hlt ⟨o, he⟩
    rw [edge'] at he
    rcases he with ⟨he, _⟩ | ⟨_, hh⟩ | ⟨_, rfl⟩
    · exact ⟨o, he⟩
    · omega
    · exact ⟨op2, (h.e4 _).2 rfl⟩
  · intro val' hs
    obtain ⟨val, hv, hsat⟩ := h.bwd val' hs
    refine ⟨val, ?_, hsat⟩
    intro v b hn hk
    apply hv
    rintro rfl
    have := h.old.1 ⟨hn, h.ne_next m3⟩
    exact this.2.2.1 rfl

theorem unary' {o a v : Nat} (hu : Unary (insertNewOp cg v01 op1 v12 op2 v23) o a v) : (o = cg.next ∧ a = v01 ∧ v = v23) ∨ (o ≠ cg.next ∧ o ∈ (insertNewOp cg v01 op1 v12 op2 v23).g.nodes ∧ Unary cg o a v) := by
  obtain ⟨hk, hp, hs⟩ := hu
  rw [preds_singleton h.wf'] at hp
  rw [succs_singleton h.wf'] at hs
  by_cases hc : o = cg.next
  · subst hc
    left
    exact ⟨rfl, (h.args_new a).1 ((hp a).2 rfl), (h.outs_new v).1 ((hs v).2 rfl)⟩
  · right
    have hn : o ∈ (insertNewOp cg v01 op1 v12 op2 v23).g.nodes := h.wf'.right _ _ ((hp a).2 rfl)
    rw [h.kind_new, if_neg hc] at hk
    refine ⟨hc, hn, hk, (preds_singleton h.inv.wf).2 ?_, (succs_singleton h.inv.wf).2 ?_⟩
    · intro u; rw [← h.args_old hn hc hk]; exact hp u
    · intro u; rw [← h.outs_old hn hc hk]; exact hs u

theorem inv' : Inv fn (insertNewOp cg v01 op1 v12 op2 v23) := by
  obtain ⟨m1, m2, m3, m4, m5⟩ := h.mem
  obtain ⟨d1, d2, d3, d4, d5, d6, d7, d8, d9, d10⟩ := h.distinct
  refine ⟨h.wf', ?_, ?_, ?_, ?_, ?_, ?_⟩
  · intro u v he
    rw [h.kind_new, h.kind_new]
    rw [edge'] at he
    rcases he with ⟨he, _⟩ | ⟨rfl, rfl⟩ | ⟨rfl, rfl⟩
    · rw [if_neg (h.ne_next (h.inv.wf.left _ _ he)), if_neg (h.ne_next (h.inv.wf.right _ _ he))]
      exact h.inv.bipartite u v he
    · rw [if_neg (h.ne_next m1), if_pos rfl]
      obtain ⟨b, hb⟩ := h.kind01
      exact Or.inl ⟨b, true, hb, rfl⟩
    · rw [if_pos rfl, if_neg (h.ne_next m5)]
      obtain ⟨b, hb⟩ := h.kind23
      exact Or.inr ⟨true, b, rfl, hb⟩
  · obtain ⟨r, hr, r1, r2, r3, r4⟩ := h.ranks
    refine ⟨fun n => if n = cg.next then r op1 else r n, ?_⟩
    intro u v he
    rw [edge'] at he
    beta_reduce
    rcases he with ⟨he, _⟩ | ⟨rfl, rfl⟩ | ⟨rfl, rfl⟩
    · rw [if_neg (h.ne_next (h.inv.wf.left _ _ he)), if_neg (h.ne_next (h.inv.wf.right _ _ he))]
      exact hr u v he
    · rw [if_neg (h.ne_next m1), if_pos rfl]; exact r1
    · rw [if_pos rfl, if_neg (h.ne_next m5)]; omega
  · intro v b hk o o' he he'
    have hvn : v ≠ cg.next := by
      rintro rfl; rw [h.kind_new, if_pos rfl] at hk; cases hk
    rw [h.kind_new, if_neg hvn] at hk
    rw [edge'] at he he'
    rcases he with ⟨he, hu, _⟩ | ⟨rfl, rfl⟩ | ⟨rfl, rfl⟩
    · rcases he' with ⟨he', _⟩ | ⟨rfl, rfl⟩ | ⟨rfl, rfl⟩
      · exact h.inv.oneSource v b hk o o' he he'
      · exact absurd rfl hvn
      · exact absurd (h.inv.oneSource _ b hk o op2 he ((h.e4 _).2 rfl)) hu.2.2
    · exact absurd rfl hvn
    · rcases he' with ⟨he', hu', _⟩ | ⟨rfl, rfl⟩ | ⟨rfl, _⟩
      · exact absurd (h.inv.oneSource _ b hk o' op2 he' ((h.e4 _).2 rfl)) hu'.2.2
      · exact absurd rfl hvn
      · rfl
  · intro n hn
    change n < cg.next + 1
    by_cases hc : n = cg.next
    · omega
    · have := h.inv.fresh n (h.old.1 ⟨hn, hc⟩).1; omega
  · intro o ho hk v hv env env' hag
    rw [h.prog_new]
    by_cases hc : o = cg.next
    · subst hc
      rw [if_pos rfl]
      have := (h.outs_new v).1 hv
      subst this
      rw [h.exec_new, h.exec_new]
      apply h.dep2
      apply h.dep1
      exact hag v01 ((h.args_new _).2 rfl)
    · rw [if_neg hc]
      obtain ⟨b, hb⟩ := hk
      rw [h.kind_new, if_neg hc] at hb
      apply h.inv.dep o (h.old.1 ⟨ho, hc⟩).1 ⟨b, hb⟩ v ((h.outs_old ho hc hb v).1 hv)
      intro u hu
      exact hag u ((h.args_old ho hc hb u).2 hu)
  · intro o1 a v o2 w q1 q2 o he
    rcases h.unary' q1 with ⟨rfl, rfl, rfl⟩ | ⟨hc1, hn1, q1'⟩
    · -- the first operation is the new one
      rcases h.unary' q2 with ⟨_, hh, _⟩ | ⟨hc2, hn2, q2'⟩
      · exact absurd hh.symm d4
      · rw [edge'] at he
        rcases he with ⟨he, _⟩ | ⟨hh, _⟩ | ⟨hh, _⟩
        · exact h.inv.use op2 v12 v o2 w h.u2 q2' o he
        · exact absurd hh.symm d4
        · exact absurd hh (h.ne_next m5)
    · rcases h.unary' q2 with ⟨rfl, rfl, rfl⟩ | ⟨hc2, hn2, q2'⟩
      · have hv : cg.g.Edge v op1 := (h.e1 _).2 rfl
        rw [edge'] at he
        rcases he with ⟨he, _, hh⟩ | ⟨_, rfl⟩ | ⟨hh, _⟩
        · exact absurd (h.inv.use o1 a v op1 v12 q1' h.u1 o he) hh.1
        · rfl
        · exact absurd hh (h.ne_next m1)
      · rw [edge'] at he
        rcases he with ⟨he, _⟩ | ⟨rfl, rfl⟩ | ⟨hh, _⟩
        · exact h.inv.use o1 a v o2 w q1' q2' o he
        · exfalso
          have hh : op1 = o2 := h.inv.use o1 a v o2 w q1' q2' op1 ((h.e1 _).2 rfl)
          subst hh
          exact (h.old.1 ⟨hn2, hc2⟩).2.1 rfl
        · have hv : v ∈ cg.g.nodes := h.inv.wf.left v o2 ((preds_singleton h.inv.wf).1 q2'.2.1 v |>.2 rfl)
          exact absurd hh (h.ne_next hv)

end Chain

theorem Rel.refl (fn : Nat → List V → Nat → V) (cg : CGraph) (h : ∀ n ∈ cg.g.nodes, n < cg.next) : Rel fn cg cg := by
  refine ⟨fun n hn _ => hn, ?_, Nat.le_refl _, fun _ _ => rfl, fun _ _ => rfl, fun _ _ _ _ _ _ => Iff.rfl, fun v b h1 h2 => absurd h1 h2, fun _ _ h => h, fun _ _ h => h, fun _ h => h, fun val h => ⟨val, fun _ _ _ _ => rfl, h⟩⟩
  intro n hn hge
  have := h n hn; omega

theorem Rel.trans {a b c : CGraph} (ha : ∀ n ∈ a.g.nodes, n < a.next)
    (h1 : Rel fn a b) (h2 : Rel fn b c) : Rel fn a c := by
  have n12 := h1.next
  have n23 := h2.next
  refine ⟨?_, ?_, Nat.le_trans n12 n23, ?_, ?_, ?_, ?_, fun v hlt hh => h1.used v hlt (h2.used v (by omega) hh), fun v hlt hh => h1.made v hlt (h2.made v (by omega) hh), fun v h => h2.fwd v (h1.fwd v h), ?_⟩
  · intro n hn hlt
    exact h1.nodes n (h2.nodes n hn (by omega)) hlt
  · intro n hn hge
    by_cases hlt : n < b.next
    · rw [h2.kind n hlt]; exact h1.newOps n (h2.nodes n hn hlt) hge
    · exact h2.newOps n hn (by omega)
  · intro n hn; rw [h2.kind n (by omega), h1.kind n hn]
  · intro n hn; rw [h2.prog n (by omega), h1.prog n hn]
  · intro o bb ho hlt hk u
    rw [h2.args o bb ho (by omega) (by rw [h1.kind o hlt]; exact hk), h1.args o bb (h2.nodes o ho (by omega)) hlt hk]
  · intro v bb hv hv' hk
    have hlt := ha v hv
    by_cases hvb : v ∈ b.g.nodes
    · obtain ⟨p1, p2, p3⟩ := h2.removed v bb hvb hv' (by rw [h1.kind v hlt]; exact hk)
      exact ⟨p1, h1.made v hlt p2, h1.used v hlt p3⟩
    · exact h1.removed v bb hv hvb hk
  · intro val' hs
    obtain ⟨v1, e1, s1⟩ := h2.bwd val' hs
    obtain ⟨v0, e0, s0⟩ := h1.bwd v1 s1
    refine ⟨v0, ?_, s0⟩
    intro v bb hv hk
    have hlt : v < b.next := by
      by_contra hge
      have := h2.newOps v hv (by omega)
      rw [hk] at this; cases this
    rw [e0 v bb (h2.nodes v hv hlt) (by rw [← h2.kind v hlt]; exact hk), e1 v bb hv hk]

/-- Result of a step of the pass. -/
def Good (fn : Nat → List V → Nat → V) (cg cg' : CGraph) : Prop := Inv fn cg' ∧ Rel fn cg cg'

theorem Good.refl (h : Inv fn cg) : Good fn cg cg := ⟨h, Rel.refl fn cg h.fresh⟩

theorem Good.trans {a b c : CGraph} (ha : Inv fn a) (h1 : Good fn a b) (h2 : Good fn b c) : Good fn a c := ⟨h2.1, Rel.trans ha.fresh h1.2 h2.2⟩

theorem forList_good {f : CGraph → Nat → Except CErr CGraph} (hf : ∀ cg v cg', Inv fn cg → f cg v = .ok cg' → Good fn cg cg') (L : List Nat) :
    ∀ cg cg', Inv fn cg → forList f cg L = .ok cg' → Good fn cg cg' := by
  induction L with
  | nil => intro cg cg' h hr; cases hr; exact Good.refl h
  | cons v L ih =>
    intro cg cg' h hr
    rw [forList] at hr
    cases h1 : f cg v with
    | error e => rw [h1] at hr; cases hr
    | ok c1 =>
      rw [h1] at hr
      have g1 := hf cg v c1 h h1
      exact g1.trans h (ih c1 cg' g1.1 hr)

theorem forPreds_good {f : CGraph → Nat → Except CErr CGraph} (hf : ∀ cg v cg', Inv fn cg → f cg v = .ok cg' → Good fn cg cg') (op : Nat) (L : List Nat) :
    ∀ cg cg', Inv fn cg → forPreds f op cg L = .ok cg' → Good fn cg cg' := by
  induction L with
  | nil => intro cg cg' h hr; cases hr; exact Good.refl h
  | cons v L ih =>
    intro cg cg' h hr
    rw [forPreds] at hr
    cases h1 : f cg v with
    | error e => rw [h1] at hr; cases hr
    | ok c1 =>
      rw [h1] at hr
      simp only at hr
      split at hr
      · cases hr
      · have g1 := hf cg v c1 h h1
        exact g1.trans h (ih c1 cg' g1.1 hr)

theorem combinable_unary {regs : List Nat} {op : Nat} (h : combinable cg regs op = true) : ∃ a v, Unary cg op a v := by
  unfold combinable at h
  split at h
  · rename_i a v h1 h2
    simp only [Bool.and_eq_true, beq_iff_eq] at h
    exact ⟨a, v, h.2, h1, h2⟩
  · cases h

theorem firstPred_edge {n p : Nat} (h : firstPred cg n = .ok p) : cg.g.Edge p n := by
  unfold firstPred predsOf at h
  split at h
  · cases h
  · cases h
  · rename_i q l hq
    cases h
    split at hq
    · cases hq' : cg.g.preds n with
      | nil => rw [hq'] at hq; cases hq
      | cons x xs =>
        rw [hq'] at hq
        cases hq
        rw [← Graph.mem_preds, hq']
        simp
    · cases hq

theorem combine_good (fuel : Nat) (regs : List Nat) : ∀ cg v cg', Inv fn cg → combineFrom fuel cg regs v = .ok cg' → Good fn cg cg' := by
  induction fuel with
  | zero => intro cg v cg' _ h; cases h
  | succ fuel ih =>
    intro cg v23 cg' h hr
    rw [combineFrom] at hr
    split at hr
    · cases hr; exact Good.refl h
    · cases hp : firstPred cg v23 with
      | error e => rw [hp] at hr; cases hr
      | ok op2 =>
        rw [hp] at hr
        simp only at hr
        split at hr
        · rename_i hc2
          obtain ⟨a2, b2, u2⟩ := combinable_unary hc2
          have hb2 : v23 = b2 := (succs_singleton h.wf).1 u2.2.2 v23 |>.1 (firstPred_edge hp)
          subst hb2
          cases hp2 : firstPred cg op2 with
          | error e => rw [hp2] at hr; cases hr
          | ok v12 =>
            rw [hp2] at hr
            simp only at hr
            have ha2 : v12 = a2 := (preds_singleton h.wf).1 u2.2.1 v12 |>.1 (firstPred_edge hp2)
            subst ha2
            split at hr
            · cases hr; exact Good.refl h
            · rename_i hk
              have hk := not_not.1 hk
              cases hp3 : firstPred cg v12 with
              | error e => rw [hp3] at hr; cases hr
              | ok op1 =>
                rw [hp3] at hr
                simp only at hr
                split at hr
                · rename_i hc1
                  obtain ⟨a1, b1, u1⟩ := combinable_unary hc1
                  have hb1 : v12 = b1 := (succs_singleton h.wf).1 u1.2.2 v12 |>.1 (firstPred_edge hp3)
                  subst hb1
                  cases hp4 : firstPred cg op1 with
                  | error e => rw [hp4] at hr; cases hr
                  | ok v01 =>
                    rw [hp4] at hr
                    have ha1 : v01 = a1 := (preds_singleton h.wf).1 u1.2.1 v01 |>.1 (firstPred_edge hp4)
                    subst ha1
                    have hch : Chain fn cg v01 op1 v12 op2 v23 := ⟨h, u1, u2, hk⟩
                    have g1 : Good fn cg _ := ⟨hch.inv', hch.rel⟩
                    exact g1.trans h (ih _ _ _ hch.inv' hr)
                · exact forList_good (fun cg v cg' => ih cg v cg') _ _ _ h hr
        · exact forPreds_good (fun cg v cg' => ih cg v cg') _ _ _ _ h hr

end

/-! ### The initial graph -/

theorem exec_lines {V : Type} (fn : Nat → List V → Nat → V) (o : Nat) (args : List Nat) (outs : List Nat) (hd : ∀ a ∈ args, a ∉ outs) (env : Nat → V) (v : Nat) :
    exec fn (outs.map fun v => (⟨v, o, args⟩ : Line)) env v = if v ∈ outs then fn o (args.map env) v else env v := by
  induction outs generalizing env with
  | nil => simp [exec]
  | cons w outs ih =>
    rw [List.map_cons, exec, ih (fun a ha hm => hd a ha (by simp [hm]))]
    have hargs : args.map (fun n => if n = w then fn o (args.map env) w else env n) = args.map env := by
      apply List.map_congr_left
      intro a ha
      have : a ≠ w := by rintro rfl; exact hd a ha (by simp)
      simp [this]
    simp only [hargs]
    by_cases h1 : v ∈ outs
    · simp [h1]
    · by_cases h2 : v = w
      · subst h2; simp [h1]
      · simp [h1, h2]

theorem rank_of_acyclic {g : Graph} (hw : g.WF) (h : ¬g.Cyclic) : ∃ r : Nat → Nat, ∀ u v, g.Edge u v → r u < r v := by
  obtain ⟨l, _, ho⟩ := C24_acyclic_ok g hw h
  refine ⟨fun n => l.idxOf n, ?_⟩
  intro u v he
  have hu := (ho.all u).2 (hw.left _ _ he)
  have hv := (ho.all v).2 (hw.right _ _ he)
  exact ho.before _ _ u v (by rw [List.getElem?_eq_getElem (List.idxOf_lt_length_of_mem hu), List.getElem_idxOf]) (by rw [List.getElem?_eq_getElem (List.idxOf_lt_length_of_mem hv), List.getElem_idxOf]) he

theorem flat_inv {V : Type} (fn : Nat → List V → Nat → V) {cg : CGraph} (h : FlatGraph cg) (hu : SingleUse cg) : Inv fn cg := by
  obtain ⟨r, hr⟩ := rank_of_acyclic h.wf h.acyclic
  refine ⟨h.wf, h.bipartite, ⟨r, hr⟩, h.oneSource, h.fresh, ?_, hu⟩
  rintro o ho ⟨b, hb⟩ v hv env env' hag
  have hd : ∀ a ∈ cg.g.preds o, a ∉ cg.g.succs o := by
    intro a ha hs
    have h1 := hr _ _ (Graph.mem_preds.1 ha)
    have h2 := hr _ _ (Graph.mem_succs.1 hs)
    omega
  rw [h.lines o b hb, exec_lines fn o _ _ hd, exec_lines fn o _ _ hd]
  rw [if_pos (Graph.mem_succs.2 hv), if_pos (Graph.mem_succs.2 hv)]
  congr 1
  apply List.map_congr_left
  intro a ha
  exact hag a (Graph.mem_preds.1 ha)

/-- **C49 (as far as it holds).** In a flat graph in which what is computed between two unary elementwise operations has no other use, the pass over the flat graph, if it ends without exception, from whatever registered outputs in whatever order:
every operation that is left has the arguments it had before; a variable is removed only if it is an output that is both computed and used; and the values of the remaining variables are the same: values of all variables that satisfy the operations
before satisfy those afterwards, and values of the remaining variables that satisfy the operations afterwards are part of values of all variables that satisfy those before. -/
theorem C49_combine_partial {V : Type} (fn : Nat → List V → Nat → V) (limit : Nat) (cg cg' : CGraph) (regs : List Nat) (hf : FlatGraph cg) (hu : SingleUse cg) (h : combineAll limit cg regs = .ok cg') :
    (∀ o b, o ∈ cg.g.nodes → o ∈ cg'.g.nodes → cg.kind o = .op b → ∀ u, cg'.g.Edge u o ↔ cg.g.Edge u o) ∧
    (∀ v b, v ∈ cg.g.nodes → v ∉ cg'.g.nodes → cg.kind v = .var b → b = true ∧ (∃ o, cg.g.Edge o v) ∧ ∃ o, cg.g.Edge v o) ∧
    (∀ v b, v ∈ cg'.g.nodes → cg'.kind v = .var b → v ∈ cg.g.nodes) ∧
    (∀ val, Sat fn cg val → Sat fn cg' val) ∧
    (∀ val', Sat fn cg' val' → ∃ val, (∀ v b, v ∈ cg'.g.nodes → cg'.kind v = .var b → val v = val' v) ∧ Sat fn cg val) := by
  obtain ⟨_, hr⟩ := forList_good (fn := fn) (fun cg v cg' => combine_good limit regs cg v cg') regs cg cg' (flat_inv fn hf hu) h
  refine ⟨fun o b ho ho' hk => hr.args o b ho' (hf.fresh o ho) hk, hr.removed, ?_, hr.fwd, hr.bwd⟩
  intro v b hv hk
  apply hr.nodes v hv
  by_contra hge
  have := hr.newOps v hv (by omega)
  rw [hk] at this; cases this

/-- The check of `combinable` that the argument is not a registered output never applies: the registered outputs are the outputs without successors. -/
theorem C49_check_void (cg : CGraph) (named : Nat → Bool) (op : Nat) : combinable cg (registered cg named) op = combinable cg [] op := by
  unfold combinable
  split
  · rename_i v w h1 h2
    have he : cg.g.Edge v op := by rw [← Graph.mem_preds, h1]; simp
    have hn : v ∉ registered cg named := by
      intro hm
      simp only [registered, List.mem_filter, Bool.and_eq_true, List.isEmpty_iff] at hm
      have := Graph.mem_succs.2 he
      rw [hm.2.1.2] at this; cases this
    simp [hn]
  · rfl

/-- `y = f(x); z = g(y); w = h(y)`: nodes 0 (x), 1 (f), 2 (y), 3 (g), 4 (z), 5 (h), 6 (w). -/
def exShared : CGraph :=
  { g := { nodes := [0, 1, 2, 3, 4, 5, 6], edges := [(0, 1), (1, 2), (2, 3), (3, 4), (2, 5), (5, 6)] }
    kind := fun n => if n = 0 then .var false else if n = 1 ∨ n = 3 ∨ n = 5 then .op true else .var true
    prog := fun n => if n = 1 then [⟨2, 1, [0]⟩] else if n = 3 then [⟨4, 3, [2]⟩] else if n = 5 then [⟨6, 5, [2]⟩] else []
    next := 7 }

/-- Whether an operation returns a value satisfying a test. -/
def okTest (r : Except CErr CGraph) (p : CGraph → Bool) : Bool := match r with | .ok c => p c | .error _ => false

theorem acyclic_of_lt {g : Graph} (h : ∀ e ∈ g.edges, e.1 < e.2) : ¬g.Cyclic := by
  rintro ⟨v, hv⟩
  have : ∀ u w, Relation.TransGen g.Edge u w → u < w := by
    intro u w hh
    induction hh with
    | single he => exact h _ he
    | tail _ he ih => exact Nat.lt_trans ih (h _ he)
  exact Nat.lt_irrefl v (this v v hv)

/-- A decidable form of `FlatGraph`, for examples. -/
def flatTest (cg : CGraph) : Bool :=
  cg.g.nodes.Nodup && cg.g.edges.Nodup && cg.g.edges.all (fun e => e.1 ∈ cg.g.nodes && e.2 ∈ cg.g.nodes && e.1 < e.2) &&
  cg.g.edges.all (fun e => match cg.kind e.1, cg.kind e.2 with | .var _, .op _ => true | .op _, .var _ => cg.g.preds e.2 == [e.1] | _, _ => false) &&
  cg.g.nodes.all (fun n => n < cg.next)

theorem flat_of_test {cg : CGraph} (h : flatTest cg = true) (hl : ∀ o b, cg.kind o = .op b → cg.prog o = (cg.g.succs o).map fun v => ⟨v, o, cg.g.preds o⟩) : FlatGraph cg := by
  simp only [flatTest, Bool.and_eq_true, List.all_eq_true, decide_eq_true_eq] at h
  obtain ⟨⟨⟨⟨h1, h2⟩, h3⟩, h4⟩, h5⟩ := h
  refine ⟨⟨h1, h2, fun u v he => (h3 _ he).1.1, fun u v he => (h3 _ he).1.2⟩, ?_, acyclic_of_lt fun e he => (h3 e he).2, ?_, h5, hl⟩
  · intro u v he
    have := h4 _ he
    simp only at this
    split at this
    · rename_i b c k1 k2; exact Or.inl ⟨b, c, k1, k2⟩
    · rename_i b c k1 k2; exact Or.inr ⟨b, c, k1, k2⟩
    · cases this
  · intro v b hk o o' he he'
    have key : ∀ o, cg.g.Edge o v → cg.g.preds v = [o] := by
      intro o he
      have := h4 _ he
      simp only at this
      split at this
      · rename_i k1 k2; rw [hk] at k2; cases k2
      · simpa using this
      · cases this
    have := (key o he).symm.trans (key o' he')
    simpa using this

theorem exShared_flat : FlatGraph exShared := by
  apply flat_of_test (by decide)
  intro o b hk
  by_cases h1 : o = 1
  · subst h1; decide
  · by_cases h3 : o = 3
    · subst h3; decide
    · by_cases h5 : o = 5
      · subst h5; decide
      · exfalso
        simp only [exShared, h1, h3, h5] at hk
        split at hk
        · cases hk
        · simp at hk

/-- **C49 is false as stated**: for `y = f(x); z = g(y); w = h(y)`, the pass combines `f` and `g` and removes `y`, and operation `h`, which is left, has lost its argument. -/
theorem C49_refuted : FlatGraph exShared ∧ okTest (combineAll 1000 exShared (registered exShared fun _ => true)) (fun c =>
    (5 ∈ c.g.nodes) && (2 ∉ c.g.nodes) && (exShared.g.preds 5 == [2]) && (c.g.preds 5 == [])) = true := ⟨exShared_flat, by decide⟩

/-- `y = f(x); z = g(y)`: nodes 0 (x), 1 (f), 2 (y), 3 (g), 4 (z). -/
def exChain : CGraph :=
  { g := { nodes := [0, 1, 2, 3, 4], edges := [(0, 1), (1, 2), (2, 3), (3, 4)] }
    kind := fun n => if n = 0 then .var false else if n = 1 ∨ n = 3 then .op true else .var true
    prog := fun n => if n = 1 then [⟨2, 1, [0]⟩] else if n = 3 then [⟨4, 3, [2]⟩] else []
    next := 5 }

/-- non-vacuity of C49: the two operations of `exChain` are combined. -/
example : FlatGraph exChain ∧ SingleUse exChain ∧
    okTest (combineAll 1000 exChain (registered exChain fun _ => true)) (fun c => c.g.nodes == [0, 4, 5] && c.prog 5 == [⟨2, 1, [0]⟩, ⟨4, 3, [2]⟩]) = true := by
  refine ⟨?_, ?_, by decide⟩
  · apply flat_of_test (by decide)
    intro o b hk
    by_cases h1 : o = 1
    · subst h1; decide
    · by_cases h3 : o = 3
      · subst h3; decide
      · exfalso
        simp only [exChain, h1, h3] at hk
        split at hk
        · cases hk
        · simp at hk
  · intro o1 a v o2 w _ h2 o he
    have h3 : (v, o) ∈ exChain.g.edges := he
    have h4 : (v, o2) ∈ exChain.g.edges := by
      have : v ∈ exChain.g.preds o2 := by rw [h2.2.1]; simp
      exact Graph.mem_preds.1 this
    simp only [exChain, List.mem_cons, Prod.mk.injEq, List.not_mem_nil, or_false] at h3 h4
    omega

/-! ### C60 -/

/-- **C60.** The removal of dead code never changes the flat graph: whatever the graph, if it is accepted, nothing is removed. -/
theorem C60_unchanged (g g' : Graph) (hw : g.WF) (h : removeDeadCode g = .ok g') : g' = g := by
  unfold removeDeadCode at h
  cases hs : flatSort g with
  | error e => rw [hs] at h; cases h
  | ok l =>
    rw [hs] at h
    cases h
    have ho := (C24_sorted_iff_acyclic g hw).1 l hs
    have : g.nodes.filter (· ∉ l) = [] := by
      rw [List.filter_eq_nil_iff]
      intro n hn
      simpa using (ho.all n).2 hn
    unfold removeUnsorted
    rw [this]
    rfl

/-- **C60 (the part that holds).** Every node from which a registered output can be reached is kept, and so are the dependencies between such nodes. -/
theorem C60_live_kept_partial (g g' : Graph) (hw : g.WF) (h : removeDeadCode g = .ok g') (regs : List Nat) (n m : Nat) :
    (n ∈ g.nodes → Live g regs n → n ∈ g'.nodes) ∧ (g.Edge n m → Live g regs m → g'.Edge n m) := by
  rw [C60_unchanged g g' hw h]
  exact ⟨fun h _ => h, fun h _ => h⟩

/-- `y = f(x)`, with the registered output `y`, and an output `z = g(x)` that is not registered: nodes 0 (x), 1 (f), 2 (y), 3 (g), 4 (z). -/
def exDead : Graph := { nodes := [0, 1, 2, 3, 4], edges := [(0, 1), (1, 2), (0, 3), (3, 4)] }

/-- **C60 is false as stated**: operation `g` of `exDead` leads to no registered output and is kept. -/
theorem C60_refuted : exDead.WF ∧ removeDeadCode exDead = .ok exDead ∧ 3 ∈ exDead.nodes ∧ ¬Live exDead [2] 3 := by
  refine ⟨⟨by decide, by decide, ?_, ?_⟩, by decide, by decide, ?_⟩
  · intro u v he
    have : ∀ e ∈ exDead.edges, e.1 ∈ exDead.nodes := by decide
    exact this _ he
  · intro u v he
    have : ∀ e ∈ exDead.edges, e.2 ∈ exDead.nodes := by decide
    exact this _ he
  · have key : ∀ n, Live exDead [2] n → n ≠ 3 ∧ n ≠ 4 := by
      intro n hn
      induction hn with
      | reg h => simp at h; omega
      | @step n m he _ ih =>
        have h3 : (n, m) ∈ exDead.edges := he
        simp only [exDead, List.mem_cons, Prod.mk.injEq, List.not_mem_nil, or_false] at h3
        omega
    intro h
    exact (key 3 h).1 rfl

end Csdl.Opt
