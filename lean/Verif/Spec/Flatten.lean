import Verif.Model.Flatten
import Verif.Spec.Graph
import Verif.Spec.Promotions
/-
Specification for C29-C33: hierarchies of graphs, and graphs whose nodes are identified.
-/
namespace Csdl

/-- `kids.At path g ks`: the child model reached through the submodel names `path` has graph `g` and child models `ks`. -/
inductive Kids.At : Kids → List Name → Graph → Kids → Prop
  | head {id n g ks rest} : At (.cons id n g ks rest) [n] g ks
  | inside {id n g ks rest path g' ks'} : At ks path g' ks' → At (.cons id n g ks rest) (n :: path) g' ks'
  | next {id n g ks rest path g' ks'} : At rest path g' ks' → At (.cons id n g ks rest) path g' ks'

/-- The graph and child models of the main model (`path = []`) or of a model below it. -/
def HierAt (g : Graph) (kids : Kids) (path : List Name) (g' : Graph) (ks' : Kids) : Prop :=
  (path = [] ∧ g' = g ∧ ks' = kids) ∨ kids.At path g' ks'

/-- All nodes of the graphs of the child models. -/
def Kids.allNodes : Kids → List Nat
  | .nil => []
  | .cons _ _ g kids rest => g.nodes ++ kids.allNodes ++ rest.allNodes

/-- A hierarchy of graphs: graphs are well formed, all nodes are different objects, the model nodes of the child models are nodes of the graph. -/
structure HierOk (g : Graph) (kids : Kids) : Prop where
  wf : ∀ path g' ks', HierAt g kids path g' ks' → g'.WF
  distinct : (g.nodes ++ kids.allNodes).Nodup
  ids : ∀ path g' ks', HierAt g kids path g' ks' → ∀ i ∈ ks'.ids, i ∈ g'.nodes

/-- `G'` is `G` with each node `x` replaced by `f x`: the nodes are the images of the nodes and the edges are the images of the edges. -/
structure IsImage (G : Graph) (f : Nat → Nat) (G' : Graph) : Prop where
  nodes : ∀ a, a ∈ G'.nodes ↔ ∃ x ∈ G.nodes, f x = a
  edges : ∀ a b, G'.Edge a b ↔ ∃ x y, G.Edge x y ∧ f x = a ∧ f y = b
  wf : G'.WF

/-- Edges are between variables and operations. -/
def Bipartite (I : NHeap) (g : Graph) : Prop := ∀ u v, g.Edge u v → ((I u).kind = .var ∧ (I v).kind = .op) ∨ ((I u).kind = .op ∧ (I v).kind = .var)

end Csdl

namespace Csdl

/-- The graphs of a hierarchy stand for the model hierarchy `m`: the graph reached through `path` is that of a model of `m`; a variable node with a
user-given name stands for a variable of that model; a graph has one node per source name; automatically generated names are unused by the
user, without dots, and used once. -/
structure Represents (m : Model) (I : NHeap) (g : Graph) (kids : Kids) : Prop where
  paths : ∀ path g' ks', HierAt g kids path g' ks' → ∃ m', At m path m'
  named : ∀ path g' ks', HierAt g kids path g' ks' → ∀ v ∈ g'.nodes, (I v).kind = .var → (I v).name ≠ (I v).auto →
    ∃ k w p, PromotedAs m path k w p ∧ w.name = (I v).name ∧ (k = .source ↔ (I v).role ≠ .declared)
  sources : ∀ path g1 k1 g2 k2, HierAt g kids path g1 k1 → HierAt g kids path g2 k2 → ∀ v ∈ g1.nodes, ∀ v' ∈ g2.nodes, (I v).kind = .var →
    (I v').kind = .var → (I v).role ≠ .declared → (I v').role ≠ .declared → (I v).name = (I v').name → v = v'
  autoFree : ∀ path g' ks', HierAt g kids path g' ks' → ∀ v ∈ g'.nodes, (I v).kind = .var → (I v).name = (I v).auto →
    '.' ∉ (I v).name ∧ ∀ path' k w p, PromotedAs m path' k w p → w.name ≠ (I v).name
  autoOnce : ∀ path g1 k1 path' g2 k2, HierAt g kids path g1 k1 → HierAt g kids path' g2 k2 → ∀ v ∈ g1.nodes, ∀ v' ∈ g2.nodes, (I v).kind = .var →
    (I v').kind = .var → (I v).name = (I v).auto → (I v').name = (I v').auto → (I v).name = (I v').name → v = v' ∨ (path ≠ path' ∧ (I v).role ≠ .declared ∧ (I v').role ≠ .declared)

/-- The edges of all graphs of the hierarchy are between variables and operations. -/
def AllBipartite (I : NHeap) (g : Graph) (kids : Kids) : Prop := ∀ path g' ks', HierAt g kids path g' ks' → Bipartite I g'

/-! Boolean checks, used only to show that concrete hierarchies of graphs meet the hypotheses. -/

/-- all models below, with their paths -/
def Kids.enum : Kids → List (List Name × Graph × Kids)
  | .nil => []
  | .cons _ n g ks rest => ([n], g, ks) :: (ks.enum.map fun e => (n :: e.1, e.2)) ++ rest.enum

theorem Kids.mem_enum {kids : Kids} {path g ks} (h : kids.At path g ks) : (path, g, ks) ∈ kids.enum := by
  induction h with
  | head => simp [Kids.enum]
  | @inside id n g ks rest path g' ks' _ ih => simp only [Kids.enum, List.cons_append, List.mem_cons, List.mem_append, List.mem_map]; exact Or.inr (Or.inl ⟨_, ih, rfl⟩)
  | next _ ih => simp only [Kids.enum, List.cons_append, List.mem_cons, List.mem_append]; exact Or.inr (Or.inr ih)

def hierEnum (g : Graph) (kids : Kids) : List (List Name × Graph × Kids) := ([], g, kids) :: kids.enum

theorem mem_hierEnum {g : Graph} {kids : Kids} {path g' ks'} (h : HierAt g kids path g' ks') : (path, g', ks') ∈ hierEnum g kids := by
  rcases h with ⟨rfl, rfl, rfl⟩ | h
  · simp [hierEnum]
  · exact List.mem_cons_of_mem _ (Kids.mem_enum h)

def Graph.wfB (g : Graph) : Bool := decide g.nodes.Nodup && decide g.edges.Nodup && g.edges.all fun e => decide (e.1 ∈ g.nodes) && decide (e.2 ∈ g.nodes)

theorem Graph.wf_of {g : Graph} (h : g.wfB = true) : g.WF := by
  simp only [Graph.wfB, Bool.and_eq_true, decide_eq_true_eq, List.all_eq_true] at h
  exact ⟨h.1.1, h.1.2, fun u v he => (h.2 _ he).1, fun u v he => (h.2 _ he).2⟩

def hierOkB (g : Graph) (kids : Kids) : Bool := ((hierEnum g kids).all fun e => e.2.1.wfB && e.2.2.ids.all fun i => decide (i ∈ e.2.1.nodes)) &&
  decide (g.nodes ++ kids.allNodes).Nodup

theorem hierOk_of {g : Graph} {kids : Kids} (h : hierOkB g kids = true) : HierOk g kids := by
  simp only [hierOkB, Bool.and_eq_true, List.all_eq_true, decide_eq_true_eq] at h
  refine ⟨fun p a b hp => ?_, h.2, fun p a b hp i hi => ?_⟩
  · exact Graph.wf_of (h.1 _ (mem_hierEnum hp)).1
  · exact (h.1 _ (mem_hierEnum hp)).2 i hi

def bipartiteB (I : NHeap) (g : Graph) (kids : Kids) : Bool := (hierEnum g kids).all fun e => e.2.1.edges.all fun e =>
  ((I e.1).kind = .var && (I e.2).kind = .op) || ((I e.1).kind = .op && (I e.2).kind = .var)

theorem bipartite_of {I : NHeap} {g : Graph} {kids : Kids} (h : bipartiteB I g kids = true) : AllBipartite I g kids := by
  simp only [bipartiteB, List.all_eq_true, Bool.or_eq_true, Bool.and_eq_true, decide_eq_true_eq] at h
  intro p a b hp u v he
  exact h _ (mem_hierEnum hp) _ he

end Csdl
