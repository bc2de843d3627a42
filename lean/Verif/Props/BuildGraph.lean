import Verif.Proofs.BuildGraph
import Verif.Props.ModelApi
/-!
# C26, C27, C28: the graph of one model
-/
namespace Csdl

/-! ### C26 -/

theorem buildGraph_inv {h : Heap} {subs inputs outputs declared : List Nat} {n fuel : Nat} (hk : NamesOk h subs inputs (outputs ++ declared))
    (hb : Bounded h n (outputs ++ declared)) (hf : (outputs ++ declared).length + n ≤ fuel) :
    ∃ st, buildGraph h subs inputs outputs declared fuel = .ok st ∧
      BInv h subs inputs (outputs ++ declared) (initNodes h subs inputs) (fun u v => ∃ c, Needed h (outputs ++ declared) c ∧ LinkOf h c u v) st := by
  unfold buildGraph
  refine BInv.loop hk hb fuel (BInv.init hk) ?_ (by simp) ?_
  · intro c hc; right; exact List.mem_reverse.2 hc
  · dsimp only
    rw [List.length_reverse]
    have : (Finset.range n \ (outputs ++ declared).toFinset).card ≤ n := by
      calc _ ≤ (Finset.range n).card := Finset.card_le_card Finset.sdiff_subset
        _ = n := Finset.card_range n
    omega

theorem linkOf_iff {h : Heap} {leaves : List Nat} {u v : Nat} :
    (∃ c, Needed h leaves c ∧ LinkOf h c u v) ↔ Needed h leaves u ∧ Needed h leaves v ∧ DependsOn h v u := by
  constructor
  · rintro ⟨c, hc, ⟨h1, rfl⟩ | ⟨h1, rfl, h2⟩⟩
    · exact ⟨.dep _ _ hc h1, hc, Or.inl h1⟩
    · exact ⟨hc, .out _ _ hc h1 h2, Or.inr ⟨h1, h2⟩⟩
  · rintro ⟨hu, hv, h1 | ⟨h1, h2⟩⟩
    · exact ⟨v, hv, Or.inl ⟨h1, rfl⟩⟩
    · exact ⟨u, hu, Or.inr ⟨h1, rfl, h2⟩⟩

/-- the graph node of a name has the name and the kind of the object it stands for; operations stand for themselves -/
theorem BInv.rep {h : Heap} {subs inputs leaves : List Nat} {base : Nat → Prop} {E : Nat → Nat → Prop} {st : BState}
    (hi : BInv h subs inputs leaves base E st) (hk : NamesOk h subs inputs leaves) {c r : Nat} (hc : Needed h leaves c)
    (hr : st.nodes.get? (h c).name = some r) : (h r).name = (h c).name ∧ (h r).kind = (h c).kind ∧ ((h c).kind = .op → r = c) := by
  have hname := hi.names _ _ hr
  have hmem : r ∈ inputs ∨ Needed h leaves r := by
    rcases hi.content _ _ hr with h1 | h1 | h1
    · exact absurd hname (hk.subNames r h1 c (Or.inl hc))
    · exact Or.inl h1
    · exact Or.inr h1
  have hop : (h c).kind = .op → r = c := fun hop => (hk.ops c r (Or.inl hc) hmem.symm hname.symm hop).symm
  refine ⟨hname, ?_, hop⟩
  cases hkc : (h c).kind with
  | model => exact absurd hkc (hk.kinds c hc)
  | op => rw [hop hkc, hkc]
  | var =>
    rcases hmem with h1 | h1
    · exact hk.inputVars r h1
    · cases hkr : (h r).kind with
      | var => rfl
      | model => exact absurd hkr (hk.kinds r h1)
      | op =>
        have := hk.ops r c (Or.inr h1 |>.symm) (Or.inl hc) hname hkr
        subst this; rw [hkr] at hkc; cases hkc

/-- C26: the construction succeeds; graph nodes are identified by their names; every declared dependency between the objects that the
outputs and declared variables need is an edge between nodes with these names and kinds (the operation itself, when it is an operation);
every edge is such a dependency; and the only nodes besides the end points of edges are the nodes of submodels and inputs.  `fuel` is any bound at
least the number of objects and leaves: the loop terminates by itself. -/
theorem C26_edges_are_dependencies (h : Heap) (subs inputs outputs declared : List Nat) (n fuel : Nat)
    (hk : NamesOk h subs inputs (outputs ++ declared)) (hb : Bounded h n (outputs ++ declared)) (hf : (outputs ++ declared).length + n ≤ fuel) :
    ∃ st, buildGraph h subs inputs outputs declared fuel = .ok st ∧ st.graph.WF ∧
      (∀ a ∈ st.graph.nodes, ∀ b ∈ st.graph.nodes, (h a).name = (h b).name → a = b) ∧
      (∀ u v, Needed h (outputs ++ declared) u → Needed h (outputs ++ declared) v → DependsOn h v u →
        ∃ a b, st.graph.Edge a b ∧ ((h a).name = (h u).name ∧ (h a).kind = (h u).kind ∧ ((h u).kind = .op → a = u)) ∧
          ((h b).name = (h v).name ∧ (h b).kind = (h v).kind ∧ ((h v).kind = .op → b = v))) ∧
      (∀ a b, st.graph.Edge a b → ∃ u v, Needed h (outputs ++ declared) u ∧ Needed h (outputs ++ declared) v ∧ DependsOn h v u ∧
        (h a).name = (h u).name ∧ (h b).name = (h v).name) ∧
      (∀ a ∈ st.graph.nodes, (∃ b, st.graph.Edge a b ∨ st.graph.Edge b a) ∨ a ∈ subs ∨ a ∈ inputs) ∧
      (∀ s ∈ subs, ∃ a ∈ st.graph.nodes, a ∈ subs ∧ (h a).name = (h s).name) ∧
      (∀ i ∈ inputs, ∃ a ∈ st.graph.nodes, a ∈ inputs ∧ (h a).name = (h i).name) := by
  obtain ⟨st, hst, hi⟩ := buildGraph_inv hk hb hf
  obtain ⟨a1, a2, _, _, _, _, a7⟩ := addModels_spec (h := h) subs ({}, []) [] (by simp [Dict.get?]) (by simp [Dict.get?]) (by simp [Dict.get?]) rfl Graph.wf_empty
  have hin : ∀ k r, (Dict.ofPairs (inputs.map fun i => ((h i).name, i))).get? k = some r → (h r).name = k ∧ r ∈ inputs := by
    intro k r hr
    have hr' : Dict.get? (Dict.update [] (inputs.map fun i => ((h i).name, i))) k = some r := hr
    rcases Dict.mem_update hr' with h1 | h1
    · obtain ⟨i, hi, he⟩ := List.mem_map.1 h1
      cases he
      exact ⟨rfl, hi⟩
    · simp [Dict.get?] at h1
  have hself : ∀ a ∈ st.graph.nodes, st.nodes.get? (h a).name = some a := by
    intro a ha
    rcases (hi.nodes a).1 ha with h1 | ⟨b, h1 | h1⟩
    · exact hi.baseNodes a h1
    · obtain ⟨u, v, _, h2, _⟩ := (hi.edges _ _).1 h1
      rw [hi.names _ _ h2]; exact h2
    · obtain ⟨u, v, _, _, h2⟩ := (hi.edges _ _).1 h1
      rw [hi.names _ _ h2]; exact h2
  refine ⟨st, hst, hi.wf, ?_, ?_, ?_, ?_, ?_, ?_⟩
  · intro a ha b hb hab
    have h1 := hself a ha
    rw [hab, hself b hb] at h1
    cases h1; rfl
  · intro u v hu hv hd
    have hE := (linkOf_iff (h := h) (leaves := outputs ++ declared)).2 ⟨hu, hv, hd⟩
    obtain ⟨_, _, ⟨a, ha⟩, ⟨b, hb'⟩⟩ := hi.present u v hE
    exact ⟨a, b, (hi.edges a b).2 ⟨u, v, hE, ha, hb'⟩, hi.rep hk hu ha, hi.rep hk hv hb'⟩
  · intro a b hab
    obtain ⟨u, v, hE, h1, h2⟩ := (hi.edges a b).1 hab
    obtain ⟨hu, hv, hd⟩ := linkOf_iff.1 hE
    exact ⟨u, v, hu, hv, hd, hi.names _ _ h1, hi.names _ _ h2⟩
  · intro a ha
    rcases (hi.nodes a).1 ha with (h1 | h1) | h1
    · rcases a2 _ _ h1 with h2 | h2
      · cases h2
      · exact Or.inr (Or.inl h2)
    · exact Or.inr (Or.inr (hin _ _ h1).2)
    · exact Or.inl h1
  · intro s hs
    obtain ⟨r, hr⟩ := a7 s hs
    have hn := a1 _ _ hr
    refine ⟨r, (hi.nodes r).2 (Or.inl (Or.inl (by rw [hn]; exact hr))), ?_, hn⟩
    rcases a2 _ _ hr with h2 | h2
    · cases h2
    · exact h2
  · intro i hi'
    obtain ⟨r, hr⟩ := Dict.mem_keys_get? (d := Dict.ofPairs (inputs.map fun i => ((h i).name, i))) (k := (h i).name) (by
      rw [Dict.keys_ofPairs]; simp only [List.map_map, List.mem_map, Function.comp]; exact ⟨i, hi', rfl⟩)
    obtain ⟨hn, hm⟩ := hin _ _ hr
    exact ⟨r, (hi.nodes r).2 (Or.inl (Or.inr (by rw [hn]; exact hr))), hm, hn⟩

/-- C26: every operation that is needed is in the graph; every needed variable that takes part in some dependency is in it under its name. -/
theorem C26_needed_in_graph (h : Heap) (subs inputs outputs declared : List Nat) (n fuel : Nat)
    (hk : NamesOk h subs inputs (outputs ++ declared)) (hb : Bounded h n (outputs ++ declared)) (hf : (outputs ++ declared).length + n ≤ fuel)
    (hl : ∀ c ∈ outputs ++ declared, (h c).kind = .var) :
    ∃ st, buildGraph h subs inputs outputs declared fuel = .ok st ∧
      (∀ c, Needed h (outputs ++ declared) c → (h c).kind = .op → c ∈ st.graph.nodes) ∧
      (∀ o ∈ outputs, (h o).deps ≠ [] → ∃ a ∈ st.graph.nodes, (h a).name = (h o).name ∧ (h a).kind = .var) := by
  obtain ⟨st, hst, hwf, _, hE, _⟩ := C26_edges_are_dependencies h subs inputs outputs declared n fuel hk hb hf
  refine ⟨st, hst, ?_, ?_⟩
  · intro c hc hop
    cases hc with
    | leaf _ h1 => rw [hl c h1] at hop; cases hop
    | dep v _ h1 h2 =>
      obtain ⟨a, b, hab, ⟨_, _, ha⟩, _⟩ := hE c v (.dep _ _ h1 h2) h1 (Or.inl h2)
      have := ha hop
      subst this
      exact hwf.left _ _ hab
    | out u _ h1 h2 h3 =>
      obtain ⟨a, b, hab, _, ⟨_, _, hb'⟩⟩ := hE u c h1 (.out _ _ h1 h2 h3) (Or.inr ⟨h2, h3⟩)
      have := hb' hop
      subst this
      exact hwf.right _ _ hab
  · intro o ho hd
    obtain ⟨u, us, hu⟩ := List.exists_cons_of_ne_nil hd
    have hn : Needed h (outputs ++ declared) o := .leaf o (by simp [ho])
    have hmem : u ∈ (h o).deps := by rw [hu]; simp
    obtain ⟨a, b, hab, _, h1, h2, _⟩ := hE u o (.dep _ _ hn hmem) hn (Or.inl hmem)
    exact ⟨b, hwf.right _ _ hab, h1, by rw [h2]; exact hl o (by simp [ho])⟩

/-! ### C27 -/

/-- C27 does not hold of the code: a declared variable that no operation uses is never a node of the graph, in any model. -/
theorem C27_unused_declared_is_lost (h : Heap) (subs inputs outputs declared : List Nat) (n fuel : Nat)
    (hk : NamesOk h subs inputs (outputs ++ declared)) (hb : Bounded h n (outputs ++ declared)) (hf : (outputs ++ declared).length + n ≤ fuel)
    (d : Nat) (_hd : d ∈ declared) (hin : d ∉ inputs) (hsub : d ∉ subs) (hname : ∀ c, Needed h (outputs ++ declared) c → (h c).name = (h d).name → c = d)
    (hdeps : (h d).deps = []) (hunused : ∀ c, d ∉ (h c).deps ∧ d ∉ (h c).outs) (hvar : (h d).kind = .var) :
    ∃ st, buildGraph h subs inputs outputs declared fuel = .ok st ∧ d ∉ st.graph.nodes := by
  obtain ⟨st, hst, _, _, _, hE, hN, _⟩ := C26_edges_are_dependencies h subs inputs outputs declared n fuel hk hb hf
  refine ⟨st, hst, ?_⟩
  intro hmem
  rcases hN d hmem with ⟨b, hb' | hb'⟩ | h1 | h1
  · obtain ⟨u, v, hu, hv, hd', h1, _⟩ := hE _ _ hb'
    have := hname u hu h1.symm
    subst this
    rcases hd' with h2 | ⟨h2, _⟩
    · exact (hunused v).1 h2
    · rw [hvar] at h2; cases h2
  · obtain ⟨u, v, hu, hv, hd', _, h1⟩ := hE _ _ hb'
    have := hname v hv h1.symm
    subst this
    rcases hd' with h2 | ⟨_, h2⟩
    · rw [hdeps] at h2; cases h2
    · exact (hunused u).2 h2
  · exact hsub h1
  · exact hin h1

/-- C27, the part that holds: a declared variable used by some operation that is needed is in the graph under its name, and the operation
depends on it there. -/
theorem C27_used_declared_in_graph_partial (h : Heap) (subs inputs outputs declared : List Nat) (n fuel : Nat)
    (hk : NamesOk h subs inputs (outputs ++ declared)) (hb : Bounded h n (outputs ++ declared)) (hf : (outputs ++ declared).length + n ≤ fuel)
    (d c : Nat) (hd : d ∈ declared) (hc : Needed h (outputs ++ declared) c) (hdep : d ∈ (h c).deps) (hop : (h c).kind = .op) :
    ∃ st, buildGraph h subs inputs outputs declared fuel = .ok st ∧
      ∃ a, st.graph.Edge a c ∧ (h a).name = (h d).name ∧ (h a).kind = (h d).kind := by
  obtain ⟨st, hst, _, _, hE, _⟩ := C26_edges_are_dependencies h subs inputs outputs declared n fuel hk hb hf
  obtain ⟨a, b, hab, ⟨h1, h2, _⟩, _, _, h3⟩ := hE d c (.leaf d (by simp [hd])) hc (Or.inl hdep)
  have := h3 hop
  subst this
  exact ⟨st, hst, a, hab, h1, h2⟩

/-! A concrete model: `x = create_input('x'); d = declare_variable('d'); u = declare_variable('u'); register_output('y', x + d)`:
object 0 is x, 1 is d, 2 is u (unused), 3 the addition, 4 is y; 5 is a submodel. -/
def exHeap : Heap := fun i => match i with
  | 0 => { kind := .var, name := "x".toList }
  | 1 => { kind := .var, name := "d".toList }
  | 2 => { kind := .var, name := "u".toList }
  | 3 => { kind := .op, name := "_0003".toList, deps := [0, 1], outs := [4] }
  | 4 => { kind := .var, name := "y".toList, deps := [3] }
  | _ => { kind := .model, name := "s".toList }

theorem exHeap_needed {c : Nat} (h : Needed exHeap ([4] ++ [1, 2]) c) : c ≤ 4 := by
  induction h with
  | leaf c hc => simp at hc; omega
  | dep v u _ hu ih =>
    have : v = 0 ∨ v = 1 ∨ v = 2 ∨ v = 3 ∨ v = 4 := by omega
    rcases this with rfl | rfl | rfl | rfl | rfl <;> simp [exHeap] at hu <;> omega
  | out u v _ _ hv ih =>
    have : u = 0 ∨ u = 1 ∨ u = 2 ∨ u = 3 ∨ u = 4 := by omega
    rcases this with rfl | rfl | rfl | rfl | rfl <;> simp [exHeap] at hv <;> omega

theorem exHeap_namesOk : NamesOk exHeap [5] [0] ([4] ++ [1, 2]) := by
  have hle : ∀ c, (Needed exHeap ([4] ++ [1, 2]) c ∨ c ∈ [0]) → c ≤ 4 := by
    rintro c (h | h)
    · exact exHeap_needed h
    · simp at h; omega
  refine ⟨?_, ?_, ?_, ?_⟩
  · intro c hc
    have := exHeap_needed hc
    have : c = 0 ∨ c = 1 ∨ c = 2 ∨ c = 3 ∨ c = 4 := by omega
    rcases this with rfl | rfl | rfl | rfl | rfl <;> decide
  · intro c hc; simp at hc; subst hc; rfl
  · intro a b ha hb hab hop
    have ha := hle a ha
    have hb := hle b hb
    have ha' : a = 0 ∨ a = 1 ∨ a = 2 ∨ a = 3 ∨ a = 4 := by omega
    have hb' : b = 0 ∨ b = 1 ∨ b = 2 ∨ b = 3 ∨ b = 4 := by omega
    rcases ha' with rfl | rfl | rfl | rfl | rfl <;> rcases hb' with rfl | rfl | rfl | rfl | rfl <;>
      first | rfl | (exact absurd hab (by decide)) | (exact absurd hop (by decide))
  · intro s hs c hc
    simp at hs; subst hs
    have := hle c hc
    have : c = 0 ∨ c = 1 ∨ c = 2 ∨ c = 3 ∨ c = 4 := by omega
    rcases this with rfl | rfl | rfl | rfl | rfl <;> decide

theorem exHeap_bounded : Bounded exHeap 6 ([4] ++ [1, 2]) := by
  refine ⟨by decide, ?_, ?_⟩
  · intro c hc u hu
    have : c = 0 ∨ c = 1 ∨ c = 2 ∨ c = 3 ∨ c = 4 ∨ c = 5 := by omega
    rcases this with rfl | rfl | rfl | rfl | rfl | rfl <;> simp [exHeap] at hu <;> omega
  · intro c hc u hu
    have : c = 0 ∨ c = 1 ∨ c = 2 ∨ c = 3 ∨ c = 4 ∨ c = 5 := by omega
    rcases this with rfl | rfl | rfl | rfl | rfl | rfl <;> simp [exHeap] at hu <;> omega

/-- The hypotheses of the theorems of C26 and C27 are met by a concrete model, in which `u` is lost. -/
example : ∃ st, buildGraph exHeap [5] [0] [4] [1, 2] 9 = .ok st ∧ 2 ∉ st.graph.nodes := by
  refine C27_unused_declared_is_lost exHeap [5] [0] [4] [1, 2] 6 9 exHeap_namesOk exHeap_bounded (by simp) 2 (by simp) (by simp) (by simp) ?_ rfl ?_ rfl
  · intro c hc hn
    have := exHeap_needed hc
    have : c = 0 ∨ c = 1 ∨ c = 2 ∨ c = 3 ∨ c = 4 := by omega
    rcases this with rfl | rfl | rfl | rfl | rfl <;> first | rfl | (exact absurd hn (by decide))
  · intro c
    match c with
    | 0 | 1 | 2 | 3 | 4 => decide
    | _ + 5 => simp [exHeap]

/-! ### C28 -/

/-- Creation of a csdl object, with the name the user gives it, if any. -/
inductive Creation where
  /-- a variable or an operation (csdl/lang/node.py:29-33) -/
  | node (name : Option Name)
  /-- a submodel (csdl/lang/subgraph.py:22-29) -/
  | submodel (name : Option Name)

/-- The name of an object created when `Node._count` (after its own increment) is `count`: csdl/lang/node.py:31-34, csdl/lang/subgraph.py:28-29. -/
def creationName (count : Nat) : Creation → Name
  | .node name => name.getD (genHexName count)
  | .submodel name => name.getD (genHexName (count + 1))

/-- The names of the objects of a program. -/
def creationNames (cs : List Creation) : List Name := cs.mapIdx creationName

/-- C28 does not hold of the code: whatever the program does before and after, an unnamed submodel has the same name as the next
unnamed object created (for example the addition of `x + y`). -/
theorem C28_unnamed_submodel_name_taken (pre post : List Creation) :
    (creationNames (pre ++ .submodel none :: .node none :: post))[pre.length]? =
      (creationNames (pre ++ .submodel none :: .node none :: post))[pre.length + 1]? := by
  simp [creationNames, List.getElem?_mapIdx, creationName]

/-- C28, exactly when it fails: two automatically generated names are equal only for an unnamed submodel and the variable or operation created immediately after
it. -/
theorem C28_clash_iff_partial (cs : List Creation) (hn : cs.length < 62 * 63 ^ 4) (i j : Nat) (hij : i < j) (a b : Creation)
    (hi : cs[i]? = some a) (hj : cs[j]? = some b) (ha : a = .node none ∨ a = .submodel none) (hb : b = .node none ∨ b = .submodel none) :
    (creationNames cs)[i]? = (creationNames cs)[j]? ↔ a = .submodel none ∧ b = .node none ∧ j = i + 1 := by
  have hjl : j < cs.length := (List.getElem?_eq_some_iff.1 hj).1
  simp only [creationNames, List.getElem?_mapIdx, hi, hj, Option.map_some, Option.some.injEq]
  rcases ha with rfl | rfl <;> rcases hb with rfl | rfl <;> simp only [creationName, Option.getD_none]
  · have := Api.genHex_ne hij (by omega)
    simp [this]
  · have := Api.genHex_ne (a := i) (b := j + 1) (by omega) (by omega)
    simp [this]
  · by_cases h : j = i + 1
    · subst h; simp
    · have := Api.genHex_ne (a := i + 1) (b := j) (by omega) (by omega)
      simp [this, h]
  · have := Api.genHex_ne (a := i + 1) (b := j + 1) (by omega) (by omega)
    simp [this]

/-- Graph nodes are the entries of the dictionary, and entries are never replaced. -/
theorem buildLoop_nodes {h : Heap} (fuel : Nat) (st st' : BState) (hr : buildLoop h fuel st = .ok st')
    (hn : ∀ a ∈ st.graph.nodes, st.nodes.get? (h a).name = some a) (hd : ∀ k r, st.nodes.get? k = some r → (h r).name = k) :
    (∀ a ∈ st'.graph.nodes, st'.nodes.get? (h a).name = some a) ∧ (∀ k r, st.nodes.get? k = some r → st'.nodes.get? k = some r) := by
  have hget : ∀ (nodes nodes' : Dict Name Nat) (c r : Nat), (∀ k r, nodes.get? k = some r → (h r).name = k) →
      getGraphNode h nodes c = .ok (nodes', r) →
      (∀ k r, nodes.get? k = some r → nodes'.get? k = some r) ∧ (∀ k r, nodes'.get? k = some r → (h r).name = k) ∧ nodes'.get? (h r).name = some r := by
    intro nodes nodes' c r hd hg
    unfold getGraphNode at hg
    cases hx : nodes.get? (h c).name with
    | none =>
      rw [hx] at hg; dsimp only at hg
      split at hg
      · cases hg
      · cases hg
        refine ⟨?_, ?_, by rw [Dict.get?_set]; simp⟩
        · intro k r hr
          rw [Dict.get?_set]
          split
          · rename_i e; subst e; rw [hx] at hr; cases hr
          · exact hr
        · intro k r hr
          rw [Dict.get?_set] at hr
          split at hr
          · rename_i e; cases hr; exact e
          · exact hd k r hr
    | some x =>
      rw [hx] at hg; dsimp only at hg
      split at hg
      · cases hg
      · cases hg
        exact ⟨fun _ _ x => x, hd, by rw [hd _ _ hx]; exact hx⟩
  have hlink : ∀ (gn : Nat) (fwd : Bool) (p : Nat) (st st' : BState), link h gn fwd st p = .ok st' →
      (∀ a ∈ st.graph.nodes, st.nodes.get? (h a).name = some a) → (∀ k r, st.nodes.get? k = some r → (h r).name = k) →
      st.nodes.get? (h gn).name = some gn →
      (∀ a ∈ st'.graph.nodes, st'.nodes.get? (h a).name = some a) ∧ (∀ k r, st'.nodes.get? k = some r → (h r).name = k) ∧
      (∀ k r, st.nodes.get? k = some r → st'.nodes.get? k = some r) := by
    intro gn fwd p st st' hl hn hd hgn
    unfold link at hl
    cases hg : getGraphNode h st.nodes p with
    | error e => rw [hg] at hl; cases hl
    | ok x =>
      obtain ⟨nodes', r⟩ := x
      rw [hg] at hl
      dsimp only at hl
      obtain ⟨g1, g2, g3⟩ := hget _ _ _ _ hd hg
      have hnew : ∀ a ∈ (if fwd = true then st.graph.addEdge gn r else st.graph.addEdge r gn).nodes, nodes'.get? (h a).name = some a := by
        intro a ha
        have : a ∈ st.graph.nodes ∨ a = gn ∨ a = r := by
          split at ha <;> rw [Graph.mem_nodes_addEdge] at ha <;> tauto
        rcases this with h1 | rfl | rfl
        · exact g1 _ _ (hn a h1)
        · exact g1 _ _ hgn
        · exact g3
      split at hl <;> cases hl <;> exact ⟨hnew, g2, g1⟩
  have hlinkAll : ∀ (gn : Nat) (fwd : Bool) (ps : List Nat) (st st' : BState), linkAll h gn fwd st ps = .ok st' →
      (∀ a ∈ st.graph.nodes, st.nodes.get? (h a).name = some a) → (∀ k r, st.nodes.get? k = some r → (h r).name = k) →
      st.nodes.get? (h gn).name = some gn →
      (∀ a ∈ st'.graph.nodes, st'.nodes.get? (h a).name = some a) ∧ (∀ k r, st'.nodes.get? k = some r → (h r).name = k) ∧
      (∀ k r, st.nodes.get? k = some r → st'.nodes.get? k = some r) := by
    intro gn fwd ps
    induction ps with
    | nil => intro st st' hl hn hd hgn; cases hl; exact ⟨hn, hd, fun _ _ x => x⟩
    | cons p ps ih =>
      intro st st' hl hn hd hgn
      simp only [linkAll] at hl
      cases hx : link h gn fwd st p with
      | error e => rw [hx] at hl; cases hl
      | ok st1 =>
        rw [hx] at hl
        dsimp only at hl
        obtain ⟨a1, a2, a3⟩ := hlink gn fwd p st st1 hx hn hd hgn
        obtain ⟨b1, b2, b3⟩ := ih st1 st' hl a1 a2 (a3 _ _ hgn)
        exact ⟨b1, b2, fun k r x => b3 k r (a3 k r x)⟩
  induction fuel generalizing st with
  | zero =>
    simp only [buildLoop] at hr
    split at hr
    · cases hr; exact ⟨hn, fun _ _ x => x⟩
    · cases hr
  | succ fuel ih =>
    simp only [buildLoop] at hr
    cases hq : st.queue with
    | nil => rw [hq] at hr; cases hr; exact ⟨hn, fun _ _ x => x⟩
    | cons c queue =>
      rw [hq] at hr
      dsimp only at hr
      cases hv : visit h c { st with queue := queue } with
      | error e => rw [hv] at hr; cases hr
      | ok st1 =>
        rw [hv] at hr
        dsimp only at hr
        unfold visit at hv
        cases hg : getGraphNode h st.nodes c with
        | error e => dsimp only at hv; rw [hg] at hv; cases hv
        | ok x =>
          obtain ⟨nodes', r⟩ := x
          dsimp only at hv
          rw [hg] at hv
          dsimp only at hv
          obtain ⟨g1, g2, g3⟩ := hget _ _ _ _ hd hg
          cases hl : linkAll h r false { st with nodes := nodes', queue := queue } (h c).deps with
          | error e => rw [hl] at hv; cases hv
          | ok st2 =>
            rw [hl] at hv
            dsimp only at hv
            obtain ⟨a1, a2, a3⟩ := hlinkAll r false _ _ st2 hl (fun a ha => g1 _ _ (hn a ha)) g2 g3
            have hfin : (∀ a ∈ st1.graph.nodes, st1.nodes.get? (h a).name = some a) ∧ (∀ k r, st1.nodes.get? k = some r → (h r).name = k) ∧
                (∀ k r, st2.nodes.get? k = some r → st1.nodes.get? k = some r) := by
              split at hv
              · exact hlinkAll r true _ st2 st1 hv a1 a2 (a3 _ _ g3)
              · cases hv; exact ⟨a1, a2, fun _ _ x => x⟩
            obtain ⟨b1, b2⟩ := ih st1 hr hfin.1 hfin.2.1
            exact ⟨b1, fun k r x => b2 k r (hfin.2.2 k r (a3 k r (g1 k r x)))⟩

/-- C28 does not hold of the code: an object with the name of a submodel of its model is not in the graph (its edges are given to the node of the
submodel, which is removed when the models are merged, csdl/rep/construct_flat_graph.py:114), so it is lost. -/
theorem C28_operation_lost (h : Heap) (subs inputs outputs declared : List Nat) (fuel : Nat) (s c : Nat) (hs : s ∈ subs) (hc : c ∉ subs)
    (hname : (h s).name = (h c).name) (hin : ∀ i ∈ inputs, ∀ s ∈ subs, (h i).name ≠ (h s).name)
    (st : BState) (hst : buildGraph h subs inputs outputs declared fuel = .ok st) : c ∉ st.graph.nodes := by
  obtain ⟨a1, a2, a3, _, _, _, a7⟩ := addModels_spec (h := h) subs ({}, []) [] (by simp [Dict.get?]) (by simp [Dict.get?]) (by simp [Dict.get?]) rfl Graph.wf_empty
  have hndi := Dict.nodup_ofPairs (inputs.map fun i => ((h i).name, i))
  have hini : ∀ k r, (Dict.ofPairs (inputs.map fun i => ((h i).name, i))).get? k = some r → (h r).name = k ∧ r ∈ inputs := by
    intro k r hr
    have hr' : Dict.get? (Dict.update [] (inputs.map fun i => ((h i).name, i))) k = some r := hr
    rcases Dict.mem_update hr' with h1 | h1
    · obtain ⟨i, hi, he⟩ := List.mem_map.1 h1
      cases he
      exact ⟨rfl, hi⟩
    · simp [Dict.get?] at h1
  have hg := Dict.get?_update (addModels h ({}, []) subs).2 hndi
  have hsubs : ∀ k r, (addModels h ({}, []) subs).2.get? k = some r →
      ((addModels h ({}, []) subs).2.update (Dict.ofPairs (inputs.map fun i => ((h i).name, i)))).get? k = some r := by
    intro k r hr
    rw [hg]
    cases hx : (Dict.ofPairs (inputs.map fun i => ((h i).name, i))).get? k with
    | none => exact hr
    | some x =>
      obtain ⟨h1, h2⟩ := hini _ _ hx
      have hrs : r ∈ subs := by
        rcases a2 _ _ hr with h3 | h3
        · cases h3
        · exact h3
      exact absurd (h1.trans (a1 _ _ hr).symm) (hin x h2 r hrs)
  obtain ⟨r, hr⟩ := a7 s hs
  have hrs : r ∈ subs := by
    rcases a2 _ _ hr with h2 | h2
    · cases h2
    · exact h2
  unfold buildGraph at hst
  dsimp only at hst
  obtain ⟨b1, b2⟩ := buildLoop_nodes fuel _ st hst (by
    intro a ha
    dsimp only at ha ⊢
    rw [Graph.mem_addNodes, a3] at ha
    rcases ha with ha | ha
    · exact hsubs _ _ ha
    · obtain ⟨⟨k, x⟩, hm, he⟩ := List.mem_map.1 ha
      dsimp only at he; subst he
      have h1 := Dict.mem_get? hndi hm
      rw [(hini _ _ h1).1, hg, h1]) (by
    intro k x hx
    dsimp only at hx
    rw [hg] at hx
    cases hy : (Dict.ofPairs (inputs.map fun i => ((h i).name, i))).get? k with
    | none => rw [hy] at hx; exact a1 _ _ hx
    | some z => rw [hy] at hx; cases hx; exact (hini _ _ hy).1)
  intro hmem
  have h1 := b1 c hmem
  have h2 := b2 _ _ (hsubs _ _ hr)
  rw [hname, h1] at h2
  cases h2
  exact hc hrs

/-- C28, the part that holds: when no needed object has the name of a submodel, every operation is in the graph. -/
theorem C28_operations_survive_partial (h : Heap) (subs inputs outputs declared : List Nat) (n fuel : Nat)
    (hk : NamesOk h subs inputs (outputs ++ declared)) (hb : Bounded h n (outputs ++ declared)) (hf : (outputs ++ declared).length + n ≤ fuel)
    (hl : ∀ c ∈ outputs ++ declared, (h c).kind = .var) :
    ∃ st, buildGraph h subs inputs outputs declared fuel = .ok st ∧
      ∀ c, Needed h (outputs ++ declared) c → (h c).kind = .op → c ∈ (st.graph.removeNodes subs).nodes := by
  obtain ⟨st, hst, h1, _⟩ := C26_needed_in_graph h subs inputs outputs declared n fuel hk hb hf hl
  refine ⟨st, hst, fun c hc hop => ?_⟩
  have hmem := h1 c hc hop
  have hcs : c ∉ subs := fun hcs => hk.subNames c hcs c (Or.inl hc) rfl
  clear h1 hst hk hf hb
  generalize st.graph = g at hmem ⊢
  unfold Graph.removeNodes
  induction subs generalizing g with
  | nil => exact hmem
  | cons s subs ih =>
    simp only [List.mem_cons, not_or] at hcs
    exact ih hcs.2 (g.removeNode s) (by simp [Graph.removeNode, hmem, hcs.1])

/-- A concrete program: `self.add(Sub()); self.register_output('y', a + b)`, with `a` and `b` declared.  The objects are a, b, the submodel, the addition, y. -/
def exUnnamed : List Creation := [.node (some "a".toList), .node (some "b".toList), .submodel none, .node none, .node (some "y".toList)]

def exLost : Heap := fun i => match i with
  | 0 => { kind := .var, name := "a".toList }
  | 1 => { kind := .var, name := "b".toList }
  | 2 => { kind := .model, name := (creationNames exUnnamed).getD 2 [] }
  | 3 => { kind := .op, name := (creationNames exUnnamed).getD 3 [], deps := [0, 1], outs := [4] }
  | _ => { kind := .var, name := "y".toList, deps := [3] }

/-- the same with the names computed -/
def exLostLit : Heap := fun i => match i with
  | 0 => { kind := .var, name := "a".toList }
  | 1 => { kind := .var, name := "b".toList }
  | 2 => { kind := .model, name := "_0003".toList }
  | 3 => { kind := .op, name := "_0003".toList, deps := [0, 1], outs := [4] }
  | _ => { kind := .var, name := "y".toList, deps := [3] }

/-- C28: in this program the addition is not in the graph, and after the submodel is merged nothing computes `y`. -/
theorem C28_addition_lost : ∃ st, buildGraph exLost [2] [] [4] [0, 1] 20 = .ok st ∧ 3 ∉ st.graph.nodes ∧
    (0, 2) ∈ st.graph.edges ∧ (2, 4) ∈ st.graph.edges ∧ 4 ∉ (st.graph.removeNodes [2]).edges.map (·.2) := by
  have h3 : genHexName 3 = "_0003".toList := by
    rw [genHexName, genHexLoop]; decide
  have he : exLost = exLostLit := by
    funext i
    match i with
    | 0 | 1 => rfl
    | 2 | 3 => simp [exLost, exLostLit, creationNames, exUnnamed, creationName, h3]
    | _ + 4 => rfl
  rw [he]
  refine ⟨_, rfl, ?_⟩
  decide

end Csdl
