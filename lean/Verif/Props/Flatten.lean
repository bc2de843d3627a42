import Verif.Proofs.Merge
import Verif.Props.Promotions
/-!
# C29-C31: the flat graph and automatic merging
-/
namespace Csdl

theorem HierOk.kids {g : Graph} {kids : Kids} (h : HierOk g kids) : KidsOk kids :=
  ⟨fun p a b hp => h.wf p a b (Or.inr hp), (List.nodup_append.1 h.distinct).2.1, fun p a b hp => h.ids p a b (Or.inr hp)⟩

theorem HierOk.root {g : Graph} {kids : Kids} (h : HierOk g kids) : g.WF := h.wf [] g kids (Or.inl ⟨rfl, rfl, rfl⟩)

theorem HierOk.disj {g : Graph} {kids : Kids} (h : HierOk g kids) : ∀ a ∈ g.nodes, a ∉ kids.allNodes :=
  fun a ha hb => (List.nodup_append.1 h.distinct).2.2 a ha a hb rfl

theorem at_good' {m m' : Model} {path} (hd : DotFree m) (h : At m path m') : ∀ s ∈ path, GoodName s := by
  induction h with
  | here => simp
  | down hs _ ih =>
    intro t ht
    rcases List.mem_cons.1 ht with rfl | ht
    · exact hd.loc.2.1 _ hs
    · exact ih (hd.sub hs) t ht

/-- Does a computation succeed with a result that satisfies a test?  (for examples) -/
def okCheck {ε α : Type} (x : Except ε α) (P : α → Bool) : Bool := match x with | .ok a => P a | .error _ => false

theorem ok_of_check {ε α : Type} {x : Except ε α} {P : α → Bool} (h : okCheck x P = true) : ∃ a, x = .ok a ∧ P a = true := by
  cases x with
  | ok a => exact ⟨a, rfl, h⟩
  | error e => cases h

section
variable {I : NHeap} {p2u : Dict Name (List Name)} {u2p : Dict Name Name} {g : Graph} {kids : Kids} {st : FState}

theorem flatten_facts (hk : HierOk g kids) (h : flatten I p2u u2p g kids = .ok st) :
    st.graph.WF ∧
    (∀ a, a ∈ st.graph.nodes ↔ ∃ path g' ks', HierAt g kids path g' ks' ∧ a ∈ g'.nodes ∧ a ∉ ks'.ids) ∧
    (∀ a b, st.graph.Edge a b ↔ ∃ path g' ks', HierAt g kids path g' ks' ∧ g'.Edge a b ∧ a ∉ ks'.ids ∧ b ∉ ks'.ids) ∧
    (∀ path g' ks', HierAt g kids path g' ks' → ∀ v ∈ g'.nodes, (I v).kind = .var →
      st.uns v = descend [] path ∧ st.ns v = assignedNs p2u u2p (descend [] path) (I v).name []) := by
  unfold flatten at h
  obtain ⟨f1, f2, f3, f4, f5⟩ := mergeKids_graph kids hk.kids (Graph.wf_removeNodes hk.root kids.ids)
    (fun a ha => hk.disj a (Graph.mem_nodes_removeNodes.1 ha).1) h
  refine ⟨f1, ?_, ?_, ?_⟩
  · intro a
    rw [f2, Graph.mem_nodes_removeNodes]
    constructor
    · rintro (h1 | ⟨path, g', ks', hp, h1⟩)
      · exact ⟨[], g, kids, Or.inl ⟨rfl, rfl, rfl⟩, h1⟩
      · exact ⟨path, g', ks', Or.inr hp, h1⟩
    · rintro ⟨path, g', ks', ⟨rfl, rfl, rfl⟩ | hp, h1⟩
      · exact Or.inl h1
      · exact Or.inr ⟨path, g', ks', hp, h1⟩
  · intro a b
    rw [f3, Graph.edge_removeNodes]
    constructor
    · rintro (h1 | ⟨path, g', ks', hp, h1⟩)
      · exact ⟨[], g, kids, Or.inl ⟨rfl, rfl, rfl⟩, h1⟩
      · exact ⟨path, g', ks', Or.inr hp, h1⟩
    · rintro ⟨path, g', ks', ⟨rfl, rfl, rfl⟩ | hp, h1⟩
      · exact Or.inl h1
      · exact Or.inr ⟨path, g', ks', hp, h1⟩
  · rintro path g' ks' (⟨rfl, rfl, rfl⟩ | hp) v hv hkind
    · obtain ⟨h1, h2⟩ := f4 v (hk.disj v hv)
      rw [h1, h2]
      refine ⟨rfl, ?_⟩
      have hm : v ∈ varNodes I g' := by simp [varNodes, hv, hkind]
      dsimp only
      rw [if_pos hm]
      rfl
    · obtain ⟨h1, h2⟩ := f5 path g' ks' hp v hv hkind
      refine ⟨h1, ?_⟩
      rw [h2]
      have hm : v ∉ varNodes I g := fun hm => hk.disj v (List.mem_filter.1 hm).1 (Kids.At.sub hp v hv)
      dsimp only
      rw [if_neg hm]

end

/-! ### C29 -/

/-- C29, graph: whenever flattening succeeds, the flat graph contains the nodes of the graphs of all models of the hierarchy except the model nodes, and
the edges between them, no other nodes or edges, and each once (`Graph.WF`), whatever the order of the child models in `kids`. -/
theorem C29_flat_graph_exact (I : NHeap) (p2u : Dict Name (List Name)) (u2p : Dict Name Name) (g : Graph) (kids : Kids) (st : FState)
    (hk : HierOk g kids) (h : flatten I p2u u2p g kids = .ok st) :
    st.graph.WF ∧
    (∀ a, a ∈ st.graph.nodes ↔ ∃ path g' ks', HierAt g kids path g' ks' ∧ a ∈ g'.nodes ∧ a ∉ ks'.ids) ∧
    (∀ a b, st.graph.Edge a b ↔ ∃ path g' ks', HierAt g kids path g' ks' ∧ g'.Edge a b ∧ a ∉ ks'.ids ∧ b ∉ ks'.ids) := by
  obtain ⟨h1, h2, h3, _⟩ := flatten_facts hk h
  exact ⟨h1, h2, h3⟩

/-- C29, names (partial: variables known to promotion resolution): a node that stands for a variable with promoted name `p` of the model reached through `path`
gets the name `p`, and the unpromoted name is the full name.  Missing: unregistered outputs of custom operations,
see `C29_unregistered_output_captures`. -/
theorem C29_names_partial (m : Model) (hd : DotFree m) (r : Res) (hr : resolve m none = .ok r) (I : NHeap) (g : Graph) (kids : Kids) (st : FState)
    (hk : HierOk g kids) (h : flatten I r.p2u (createReverseMap r.p2u) g kids = .ok st)
    (path : List Name) (g' : Graph) (ks' : Kids) (hp : HierAt g kids path g' ks') (v : Nat) (hv : v ∈ g'.nodes) (hvar : (I v).kind = .var)
    (k : VarKind) (w : VarInfo) (p : Name) (hw : PromotedAs m path k w p) (hn : w.name = (I v).name) :
    st.pname I v = p ∧ prependNamespace (st.uns v) (I v).name = fullName path w.name := by
  obtain ⟨_, _, _, h4⟩ := flatten_facts hk h
  obtain ⟨h1, h2⟩ := h4 path g' ks' hp v hv hvar
  constructor
  · unfold FState.pname
    rw [h2, ← hn]
    exact assigned_promoted hd hr hw []
  · rw [h1, hn, descend_prepend path (fun s hs => ((promoted_good m hd hw).1 s hs).1)]
    simp [prependNamespace, fullName]

theorem fullName_inj_last {path path' : List Name} {x y : Name} (h1 : ∀ s ∈ path, GoodName s) (h2 : ∀ s ∈ path', GoodName s) (hx : '.' ∉ x) (hy : '.' ∉ y)
    (h : fullName path x = fullName path' y) : x = y := by
  have := congrArg splitDot h
  rw [splitDot_fullName h1 hx, splitDot_fullName h2 hy] at this
  exact (List.append_inj' this rfl).2 |> List.singleton_inj.1

/-- the maps do not contain names that no variable of the hierarchy has -/
theorem assigned_auto {m : Model} (hd : DotFree m) {r : Res} (hr : resolve m none = .ok r) {path : List Name} (hp : ∀ s ∈ path, GoodName s) {x : Name}
    (hx : '.' ∉ x) (hfree : ∀ path' k w p, PromotedAs m path' k w p → w.name ≠ x) (old : Name) :
    assignedNs r.p2u (createReverseMap r.p2u) (descend [] path) x old = old := by
  have hfull : prependNamespace (descend [] path) x = fullName path x := by
    rw [descend_prepend path (fun s hs => (hp s hs).1)]; simp [prependNamespace, fullName]
  unfold assignedNs
  rw [hfull]
  have h1 : ¬ r.p2u.has (fullName path x) = true := by
    rw [p2u_has hr]
    rintro ⟨path', k, w, hw⟩
    obtain ⟨qs, hq, he⟩ := promoted_form hd hw
    exact hfree _ _ _ _ hw (fullName_inj_last hp hq hx (promoted_good m hd hw).2 he).symm
  rw [if_neg h1]
  cases hu : (createReverseMap r.p2u).get? (fullName path x) with
  | none => rfl
  | some p =>
    exfalso
    obtain ⟨f1, _, f3⟩ := p2u_facts m hr
    have := (reverse_iff f1 (fun _ _ _ a b => p2u_functional hd hr a b) _ _).1 hu
    obtain ⟨path', k, w, hw, he⟩ := (f3 _ _).1 this
    exact hfree _ _ _ _ hw (fullName_inj_last hp (promoted_good m hd hw).1 hx (promoted_good m hd hw).2 he).symm

/-- C29, automatically named variables keep their name, without a namespace. -/
theorem C29_auto_names (m : Model) (hd : DotFree m) (r : Res) (hr : resolve m none = .ok r) (I : NHeap) (g : Graph) (kids : Kids) (st : FState)
    (hk : HierOk g kids) (hrep : Represents m I g kids) (h : flatten I r.p2u (createReverseMap r.p2u) g kids = .ok st)
    (path : List Name) (g' : Graph) (ks' : Kids) (hp : HierAt g kids path g' ks') (v : Nat) (hv : v ∈ g'.nodes) (hvar : (I v).kind = .var)
    (ha : (I v).name = (I v).auto) : st.pname I v = (I v).name := by
  obtain ⟨_, _, _, h4⟩ := flatten_facts hk h
  obtain ⟨_, h2⟩ := h4 path g' ks' hp v hv hvar
  obtain ⟨m', hm'⟩ := hrep.paths path g' ks' hp
  obtain ⟨a1, a2⟩ := hrep.autoFree path g' ks' hp v hv hvar ha
  unfold FState.pname
  rw [h2, assigned_auto hd hr (at_good' hd hm') a1 a2]
  rfl

section
variable {I : NHeap} {p2u : Dict Name (List Name)} {u2p : Dict Name Name}

/-- what `assignNs` accepts whatever the graph -/
def KnownVar (I : NHeap) (p2u : Dict Name (List Name)) (u2p : Dict Name Name) (uns : Name) (v : Nat) : Prop :=
  p2u.has (prependNamespace uns (I v).name) = true ∨ (u2p.get? (prependNamespace uns (I v).name)).isSome = true ∨ (I v).name = (I v).auto

theorem assignNs_total {uns : Name} {st : FState} {v : Nat} (h : KnownVar I p2u u2p uns v) : ∃ st', assignNs I p2u u2p uns st v = .ok st' := by
  unfold assignNs
  dsimp only
  by_cases hp : p2u.has (prependNamespace uns (I v).name) = true
  · rw [if_pos hp]; exact ⟨_, rfl⟩
  · rw [if_neg hp]
    cases hu : u2p.get? (prependNamespace uns (I v).name) with
    | some p => exact ⟨_, rfl⟩
    | none =>
      rcases h with h | h | h
      · exact absurd h hp
      · rw [hu] at h; cases h
      · dsimp only
        unfold checkUnknown
        rw [if_pos h]
        exact ⟨_, rfl⟩

theorem assignAll_total {uns : Name} (vs : List Nat) : ∀ {st : FState}, (∀ v ∈ vs, KnownVar I p2u u2p uns v) → ∃ st', assignAll I p2u u2p uns st vs = .ok st' := by
  induction vs with
  | nil => intro st _; exact ⟨_, rfl⟩
  | cons v vs ih =>
    intro st h
    obtain ⟨st1, h1⟩ := assignNs_total (st := st) (h v (by simp))
    unfold assignAll
    rw [h1]
    exact ih (fun w hw => h w (by simp [hw]))

theorem mergeKids_total (kids : Kids) : ∀ {ns : Name} {st : FState},
    (∀ path g ks, kids.At path g ks → ∀ v ∈ g.nodes, (I v).kind = .var → KnownVar I p2u u2p (descend ns path) v) →
    ∃ st', mergeKids I p2u u2p kids ns st = .ok st' := by
  induction kids with
  | nil => intro ns st _; exact ⟨_, rfl⟩
  | cons id name g ks rest ih1 ih2 =>
    intro ns st h
    unfold mergeKids
    dsimp only
    have hv : ∀ v ∈ varNodes I g, KnownVar I p2u u2p (prependNamespace ns name) v := by
      intro v hv
      simp only [varNodes, List.mem_filter, decide_eq_true_eq] at hv
      exact h [name] g ks .head v hv.1 hv.2
    obtain ⟨st2, h2⟩ := assignAll_total (varNodes I g) (st := { st with graph := (st.graph.addEdges g.edges).addNodes g.nodes }) hv
    rw [h2]
    dsimp only
    obtain ⟨st3, h3⟩ := ih1 (ns := prependNamespace ns name) (st := { st2 with graph := st2.graph.removeNodes ks.ids })
      (fun path g' ks' hp v hv hk => h (name :: path) g' ks' (.inside hp) v hv hk)
    rw [h3]
    exact ih2 (fun path g' ks' hp v hv hk => h path g' ks' (.next hp) v hv hk)

end

/-- C29: flattening succeeds if the graphs stand for the model hierarchy. -/
theorem C29_flatten_total (m : Model) (hd : DotFree m) (r : Res) (hr : resolve m none = .ok r) (I : NHeap) (g : Graph) (kids : Kids)
    (hrep : Represents m I g kids) : ∃ st, flatten I r.p2u (createReverseMap r.p2u) g kids = .ok st := by
  unfold flatten
  apply mergeKids_total
  intro path g' ks' hp v hv hvar
  by_cases ha : (I v).name = (I v).auto
  · exact Or.inr (Or.inr ha)
  · obtain ⟨k, w, p, hw, hn, _⟩ := hrep.named path g' ks' (Or.inr hp) v hv hvar ha
    refine Or.inr (Or.inl ?_)
    have hfull : prependNamespace (descend [] path) (I v).name = fullName path w.name := by
      rw [hn, descend_prepend path (fun s hs => ((promoted_good m hd hw).1 s hs).1)]; simp [prependNamespace, fullName]
    obtain ⟨f1, _, f3⟩ := p2u_facts m hr
    rw [hfull, (reverse_iff f1 (fun _ _ _ a b => p2u_functional hd hr a b) _ p).2 ((f3 _ _).2 ⟨path, k, w, hw, rfl⟩)]
    rfl

/-- Example hierarchy: main declares `x` (node 0) which operation 1 maps to the output `y` (2); submodel `A` (node 3), promoting everything, declares `x` (4),
which operation 5 maps to an automatically named output (6), which operation 7 maps to `z` (8). -/
def exFlatHeap : NHeap := fun i => match i with
  | 0 => { kind := .var, name := "x".toList, auto := "_0000".toList }
  | 1 => { kind := .op, name := "_0001".toList }
  | 2 => { kind := .var, name := "y".toList, auto := "_0002".toList, role := .output }
  | 3 => { kind := .model, name := "A".toList }
  | 4 => { kind := .var, name := "x".toList, auto := "_0004".toList, explicit := true }
  | 5 => { kind := .op, name := "_0005".toList }
  | 6 => { kind := .var, name := "_0006".toList, auto := "_0006".toList, role := .output }
  | 7 => { kind := .op, name := "_0007".toList }
  | 8 => { kind := .var, name := "z".toList, auto := "_0008".toList, role := .output }
  | _ => { kind := .op, name := "_0009".toList }

def exFlatGraph : Graph := { nodes := [3, 0, 1, 2], edges := [(0, 1), (1, 2)] }
def exFlatKids : Kids := .cons 3 "A".toList { nodes := [4, 5, 6, 7, 8], edges := [(4, 5), (5, 6), (6, 7), (7, 8)] } .nil .nil
def exFlatA : Model := .mk { outputs := [⟨"z".toList, [1]⟩], declared := [⟨"x".toList, [1]⟩] } .nil
def exFlatModel : Model := .mk { outputs := [⟨"y".toList, [1]⟩], declared := [⟨"x".toList, [1]⟩] } (.cons "A".toList none exFlatA .nil)

theorem exFlat_hier {path g' ks'} (h : HierAt exFlatGraph exFlatKids path g' ks') :
    (path = [] ∧ g' = exFlatGraph ∧ ks' = exFlatKids) ∨ (path = ["A".toList] ∧ g' = { nodes := [4, 5, 6, 7, 8], edges := [(4, 5), (5, 6), (6, 7), (7, 8)] } ∧ ks' = .nil) := by
  have := mem_hierEnum h
  simp only [hierEnum, exFlatKids, Kids.enum, List.map_nil, List.append_nil, List.mem_cons, Prod.mk.injEq, List.not_mem_nil, or_false] at this
  simpa [exFlatKids] using this

theorem exFlat_promoted {path k w p} (h : PromotedAs exFlatModel path k w p) :
    (path = [] ∨ path = ["A".toList]) ∧ (w.name = "x".toList ∨ w.name = "y".toList ∨ w.name = "z".toList) := by
  have inA : ∀ {path k w p}, PromotedAs exFlatA path k w p → path = [] ∧ (w.name = "x".toList ∨ w.name = "z".toList) := by
    intro path k w p h
    cases h with
    | here hv => cases k <;> simp [Local.vars, Local.sources] at hv <;> simp [hv]
    | up hs => simp [Subs.toList] at hs
    | stay hs => simp [Subs.toList] at hs
  cases h with
  | here hv => cases k <;> simp [Local.vars, Local.sources] at hv <;> simp [hv]
  | up hs hp =>
    simp only [Subs.toList, List.mem_singleton] at hs
    subst hs
    obtain ⟨rfl, h⟩ := inA hp
    exact ⟨Or.inr rfl, by tauto⟩
  | stay hs hp =>
    simp only [Subs.toList, List.mem_singleton] at hs
    subst hs
    obtain ⟨rfl, h⟩ := inA hp
    exact ⟨Or.inr rfl, by tauto⟩

theorem exFlat_ok : HierOk exFlatGraph exFlatKids ∧ AllBipartite exFlatHeap exFlatGraph exFlatKids ∧ DotFree exFlatModel ∧ DistinctSources exFlatModel ∧
    (∃ r, resolve exFlatModel none = .ok r) ∧ Represents exFlatModel exFlatHeap exFlatGraph exFlatKids := by
  refine ⟨hierOk_of (by decide), bipartite_of (by decide), dotFree_of (by decide), (distinct_of (by decide)).1, ?_, ?_⟩
  · obtain ⟨r, hr, _⟩ := ok_of_check (x := resolve exFlatModel none) (P := fun _ => true) (by decide)
    exact ⟨r, hr⟩
  · have px : ∀ k : VarKind, k = .target → PromotedAs exFlatModel [] k ⟨"x".toList, [1]⟩ "x".toList := fun k hk =>
      .here (v := ⟨"x".toList, [1]⟩) (by subst hk; simp [Local.vars])
    have py : PromotedAs exFlatModel [] .source ⟨"y".toList, [1]⟩ "y".toList := .here (v := ⟨"y".toList, [1]⟩) (by simp [Local.vars, Local.sources])
    have ax : PromotedAs exFlatModel ["A".toList] .target ⟨"x".toList, [1]⟩ "x".toList :=
      .up (s := ⟨"A".toList, none, exFlatA⟩) (by simp [Subs.toList]) (.here (v := ⟨"x".toList, [1]⟩) (by simp [Local.vars])) (by simp [IsPromoted])
    have az : PromotedAs exFlatModel ["A".toList] .source ⟨"z".toList, [1]⟩ "z".toList :=
      .up (s := ⟨"A".toList, none, exFlatA⟩) (by simp [Subs.toList]) (.here (v := ⟨"z".toList, [1]⟩) (by simp [Local.vars, Local.sources])) (by simp [IsPromoted])
    refine ⟨?_, ?_, ?_, ?_, ?_⟩
    · intro path g' ks' hp
      rcases exFlat_hier hp with ⟨rfl, _⟩ | ⟨rfl, _⟩
      · exact ⟨_, .here _⟩
      · exact ⟨_, .down (s := ⟨"A".toList, none, exFlatA⟩) (by simp [Subs.toList]) (.here _)⟩
    · intro path g' ks' hp v hv hk ha
      rcases exFlat_hier hp with ⟨rfl, rfl, _⟩ | ⟨rfl, rfl, _⟩
      · simp only [exFlatGraph, List.mem_cons, List.not_mem_nil, or_false] at hv
        rcases hv with rfl | rfl | rfl | rfl
        · cases hk
        · exact ⟨_, _, _, px _ rfl, rfl, by decide⟩
        · cases hk
        · exact ⟨_, _, _, py, rfl, by decide⟩
      · simp only [List.mem_cons, List.not_mem_nil, or_false] at hv
        rcases hv with rfl | rfl | rfl | rfl | rfl
        · exact ⟨_, _, _, ax, rfl, by decide⟩
        · cases hk
        · exact absurd rfl ha
        · cases hk
        · exact ⟨_, _, _, az, rfl, by decide⟩
    · intro path g1 k1 g2 k2 h1 h2 v hv v' hv' hk hk' hr hr' hn
      rcases exFlat_hier h1 with ⟨rfl, rfl, _⟩ | ⟨rfl, rfl, _⟩ <;> rcases exFlat_hier h2 with ⟨e, rfl, _⟩ | ⟨e, rfl, _⟩
      · simp only [exFlatGraph, List.mem_cons, List.not_mem_nil, or_false] at hv hv'
        rcases hv with rfl | rfl | rfl | rfl <;> rcases hv' with rfl | rfl | rfl | rfl <;> first | rfl | exact absurd hk (by decide) | exact absurd hk' (by decide) | exact absurd rfl hr | exact absurd rfl hr'
      · simp at e
      · simp at e
      · simp only [List.mem_cons, List.not_mem_nil, or_false] at hv hv'
        rcases hv with rfl | rfl | rfl | rfl | rfl <;> rcases hv' with rfl | rfl | rfl | rfl | rfl <;>
          first | rfl | exact absurd hk (by decide) | exact absurd hk' (by decide) | exact absurd rfl hr | exact absurd rfl hr' | exact absurd hn (by decide)
    · intro path g' ks' hp v hv hk ha
      rcases exFlat_hier hp with ⟨rfl, rfl, _⟩ | ⟨rfl, rfl, _⟩
      · simp only [exFlatGraph, List.mem_cons, List.not_mem_nil, or_false] at hv
        rcases hv with rfl | rfl | rfl | rfl <;> first | exact absurd hk (by decide) | exact absurd ha (by decide)
      · simp only [List.mem_cons, List.not_mem_nil, or_false] at hv
        rcases hv with rfl | rfl | rfl | rfl | rfl <;> first | exact absurd hk (by decide) | exact absurd ha (by decide) | skip
        refine ⟨by decide, fun path' k w p hw => ?_⟩
        rcases (exFlat_promoted hw).2 with h | h | h <;> rw [h] <;> decide
    · intro path g1 k1 path' g2 k2 h1 h2 v hv v' hv' hk hk' ha ha' hn
      rcases exFlat_hier h1 with ⟨rfl, rfl, _⟩ | ⟨rfl, rfl, _⟩ <;> rcases exFlat_hier h2 with ⟨e, rfl, _⟩ | ⟨e, rfl, _⟩ <;>
        simp only [exFlatGraph, List.mem_cons, List.not_mem_nil, or_false] at hv hv'
      · rcases hv with rfl | rfl | rfl | rfl <;> first | exact absurd hk (by decide) | exact absurd ha (by decide)
      · rcases hv with rfl | rfl | rfl | rfl <;> first | exact absurd hk (by decide) | exact absurd ha (by decide)
      · rcases hv' with rfl | rfl | rfl | rfl <;> first | exact absurd hk' (by decide) | exact absurd ha' (by decide)
      · rcases hv with rfl | rfl | rfl | rfl | rfl <;> first | exact absurd hk (by decide) | exact absurd ha (by decide) | skip
        rcases hv' with rfl | rfl | rfl | rfl | rfl <;> first | exact Or.inl rfl | exact absurd hk' (by decide) | exact absurd ha' (by decide)

/-- the example is flattened to all its nodes except the model node -/
example : ∃ r st, resolve exFlatModel none = .ok r ∧ flatten exFlatHeap r.p2u (createReverseMap r.p2u) exFlatGraph exFlatKids = .ok st ∧
    st.graph.nodes = [0, 1, 2, 4, 5, 6, 7, 8] ∧ st.pname exFlatHeap 4 = "x".toList ∧ st.uns 4 = "A".toList := by
  obtain ⟨r, hr, h⟩ := ok_of_check (x := resolve exFlatModel none) (P := fun r =>
    okCheck (flatten exFlatHeap r.p2u (createReverseMap r.p2u) exFlatGraph exFlatKids) fun st =>
      decide (st.graph.nodes = [0, 1, 2, 4, 5, 6, 7, 8] ∧ st.pname exFlatHeap 4 = "x".toList ∧ st.uns 4 = "A".toList)) (by decide)
  obtain ⟨st, hst, h⟩ := ok_of_check h
  exact ⟨r, st, hr, hst, of_decide_eq_true h⟩

/-- main declares `f` (node 0), read by operation 1; submodel `A` (node 3), promoting nothing, computes with the custom operation 5 an output `f` (6) that it does not
register but uses in operation 7 to compute `z` (8). -/
def exCustomHeap : NHeap := fun i => match i with
  | 0 => { kind := .var, name := "f".toList, auto := "_0000".toList }
  | 1 => { kind := .op, name := "_0001".toList }
  | 2 => { kind := .var, name := "y".toList, auto := "_0002".toList, role := .output }
  | 3 => { kind := .model, name := "A".toList }
  | 4 => { kind := .var, name := "a".toList, auto := "_0004".toList, role := .input }
  | 5 => { kind := .op, name := "_0005".toList, custom := true }
  | 6 => { kind := .var, name := "f".toList, auto := "_0006".toList, role := .output }
  | 7 => { kind := .op, name := "_0007".toList }
  | _ => { kind := .var, name := "z".toList, auto := "_0008".toList, role := .output }
def exCustomModel : Model := .mk { outputs := [⟨"y".toList, [1]⟩], declared := [⟨"f".toList, [1]⟩] }
  (.cons "A".toList (some []) (.mk { inputs := [⟨"a".toList, [1]⟩], outputs := [⟨"z".toList, [1]⟩] } .nil) .nil)

/-- C29 as stated is false of the code: an output of a custom operation that is not registered keeps the namespace of the main model.  Submodel `A` promotes
nothing, but its variable `f` is named `f`, like the unrelated `f` declared in the main model (`f` is the only full name behind the promoted name `f`), and
automatic merging makes the main model's operation read it. -/
theorem C29_unregistered_output_captures : ∃ r st, DotFree exCustomModel ∧ resolve exCustomModel none = .ok r ∧ HierOk exFlatGraph exFlatKids ∧
    flatten exCustomHeap r.p2u (createReverseMap r.p2u) exFlatGraph exFlatKids = .ok st ∧ r.p2u.get? "f".toList = some ["f".toList] ∧
    prependNamespace (st.uns 6) (exCustomHeap 6).name = "A.f".toList ∧ st.pname exCustomHeap 6 = "f".toList ∧
    (0, 1) ∈ st.graph.edges ∧ (mergeAuto exCustomHeap id st).nodes = [1, 2, 4, 5, 6, 7, 8] ∧ (6, 1) ∈ (mergeAuto exCustomHeap id st).edges := by
  obtain ⟨r, hr, h⟩ := ok_of_check (x := resolve exCustomModel none) (P := fun r =>
    okCheck (flatten exCustomHeap r.p2u (createReverseMap r.p2u) exFlatGraph exFlatKids) fun st =>
      decide (r.p2u.get? "f".toList = some ["f".toList] ∧ prependNamespace (st.uns 6) (exCustomHeap 6).name = "A.f".toList ∧
        st.pname exCustomHeap 6 = "f".toList ∧ (0, 1) ∈ st.graph.edges ∧ (mergeAuto exCustomHeap id st).nodes = [1, 2, 4, 5, 6, 7, 8] ∧
        (6, 1) ∈ (mergeAuto exCustomHeap id st).edges)) (by decide)
  obtain ⟨st, hst, h⟩ := ok_of_check h
  obtain ⟨h1, h2⟩ := of_decide_eq_true h
  exact ⟨r, st, dotFree_of (by decide), hr, hierOk_of (by decide), hst, h1, h2⟩

/-! ### C30 -/

section
variable {m : Model} {r : Res} {I : NHeap} {g : Graph} {kids : Kids} {st : FState}

/-- every variable node of the flat graph with its name -/
theorem flat_var (hd : DotFree m) (hr : resolve m none = .ok r) (hk : HierOk g kids) (hrep : Represents m I g kids)
    (h : flatten I r.p2u (createReverseMap r.p2u) g kids = .ok st) {v : Nat} (hv : v ∈ st.graph.nodes) (hvar : (I v).kind = .var) :
    ∃ path g' ks', HierAt g kids path g' ks' ∧ v ∈ g'.nodes ∧ st.uns v = descend [] path ∧ (∀ s ∈ path, GoodName s) ∧
      ((((I v).name = (I v).auto) ∧ st.pname I v = (I v).name) ∨
       ((I v).name ≠ (I v).auto ∧ ∃ k w, PromotedAs m path k w (st.pname I v) ∧ w.name = (I v).name ∧ (k = .source ↔ (I v).role ≠ .declared))) := by
  obtain ⟨_, h2, _, h4⟩ := flatten_facts hk h
  obtain ⟨path, g', ks', hp, hm, _⟩ := (h2 v).1 hv
  obtain ⟨m', hm'⟩ := hrep.paths path g' ks' hp
  refine ⟨path, g', ks', hp, hm, (h4 path g' ks' hp v hm hvar).1, at_good' hd hm', ?_⟩
  by_cases ha : (I v).name = (I v).auto
  · exact Or.inl ⟨ha, C29_auto_names m hd r hr I g kids st hk hrep h path g' ks' hp v hm hvar ha⟩
  · obtain ⟨k, w, p, hw, hn, hrole⟩ := hrep.named path g' ks' hp v hm hvar ha
    obtain ⟨h1, _⟩ := C29_names_partial m hd r hr I g kids st hk h path g' ks' hp v hm hvar k w p hw hn
    exact Or.inr ⟨ha, k, w, by rw [h1]; exact hw, hn, hrole⟩

/-- an automatically generated name is not a promoted name -/
theorem auto_ne_promoted (hd : DotFree m) {x : Name} (hx : '.' ∉ x) (hfree : ∀ path' k w p, PromotedAs m path' k w p → w.name ≠ x) {path k w p}
    (hw : PromotedAs m path k w p) : x ≠ p := by
  intro he
  obtain ⟨qs, hq, hp⟩ := promoted_form hd hw
  have : fullName [] x = fullName qs w.name := by rw [← hp, ← he]; rfl
  exact hfree _ _ _ _ hw (fullName_inj_last (by simp) hq hx (promoted_good m hd hw).2 this).symm

theorem flat_sources (hd : DotFree m) (hs : DistinctSources m) (hr : resolve m none = .ok r) (hk : HierOk g kids) (hrep : Represents m I g kids)
    (h : flatten I r.p2u (createReverseMap r.p2u) g kids = .ok st) (a b : Nat) (ha : IsSource I st.graph a) (hb : IsSource I st.graph b)
    (hn : st.pname I a = st.pname I b) : a = b ∨ ((I a).name = (I a).auto ∧ (I b).name = (I b).auto ∧ (I a).role ≠ .declared ∧ (I b).role ≠ .declared ∧ ∀ path g' ks', HierAt g kids path g' ks' → a ∈ g'.nodes → b ∉ g'.nodes) := by
  obtain ⟨ha1, ha2, ha3⟩ := ha
  obtain ⟨hb1, hb2, hb3⟩ := hb
  obtain ⟨path, g1, k1, p1, m1, u1, good1, c1⟩ := flat_var hd hr hk hrep h ha1 ha2
  obtain ⟨path', g2, k2, p2, m2, u2, good2, c2⟩ := flat_var hd hr hk hrep h hb1 hb2
  rcases c1 with ⟨e1, n1⟩ | ⟨e1, k, w, hw, nw, kr⟩ <;> rcases c2 with ⟨e2, n2⟩ | ⟨e2, k', w', hw', nw', kr'⟩
  · by_cases hab : a = b
    · exact Or.inl hab
    · refine Or.inr ⟨e1, e2, ha3, hb3, fun path g' ks' hp hga hgb => ?_⟩
      rcases hrep.autoOnce _ _ _ _ _ _ hp hp a hga b hgb ha2 hb2 e1 e2 (by rw [← n1, ← n2, hn]) with h' | h'
      · exact hab h'
      · exact h'.1 rfl
  · obtain ⟨f1, f2⟩ := hrep.autoFree _ _ _ p1 a m1 ha2 e1
    exact absurd (n1.symm.trans hn) (auto_ne_promoted hd f1 f2 hw')
  · obtain ⟨f1, f2⟩ := hrep.autoFree _ _ _ p2 b m2 hb2 e2
    exact absurd (n2.symm.trans hn.symm) (auto_ne_promoted hd f1 f2 hw)
  · have := kr.2 ha3; subst this
    have := kr'.2 hb3; subst this
    rw [← hn] at hw'
    obtain ⟨rfl, rfl⟩ := C05_one_source_per_name m hd hs r hr _ _ _ _ _ hw hw'
    exact Or.inl (hrep.sources _ _ _ _ _ p1 p2 a m1 b m2 ha2 hb2 ha3 hb3 (by rw [← nw, ← nw']))

theorem flat_sources_target (hd : DotFree m) (hs : DistinctSources m) (hr : resolve m none = .ok r) (hk : HierOk g kids) (hrep : Represents m I g kids)
    (h : flatten I r.p2u (createReverseMap r.p2u) g kids = .ok st) (a b t : Nat) (ha : IsSource I st.graph a) (hb : IsSource I st.graph b) (ht : IsTarget I st.graph t)
    (hta : st.pname I t = st.pname I a) (hn : st.pname I a = st.pname I b) : a = b := by
  rcases flat_sources hd hs hr hk hrep h a b ha hb hn with h' | ⟨ea, _⟩
  · exact h'
  · exfalso
    obtain ⟨path, g1, k1, p1, m1, u1, good1, c1⟩ := flat_var hd hr hk hrep h ha.1 ha.2.1
    obtain ⟨path', g2, k2, p2, m2, u2, good2, c2⟩ := flat_var hd hr hk hrep h ht.1 ht.2.1
    rcases c1 with ⟨e1, n1⟩ | ⟨e1, _⟩
    · rcases c2 with ⟨e2, n2⟩ | ⟨e2, k', w', hw', nw', kr'⟩
      · rcases hrep.autoOnce _ _ _ _ _ _ p2 p1 t m2 a m1 ht.2.1 ha.2.1 e2 e1 (by rw [← n1, ← n2, hta]) with h' | h'
        · subst h'; exact ha.2.2 ht.2.2
        · exact h'.2.1 ht.2.2
      · obtain ⟨f1, f2⟩ := hrep.autoFree _ _ _ p1 a m1 ha.2.1 e1
        exact auto_ne_promoted hd f1 f2 hw' (n1.symm.trans hta.symm)
    · exact e1 ea

theorem flat_bipartite (hk : HierOk g kids) (hb : AllBipartite I g kids) {p2u u2p} (h : flatten I p2u u2p g kids = .ok st) : Bipartite I st.graph := by
  obtain ⟨_, _, h3, _⟩ := flatten_facts hk h
  intro u v he
  obtain ⟨path, g', ks', hp, he, _⟩ := (h3 u v).1 he
  exact hb path g' ks' hp u v he

end

/-- C30: for graphs that stand for a dot-free hierarchy accepted by promotion resolution, automatic merging is the replacement `f` of nodes such that: sources,
operations and automatically named variables stay; a declared variable with the promoted name of a source becomes that source; declared variables of one promoted name without
a source all become one of them; nodes and edges of the merged graph are exactly the images of those of the flat graph; and no two variables
of the merged graph have the same promoted name, except that automatically named variables of two uses of one model object have the same name (see C89).  For every iteration order of the sets. -/
theorem C30_merge_by_name (m : Model) (hd : DotFree m) (hs : DistinctSources m) (r : Res) (hr : resolve m none = .ok r) (I : NHeap) (g : Graph) (kids : Kids)
    (st : FState) (hk : HierOk g kids) (hb : AllBipartite I g kids) (hrep : Represents m I g kids)
    (h : flatten I r.p2u (createReverseMap r.p2u) g kids = .ok st) (order : List Nat → List Nat) (ho : ∀ l x, x ∈ order l ↔ x ∈ l) :
    ∃ f, IsImage st.graph f (mergeAuto I order st) ∧
      (∀ x, ¬ IsTarget I st.graph x → f x = x) ∧
      (∀ x s, IsTarget I st.graph x → IsSource I st.graph s → st.pname I s = st.pname I x → f x = s) ∧
      (∀ x, IsTarget I st.graph x → (∀ s, IsSource I st.graph s → st.pname I s ≠ st.pname I x) →
        IsTarget I st.graph (f x) ∧ st.pname I (f x) = st.pname I x ∧ ∀ y, IsTarget I st.graph y → st.pname I y = st.pname I x → f y = f x) ∧
      (∀ a ∈ (mergeAuto I order st).nodes, ∀ b ∈ (mergeAuto I order st).nodes, (I a).kind = .var → (I b).kind = .var →
        st.pname I a = st.pname I b → a = b ∨ ((I a).name = (I a).auto ∧ (I b).name = (I b).auto ∧ (I a).role ≠ .declared ∧ (I b).role ≠ .declared ∧ ∀ path g' ks', HierAt g kids path g' ks' → a ∈ g'.nodes → b ∉ g'.nodes)) := by
  obtain ⟨f, h1, h2, h3, h4⟩ := mergeAuto_spec ho (flatten_facts hk h).1 (flat_bipartite hk hb h) (flat_sources_target hd hs hr hk hrep h)
  obtain ⟨u1, u2, u3⟩ := uniqueTargets_spec (I := I) (st := st) (tgtNodes I (varNodes I st.graph))
  have h4' : ∀ x, IsTarget I st.graph x → (∀ s, IsSource I st.graph s → st.pname I s ≠ st.pname I x) →
      IsTarget I st.graph (f x) ∧ st.pname I (f x) = st.pname I x ∧ ∀ y, IsTarget I st.graph y → st.pname I y = st.pname I x → f y = f x := by
    intro x hx hno
    obtain ⟨a1, a2, _⟩ := u1 _ _ (h4 x hx hno)
    refine ⟨mem_targets.1 a1, a2, fun y hy hn => ?_⟩
    have := h4 y hy (fun s hs' => by rw [hn]; exact hno s hs')
    rw [hn, h4 x hx hno] at this
    exact (Option.some.inj this).symm
  refine ⟨f, h1, h2, h3, h4', ?_⟩
  -- where nodes of the merged graph come from
  have key : ∀ a ∈ (mergeAuto I order st).nodes, (I a).kind = .var → ∃ x, x ∈ st.graph.nodes ∧ (I x).kind = .var ∧ f x = a ∧ st.pname I x = st.pname I a := by
    intro a ha hka
    obtain ⟨x, hx, rfl⟩ := (h1.nodes a).1 ha
    by_cases ht : IsTarget I st.graph x
    · refine ⟨x, hx, ht.2.1, rfl, ?_⟩
      by_cases hsrc : ∃ s, IsSource I st.graph s ∧ st.pname I s = st.pname I x
      · obtain ⟨s, hs', hn⟩ := hsrc
        rw [h3 x s ht hs' hn, hn]
      · exact (h4' x ht (fun s hs' hn => hsrc ⟨s, hs', hn⟩)).2.1.symm
    · rw [h2 x ht] at hka
      exact ⟨x, hx, hka, rfl, by rw [h2 x ht]⟩
  intro a ha b hb' hka hkb hn
  obtain ⟨x, hx, hkx, rfl, hnx⟩ := key a ha hka
  obtain ⟨y, hy, hky, rfl, hny⟩ := key b hb' hkb
  have hxy : st.pname I x = st.pname I y := by rw [hnx, hny, hn]
  have dich : ∀ z, z ∈ st.graph.nodes → (I z).kind = .var → IsTarget I st.graph z ∨ IsSource I st.graph z := by
    intro z hz hkz
    by_cases hrole : (I z).role = .declared
    · exact Or.inl ⟨hz, hkz, hrole⟩
    · exact Or.inr ⟨hz, hkz, hrole⟩
  have nt : ∀ z, IsSource I st.graph z → ¬ IsTarget I st.graph z := fun z hz ht => hz.2.2 ht.2.2
  rcases dich x hx hkx with tx | sx <;> rcases dich y hy hky with ty | sy
  · by_cases hsrc : ∃ s, IsSource I st.graph s ∧ st.pname I s = st.pname I x
    · obtain ⟨s, hs', hns⟩ := hsrc
      exact Or.inl (by rw [h3 x s tx hs' hns, h3 y s ty hs' (hns.trans hxy)])
    · exact Or.inl ((h4' x tx (fun s hs' hns => hsrc ⟨s, hs', hns⟩)).2.2 y ty hxy.symm).symm
  · exact Or.inl (by rw [h3 x y tx sy hxy.symm, h2 y (nt y sy)])
  · exact Or.inl (by rw [h3 y x ty sx hxy, h2 x (nt x sx)])
  · rw [h2 x (nt x sx), h2 y (nt y sy)]
    exact flat_sources hd hs hr hk hrep h x y sx sy hxy

/-- the hypotheses hold of the example above; the two declared variables `x` are merged into the one of `A`, the one with an explicit value -/
example : ∃ r st, DotFree exFlatModel ∧ DistinctSources exFlatModel ∧ resolve exFlatModel none = .ok r ∧ HierOk exFlatGraph exFlatKids ∧
    AllBipartite exFlatHeap exFlatGraph exFlatKids ∧ Represents exFlatModel exFlatHeap exFlatGraph exFlatKids ∧
    flatten exFlatHeap r.p2u (createReverseMap r.p2u) exFlatGraph exFlatKids = .ok st ∧ (mergeAuto exFlatHeap id st).nodes = [1, 2, 4, 5, 6, 7, 8] := by
  obtain ⟨r, hr, h⟩ := ok_of_check (x := resolve exFlatModel none) (P := fun r =>
    okCheck (flatten exFlatHeap r.p2u (createReverseMap r.p2u) exFlatGraph exFlatKids) fun st =>
      decide ((mergeAuto exFlatHeap id st).nodes = [1, 2, 4, 5, 6, 7, 8])) (by decide)
  obtain ⟨st, hst, h⟩ := ok_of_check h
  obtain ⟨h1, h2, h3, h4, _, h5⟩ := exFlat_ok
  exact ⟨r, st, h3, h4, hr, h1, h2, h5, hst, of_decide_eq_true h⟩

/-! ### C31 -/

theorem count_dotfree {s : Name} (h : '.' ∉ s) : s.count '.' = 0 := List.count_eq_zero.2 h

theorem dots_joinDot {qs : List Name} (h : ∀ s ∈ qs, GoodName s) : dots (joinDot qs) = qs.length - 1 := by
  induction qs with
  | nil => rfl
  | cons a qs ih =>
    cases qs with
    | nil => simp only [joinDot, List.length_singleton]; exact count_dotfree (h a (by simp)).2
    | cons b qs =>
      have := ih (fun s hs => h s (by simp [hs]))
      unfold dots at this ⊢
      simp only [joinDot] at this ⊢
      rw [List.count_append, List.count_cons, this, count_dotfree (h a (by simp)).2]
      simp

theorem descend_eq_joinDot {qs : List Name} (h : ∀ s ∈ qs, GoodName s) : ∀ {pre : List Name}, (∀ s ∈ pre, GoodName s) → descend (joinDot pre) qs = joinDot (pre ++ qs) := by
  induction qs with
  | nil => intro pre _; simp [descend]
  | cons a qs ih =>
    intro pre hp
    have hp' : ∀ s ∈ pre ++ [a], GoodName s := by
      intro s hs
      rcases List.mem_append.1 hs with hs | hs
      · exact hp s hs
      · exact h s (by simp at hs; simp [hs])
    have hj : prependNamespace (joinDot pre) a = joinDot (pre ++ [a]) := by
      rw [prepend_joinDot hp]
      clear ih hp'
      induction pre with
      | nil => simp [fullName, joinDot]
      | cons b pre ihp =>
        have hb := hp b (by simp)
        have := ihp (fun s hs => hp s (by simp [hs]))
        unfold fullName at this ⊢
        rw [List.foldr_cons, this]
        unfold prependNamespace
        rw [if_neg hb.1]
        cases pre with
        | nil => simp [joinDot]
        | cons c pre => simp [joinDot]
    simp only [descend]
    rw [hj, ih (fun s hs => h s (by simp [hs])) hp', List.append_assoc]
    rfl

/-- the number of dots in the namespace of a model at depth `n` is `n - 1` -/
theorem dots_descend {path : List Name} (h : ∀ s ∈ path, GoodName s) : dots (descend [] path) = path.length - 1 := by
  have := descend_eq_joinDot h (pre := []) (by simp)
  rw [show descend [] path = joinDot path from this]
  exact dots_joinDot h

/-- C31 as stated is false of the code: the distance from the main model is measured by the number of dots in the namespace, which is 0 for the main model and
for its direct submodels.  Main declares `x` without a value and its submodel `A` (all promoted) declares `x` with a value: the node
kept is that of `A` (4), not that of main (0). -/
theorem C31_submodel_wins : ∃ r st, resolve exFlatModel none = .ok r ∧ flatten exFlatHeap r.p2u (createReverseMap r.p2u) exFlatGraph exFlatKids = .ok st ∧
    HierAt exFlatGraph exFlatKids [] exFlatGraph exFlatKids ∧ 0 ∈ exFlatGraph.nodes ∧ IsTarget exFlatHeap st.graph 0 ∧ st.pname exFlatHeap 0 = st.pname exFlatHeap 4 ∧
    4 ∉ exFlatGraph.nodes ∧ 4 ∈ exFlatKids.allNodes ∧
    0 ∉ (mergeAuto exFlatHeap id st).nodes ∧ 4 ∈ (mergeAuto exFlatHeap id st).nodes := by
  obtain ⟨r, hr, h⟩ := ok_of_check (x := resolve exFlatModel none) (P := fun r =>
    okCheck (flatten exFlatHeap r.p2u (createReverseMap r.p2u) exFlatGraph exFlatKids) fun st =>
      decide (0 ∈ st.graph.nodes ∧ st.pname exFlatHeap 0 = st.pname exFlatHeap 4 ∧ 0 ∉ (mergeAuto exFlatHeap id st).nodes ∧ 4 ∈ (mergeAuto exFlatHeap id st).nodes)) (by decide)
  obtain ⟨st, hst, h⟩ := ok_of_check h
  obtain ⟨h1, h2, h3, h4⟩ := of_decide_eq_true h
  exact ⟨r, st, hr, hst, Or.inl ⟨rfl, rfl, rfl⟩, by decide, ⟨h1, rfl, rfl⟩, h2, by decide, by decide, h3, h4⟩

theorem Kids.At.ne_nil {kids : Kids} {path : List Name} {g : Graph} {ks : Kids} (h : kids.At path g ks) : path ≠ [] := by
  induction h with
  | head => simp
  | inside _ _ => simp
  | next _ ih => exact ih

/-- the targets of main are before those of the submodels -/
theorem flatten_first {I : NHeap} {p2u : Dict Name (List Name)} {u2p : Dict Name Name} {g : Graph} {kids : Kids} {st : FState} (hk : HierOk g kids) (h : flatten I p2u u2p g kids = .ok st)
    {l1 l2 : List Nat} {r t : Nat} (hl : tgtNodes I (varNodes I st.graph) = l1 ++ r :: l2) (htg : t ∈ g.nodes) (ht : t ∈ tgtNodes I (varNodes I st.graph)) (htl : t ∉ l1) : r ∈ g.nodes := by
  have htk : t ∉ kids.ids := by
    obtain ⟨path, g', ks', ⟨_, rfl, rfl⟩ | hp, h1, h2⟩ := ((flatten_facts hk h).2.1 t).1 (mem_targets.1 ht).1
    · exact h2
    · exact absurd (hp.sub _ h1) (hk.disj _ htg)
  obtain ⟨B, hB⟩ := mergeKids_prefix kids (A := (g.removeNodes kids.ids).nodes) hk.kids (List.prefix_refl _)
    (fun a ha => hk.disj a (Graph.mem_nodes_removeNodes.1 ha).1) h
  have e : tgtNodes I (varNodes I st.graph) = tgtNodes I (varNodes I (g.removeNodes kids.ids)) ++ tgtNodes I (B.filter fun v => (I v).kind = .var) := by
    simp only [tgtNodes, varNodes, ← hB, List.filter_append]
  have htA : t ∈ tgtNodes I (varNodes I (g.removeNodes kids.ids)) :=
    mem_targets.2 ⟨Graph.mem_nodes_removeNodes.2 ⟨htg, htk⟩, (mem_targets.1 ht).2⟩
  have hA : ∀ a ∈ tgtNodes I (varNodes I (g.removeNodes kids.ids)), a ∈ g.nodes := fun a ha => (Graph.mem_nodes_removeNodes.1 (mem_targets.1 ha).1).1
  rw [e] at hl
  rcases List.append_eq_append_iff.1 hl with ⟨a, ha, _⟩ | ⟨c, hc, hr⟩
  · exact absurd (ha ▸ List.mem_append_left _ htA) htl
  · cases c with
    | nil => rw [List.append_nil] at hc; exact absurd (hc ▸ htA) htl
    | cons d c =>
      rw [List.cons_append, List.cons.injEq] at hr
      exact hA r (by rw [hc, hr.1]; simp)

/-- C31 (partial: main and its direct submodels count as equally close): let `x` be a declared variable whose promoted name has no source.  The variable kept, `f x`, is declared in
a model at depth `d`; every declared variable of the same promoted name, at depth `d'`, satisfies `max d 1 ≤ max d' 1`; and if some variable with
`max d 1 = max d' 1` has an explicit value, then so does the one kept.  If there is such a variable in main, then the one kept is in main or has an explicit value.  For every order of nodes and sets.
Missing: main before its direct submodels, if one of these gives an explicit value. -/
theorem C31_closest_partial (m : Model) (hd : DotFree m) (hs : DistinctSources m) (r : Res) (hr : resolve m none = .ok r) (I : NHeap) (g : Graph) (kids : Kids)
    (st : FState) (hk : HierOk g kids) (hb : AllBipartite I g kids) (hrep : Represents m I g kids)
    (h : flatten I r.p2u (createReverseMap r.p2u) g kids = .ok st) (order : List Nat → List Nat) (ho : ∀ l x, x ∈ order l ↔ x ∈ l) :
    ∃ f, IsImage st.graph f (mergeAuto I order st) ∧
      ∀ x, IsTarget I st.graph x → (∀ s, IsSource I st.graph s → st.pname I s ≠ st.pname I x) →
        f x ∈ (mergeAuto I order st).nodes ∧ IsTarget I st.graph (f x) ∧ st.pname I (f x) = st.pname I x ∧
        ∃ path g' ks', HierAt g kids path g' ks' ∧ f x ∈ g'.nodes ∧
          ∀ path' g'' ks'', HierAt g kids path' g'' ks'' → ∀ t ∈ g''.nodes, IsTarget I st.graph t → st.pname I t = st.pname I x →
            max path.length 1 ≤ max path'.length 1 ∧
            (max path'.length 1 = max path.length 1 → (I t).explicit = true → (I (f x)).explicit = true) ∧
            (path' = [] → path = [] ∨ (I (f x)).explicit = true) := by
  obtain ⟨f, h1, h2, h3, h4⟩ := mergeAuto_spec ho (flatten_facts hk h).1 (flat_bipartite hk hb h) (flat_sources_target hd hs hr hk hrep h)
  obtain ⟨u1, u2, u3⟩ := uniqueTargets_spec (I := I) (st := st) (tgtNodes I (varNodes I st.graph))
  refine ⟨f, h1, fun x hx hno => ?_⟩
  obtain ⟨a1, a2, a3, a4⟩ := u1 _ _ (h4 x hx hno)
  have hft := mem_targets.1 a1
  refine ⟨(h1.nodes _).2 ⟨x, hx.1, rfl⟩, hft, a2, ?_⟩
  obtain ⟨path, g', ks', hp, hm, hu, hg, _⟩ := flat_var hd hr hk hrep h hft.1 hft.2.1
  refine ⟨path, g', ks', hp, hm, fun path' g'' ks'' hp' t htm ht hn => ?_⟩
  obtain ⟨m', hm'⟩ := hrep.paths _ _ _ hp'
  have hu' := ((flatten_facts hk h).2.2.2 path' g'' ks'' hp' t htm ht.2.1).1
  have b1 := a3 t (mem_targets.2 ht) hn
  rw [hu, hu', dots_descend hg, dots_descend (at_good' hd hm')] at b1
  refine ⟨by omega, fun he hx' => a4 ⟨t, mem_targets.2 ht, hn, ?_, hx'⟩, fun he => ?_⟩
  · rw [hu, hu', dots_descend hg, dots_descend (at_good' hd hm')]
    omega
  · subst he
    rcases hp' with ⟨_, rfl, rfl⟩ | hp'
    · rcases uniqueTargets_first _ _ _ (h4 x hx hno) with hex | ⟨l1, l2, hl, hlt⟩
      · exact Or.inr hex
      · have hfm : f x ∈ g''.nodes := flatten_first hk h hl htm (mem_targets.2 ht) fun ht1 => by
          have b2 := hlt t ht1 hn
          rw [hu, hu', dots_descend hg, dots_descend (at_good' hd hm')] at b2
          simp at b2
        rcases hp with ⟨rfl, _⟩ | hp
        · exact Or.inl rfl
        · exact absurd (hp.sub _ hm) (hk.disj _ hfm)
    · exact absurd rfl hp'.ne_nil

end Csdl
