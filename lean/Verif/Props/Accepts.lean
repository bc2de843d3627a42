import Verif.Props.Implicit
import Verif.Props.CustomOp
import Verif.Props.Indexing
/-!
# C32, C35, C54: well-formed calls are accepted

The other theorems about these properties say what an accepted call means.  Those of this file say that well-formed calls are accepted.
-/
namespace Csdl

theorem Dict.mem_set' {K V : Type} [DecidableEq K] {d : Dict K V} {k : K} {v : V} {e : K × V} (h : e ∈ d.set k v) : e ∈ d ∨ e = (k, v) := by
  induction d with
  | nil => simp [Dict.set] at h; exact Or.inr h
  | cons a d ih =>
    unfold Dict.set at h
    split at h
    · rename_i hk
      rcases List.mem_cons.1 h with h | h
      · exact Or.inr (by rw [h, hk])
      · exact Or.inl (List.mem_cons_of_mem _ h)
    · rcases List.mem_cons.1 h with h | h
      · exact Or.inl (h ▸ List.mem_cons_self)
      · exact (ih h).imp (List.mem_cons_of_mem _) id

/-! ### C32 -/

theorem mergeConnectionList_accepts {I : NHeap} {d : NodeMaps} (cs : List (Name × Name × Name)) : ∀ (L : List (Nat × Nat)) (g : Graph) (done : Dict Nat Nat),
    List.Forall₂ (fun (c : Name × Name × Name) (e : Nat × Nat) => findNode d (prependNamespace c.2.2 c.1) = .ok e.1 ∧ findNode d (prependNamespace c.2.2 c.2.1) = .ok e.2) cs L →
    (L.map (·.2)).Nodup → (∀ e ∈ L, (I e.1).role ≠ .declared ∧ (I e.1).shape.size = (I e.2).shape.size) →
    (∀ e ∈ L, ∀ u, ¬ g.Edge u e.2) → (∀ e ∈ L, e.1 ∈ g.nodes) → NoReuse L → (∀ e ∈ L, done.has e.2 = false) →
    ∃ r, mergeConnectionList I d cs (g, done) = .ok r := by
  induction cs with
  | nil => intro L g done _ _ _ _ _ _ _; exact ⟨_, rfl⟩
  | cons c cs ih =>
    intro L g done h hn hr he hs hno hd
    cases h with
    | @cons _ e _ L h1 h2 =>
      have e0 : e ∈ e :: L := List.mem_cons_self
      rw [List.map_cons, List.nodup_cons] at hn
      have hno2 := hno.2
      rw [List.pairwise_cons] at hno2
      have hmem : ∀ x, x ∈ g.nodes → x ≠ e.2 → x ∈ (g.contract e.1 e.2).nodes := by
        intro x hx hne
        unfold Graph.contract
        dsimp only
        rw [Graph.mem_nodes_addEdges, Graph.mem_nodes_removeNode]
        exact Or.inl ⟨hx, hne⟩
      have hstep : mergeConnection I d (g, done) c = .ok (g.contract e.1 e.2, done.set e.2 e.1) := by
        unfold mergeConnection
        rw [h1.1]; dsimp only
        rw [h1.2]; dsimp only
        have hc : checkConnection I g done e.1 e.2 = .ok () := by
          unfold checkConnection
          rw [if_neg (by rw [hd e e0]; simp), if_neg (hr e e0).1, if_neg (by rw [not_not, inDegree_zero]; exact he e e0), if_neg (by intro h; exact h.2 (hr e e0).2)]
        rw [hc]; dsimp only
        unfold nxContract
        rw [if_pos (hmem _ (hs e e0) (hno.1 e e0))]
      obtain ⟨r, hr'⟩ := ih L (g.contract e.1 e.2) (done.set e.2 e.1) h2 hn.2 (fun e' he' => hr e' (List.mem_cons_of_mem _ he'))
        (by
          intro e' he' u hu
          rw [Graph.edge_contract] at hu
          rcases hu with ⟨h, _⟩ | ⟨h, _, _, _⟩ | ⟨h, _, _, _⟩
          · exact he e' (List.mem_cons_of_mem _ he') _ h
          all_goals first | exact he e e0 _ h | exact he e' (List.mem_cons_of_mem _ he') _ h)
        (fun e' he' => hmem _ (hs e' (List.mem_cons_of_mem _ he')) (hno2.1 e' he'))
        ⟨fun e' he' => hno.1 e' (List.mem_cons_of_mem _ he'), hno2.2⟩
        (by
          intro e' he'
          rw [Bool.eq_false_iff]
          intro hc
          rw [Dict.has_iff, Dict.keys_set] at hc
          rcases hc with hc | hc
          · have := hd e' (List.mem_cons_of_mem _ he')
            rw [Bool.eq_false_iff] at this
            exact this (Dict.has_iff.2 hc)
          · exact hn.1 (List.mem_map.2 ⟨e', he', hc⟩))
      exact ⟨r, by unfold mergeConnectionList; rw [hstep]; exact hr'⟩

/-- **C32, accepted connections.** If the names of all connections are found (`L` lists the source and target nodes), every target occurs once and is computed by no operation, the sources are inputs or outputs, sizes agree, and
no variable is used as a source after it was a target, then the connections are accepted. -/
theorem C32_accepts (I : NHeap) (st : FState) (p2u : Dict Name (List Name)) (u2p : Dict Name Name) (g : Graph) (cs : List (Name × Name × Name)) (d : NodeMaps) (L : List (Nat × Nat))
    (hi : indexNodes I st p2u u2p g g.nodes {} = .ok d)
    (hL : List.Forall₂ (fun (c : Name × Name × Name) (e : Nat × Nat) => findNode d (prependNamespace c.2.2 c.1) = .ok e.1 ∧ findNode d (prependNamespace c.2.2 c.2.1) = .ok e.2) cs L)
    (hn : (L.map (·.2)).Nodup) (hr : ∀ e ∈ L, (I e.1).role ≠ .declared ∧ (I e.1).shape.size = (I e.2).shape.size) (he : ∀ e ∈ L, ∀ u, ¬ g.Edge u e.2) (hno : NoReuse L) :
    ∃ x, mergeConnections I st p2u u2p g cs = .ok x := by
  obtain ⟨hd, _⟩ := indexNodes_ok g.nodes (fun _ h => h) ⟨by simp [Dict.get?], by simp [Dict.get?]⟩ hi
  obtain ⟨r, h⟩ := mergeConnectionList_accepts (I := I) (d := d) cs L g [] hL hn hr he (by
    intro e hm
    obtain ⟨c, _, hc⟩ := forall₂_mem_right hL hm
    exact (findNode_ok hd hc.1).1) hno (by intro e _; rfl)
  exact ⟨_, by unfold mergeConnections; rw [hi]; dsimp only; rw [h]⟩

def exConnP2u : Dict Name (List Name) := ["a".toList, "b".toList, "c".toList, "y".toList, "z".toList, "w".toList].map fun x => (x, [x])

/-- the hypotheses are met by the connection of `y` to `c` -/
example : ∃ d, indexNodes exConnHeap ⟨exConnGraph, fun _ => [], fun _ => []⟩ exConnP2u (createReverseMap exConnP2u) exConnGraph exConnGraph.nodes {} = .ok d ∧
    findNode d (prependNamespace [] "y".toList) = .ok 2 ∧ findNode d (prependNamespace [] "c".toList) = .ok 6 ∧
    (exConnHeap 2).role ≠ .declared ∧ (exConnHeap 2).shape.size = (exConnHeap 6).shape.size ∧ (∀ u, ¬ exConnGraph.Edge u 6) ∧ NoReuse [(2, 6)] := by
  obtain ⟨d, hd, h⟩ := ok_of_check (x := indexNodes exConnHeap ⟨exConnGraph, fun _ => [], fun _ => []⟩ exConnP2u (createReverseMap exConnP2u) exConnGraph exConnGraph.nodes {}) (P := fun d =>
    decide (findNode d (prependNamespace [] "y".toList) = .ok 2 ∧ findNode d (prependNamespace [] "c".toList) = .ok 6)) (by decide)
  obtain ⟨h1, h2⟩ := of_decide_eq_true h
  refine ⟨d, hd, h1, h2, by decide, by decide, ?_, by decide, by simp⟩
  intro u hu
  simp [Graph.Edge, exConnGraph] at hu

/-! ### C54 -/

namespace Custom
variable {V D : Type} [Mul V] [One V]

/-- **C54, accepted calls.** If `define` does not raise and the arguments are, in order, the declared inputs with their names and shapes, `custom` returns one output per declared output. -/
theorem C54_accepts (limit : Nat) (o : Op D) (cs : List (CCall V D)) (args outs : List (Name × Shape)) (h : loopErr (step limit) {} cs = (o, none))
    (hi : o.inputs = args.map fun a => (a.1, some a.2)) (ho : o.outputs = outs.map fun e => (e.1, some e.2)) : (custom limit {} cs args).2 = .ok outs := by
  have hn : o.inputs.keys.Nodup := by rw [← loopErr_run cs h]; exact (C38_declared_once_partial limit cs).1
  have hm : ∀ (l : List (Name × Shape)) (o1 : Op D), (∀ a ∈ l, o1.inputs.get? a.1 = some (some a.2)) →
      matchArgs o1 (l.zip (l.map (·.1))) = ({ o1 with deps := o1.deps ++ l }, none) := by
    intro l
    induction l with
    | nil => intro o1 _; simp [matchArgs]
    | cons a l ih =>
      intro o1 hl
      rw [List.map_cons, List.zip_cons_cons, matchArgs, if_neg (by simp), hl a (by simp)]
      dsimp only
      rw [if_neg (by simp)]
      have := ih { o1 with deps := o1.deps ++ [a] } (fun b hb => hl b (List.mem_cons_of_mem _ hb))
      rw [this]
      simp
  have hout : ∀ l : List (Name × Shape), makeOuts (l.map fun e => (e.1, some e.2)) = some l := by
    intro l
    induction l with
    | nil => rfl
    | cons a l ih => rw [List.map_cons, makeOuts, ih]; rfl
  unfold custom
  rw [h]; dsimp only
  have hkeys : o.inputs.map (·.1) = args.map (·.1) := by rw [hi, List.map_map]; rfl
  rw [if_neg (by rw [hi]; simp), hkeys, hm args o (by
    intro a ha
    exact Dict.mem_get? hn (by rw [hi]; exact List.mem_map.2 ⟨a, ha, rfl⟩))]
  dsimp only
  rw [ho, hout]

/-- the hypotheses are met by the example of `Props/CustomOp.lean` -/
example : (loopErr (step 1000) ({} : Op Nat) exCustom).2.isNone = true ∧
    (loopErr (step 1000) ({} : Op Nat) exCustom).1.inputs = [("a".toList, [1]), ("b".toList, [2, 3])].map (fun a => (a.1, some a.2)) ∧
    (loopErr (step 1000) ({} : Op Nat) exCustom).1.outputs = [("x".toList, [3])].map (fun a => (a.1, some a.2)) := ⟨rfl, rfl, rfl⟩

end Custom

/-! ### C35 -/

theorem nameMap_unique {h : Heap} {l : List Nat} (hd : ∀ v ∈ l, ∀ w ∈ l, (h v).name = (h w).name → v = w) {v : Nat} (hv : v ∈ l) : (nameMap h l).get? (h v).name = some v := by
  have hk : (h v).name ∈ (nameMap h l).keys := by
    unfold nameMap
    rw [Dict.keys_ofPairs]
    exact List.mem_map.2 ⟨_, List.mem_map.2 ⟨v, hv, rfl⟩, rfl⟩
  obtain ⟨w, hw⟩ := Dict.mem_keys_get? hk
  obtain ⟨h1, h2⟩ := nameMap_some hw
  rw [hw, hd w h1 v hv h2]

/-- What an implicit operation needs: the residual model has no inputs; its declared variables have distinct names, and so have its outputs; arguments are distinct declared variables, with their shapes; states and residuals are
distinct, each state is a declared variable, each residual an output of the same shape that depends on its state; a value given for a state is a number or an array of its shape; exposed names are names of outputs. -/
structure WellFormedImplicit (M : IModel) (n : Nat) (cs : List (Name × Name × StateVal)) (args : List (Name × Shape)) (expose : List Name) : Prop where
  noInputs : M.inputs = []
  declaredOk : ∀ v ∈ M.declared, ∀ w ∈ M.declared, (M.h v).name = (M.h w).name → v = w
  outputsOk : ∀ v ∈ M.outputs, ∀ w ∈ M.outputs, (M.h v).name = (M.h w).name → v = w
  argsOk : ∀ a ∈ args, ∃ v ∈ M.declared, (M.h v).name = a.1 ∧ M.shape v = a.2
  argsDistinct : (args.map (·.1)).Nodup
  statesDistinct : (cs.map (·.1)).Nodup
  residualsDistinct : (cs.map (·.2.1)).Nodup
  finite : FiniteVars M.h n
  bound : ∀ r ∈ M.outputs, r < n ∧ OwnName M.h r
  statesOk : ∀ c ∈ cs, ∃ ro ∈ M.outputs, ∃ so ∈ M.declared, (M.h ro).name = c.2.1 ∧ (M.h so).name = c.1 ∧ M.shape ro = M.shape so ∧
    (c.2.2 = .number ∨ c.2.2 = .array (M.shape so)) ∧ DependsVar M.h ro so ∧ Terminal M.h so
  exposeOk : ∀ e ∈ expose, ∃ v ∈ M.outputs, (M.h v).name = e

variable {M : IModel}

theorem checkNames_accepts {d : Dict Name Nat} {e : ImpErr} (l : List Name) (h : ∀ x ∈ l, d.has x = true) : checkNames d e l = .ok () := by
  induction l with
  | nil => rfl
  | cons x l ih => rw [checkNames, if_pos (h x (by simp))]; exact ih fun y hy => h y (List.mem_cons_of_mem _ hy)

theorem nameMap_hasName {h : Heap} {l : List Nat} (hd : ∀ v ∈ l, ∀ w ∈ l, (h v).name = (h w).name → v = w) {v : Nat} (hv : v ∈ l) : (nameMap h l).has (h v).name = true := by
  rw [Dict.has_iff]; exact Dict.get?_mem_keys (nameMap_unique hd hv)

theorem checkArgs_accepts (hd : ∀ v ∈ M.declared, ∀ w ∈ M.declared, (M.h v).name = (M.h w).name → v = w) (args : List (Name × Shape))
    (h : ∀ a ∈ args, ∃ v ∈ M.declared, (M.h v).name = a.1 ∧ M.shape v = a.2) : checkArgs M args = .ok () := by
  induction args with
  | nil => rfl
  | cons a args ih =>
    obtain ⟨v, hv, e1, e2⟩ := h a (by simp)
    have := nameMap_unique hd hv
    rw [e1] at this
    rw [checkArgs, this]
    dsimp only
    rw [if_neg (by simp [e2])]
    exact ih fun b hb => h b (List.mem_cons_of_mem _ hb)

/-- The outcome of pairing: the residual of each state. -/
theorem pairUp_accepts {n : Nat} {args : List (Name × Shape)} {expose : List Name} {cs0 : List (Name × Name × StateVal)} (w : WellFormedImplicit M n cs0 args expose) (cs : List (Name × Name × StateVal)) :
    ∀ (m : Dict Name Nat × Dict Name Nat), (∀ c ∈ cs, c ∈ cs0) → ∃ m', pairUp M (cs.map fun c => (c.1, c.2.1)) m = .ok m' ∧
      ∀ e ∈ m'.1, e ∈ m.1 ∨ ∃ c ∈ cs, e.1 = c.1 ∧ e.2 ∈ M.outputs ∧ (M.h e.2).name = c.2.1 := by
  induction cs with
  | nil => intro m _; exact ⟨m, rfl, fun e he => Or.inl he⟩
  | cons c cs ih =>
    intro m hm
    obtain ⟨ro, h1, so, h2, e1, e2, e3, _⟩ := w.statesOk c (hm c (by simp))
    have a1 := nameMap_unique w.outputsOk h1
    have a2 := nameMap_unique w.declaredOk h2
    rw [e1] at a1
    rw [e2] at a2
    obtain ⟨m', h3, h4⟩ := ih (m.1.set c.1 ro, m.2.set c.2.1 so) fun c hc => hm c (List.mem_cons_of_mem _ hc)
    refine ⟨m', ?_, ?_⟩
    · rw [List.map_cons, pairUp]
      simp only [a1, a2]
      rw [if_neg (by simp [e3])]
      exact h3
    · intro e he
      rcases h4 e he with h | ⟨c', hc', h⟩
      · rcases Dict.mem_set' h with h | h
        · exact Or.inl h
        · subst h; exact Or.inr ⟨c, by simp, rfl, h1, e1⟩
      · exact Or.inr ⟨c', List.mem_cons_of_mem _ hc', h⟩

theorem inMap_accepts {fuel : Nat} {keep : List Name} {b : Bool} (l : List (Name × Nat))
    (h : ∀ e ∈ l, ∃ ts, terminalsOf M fuel e.2 = some ts ∧ (b = true → e.1 ∈ ts.map fun v => (M.h v).name)) : ∃ d, inMap M fuel keep b l = .ok d := by
  induction l with
  | nil => exact ⟨_, rfl⟩
  | cons e l ih =>
    obtain ⟨s, r⟩ := e
    obtain ⟨ts, h1, h2⟩ := h (s, r) (by simp)
    obtain ⟨d, hd⟩ := ih fun e he => h e (List.mem_cons_of_mem _ he)
    dsimp only at h1 h2
    rw [inMap, h1]
    dsimp only
    rw [if_neg (fun hc => hc.2 (h2 hc.1)), hd]
    exact ⟨_, rfl⟩

theorem registerNew_accepts (os : List (Name × Shape)) : ∀ used : List Name, (os.map (·.1)).Nodup → (∀ o ∈ os, checkBannedChars o.1 = true ∧ o.1 ∉ used) → registerNew used os = .ok () := by
  induction os with
  | nil => intro _ _ _; rfl
  | cons o os ih =>
    intro used hn h
    rw [List.map_cons, List.nodup_cons] at hn
    obtain ⟨h1, h2⟩ := h o (by simp)
    rw [registerNew, if_neg (by rintro (hc | hc); exact absurd (h1.symm.trans hc) (by simp); exact h2 hc)]
    refine ih _ hn.2 fun o' ho' => ⟨(h o' (List.mem_cons_of_mem _ ho')).1, ?_⟩
    intro hc
    rcases List.mem_cons.1 hc with hc | hc
    · exact hn.1 (hc ▸ List.mem_map.2 ⟨o', ho', rfl⟩)
    · exact (h o' (List.mem_cons_of_mem _ ho')).2 hc

theorem stateOuts_accepts {n : Nat} {args : List (Name × Shape)} {expose : List Name} {cs0 : List (Name × Name × StateVal)} (w : WellFormedImplicit M n cs0 args expose) (cs : List (Name × Name × StateVal))
    (hc : ∀ c ∈ cs, c ∈ cs0) : ∃ so, stateOuts M (cs.map fun c => (c.1, c.2.2)) = .ok so := by
  induction cs with
  | nil => exact ⟨_, rfl⟩
  | cons c cs ih =>
    obtain ⟨so, hso⟩ := ih fun c h => hc c (List.mem_cons_of_mem _ h)
    obtain ⟨ro, h1, v, h2, e1, e2, e3, e4, _⟩ := w.statesOk c (hc c (by simp))
    have hmem : v ∈ M.declared.filter (fun x => (M.h x).name = c.1) := List.mem_filter.2 ⟨h2, by simp [e2]⟩
    rw [List.map_cons, stateOuts]
    cases hf : M.declared.filter (fun x => (M.h x).name = c.1) with
    | nil => rw [hf] at hmem; cases hmem
    | cons x xs =>
      have hx : x ∈ M.declared.filter (fun x => (M.h x).name = c.1) := by rw [hf]; simp
      rw [List.mem_filter] at hx
      have : x = v := w.declaredOk x hx.1 v h2 (by rw [e2]; simpa using hx.2)
      subst this
      have hs : ∃ sh, stateShape (M.shape x) c.2.2 = .ok sh := by
        rcases e4 with e | e
        · rw [e]; exact ⟨_, rfl⟩
        · rw [e]
          unfold stateShape
          by_cases h : M.shape x = [1]
          · simp [h]
          · simp [h]
      obtain ⟨sh, hs⟩ := hs
      simp only [hs, hso]
      exact ⟨_, rfl⟩

/-- **C35, accepted operations.** A well-formed implicit operation is accepted, if the names of the states and of the exposed outputs are admissible, pairwise different and not yet in use in the calling model. -/
theorem C35_accepts (M : IModel) (n fuel : Nat) (used : List Name) (cs : List (Name × Name × StateVal)) (args : List (Name × Shape)) (expose : List Name) (w : WellFormedImplicit M n cs args expose) (hf : n < fuel)
    (hnd : M.outputs.Nodup) (hban : ∀ x, x ∈ cs.map (·.1) ∨ x ∈ expose → checkBannedChars x = true ∧ x ∉ used) (hdis : ∀ x ∈ cs.map (·.1), x ∉ expose) :
    ∃ maps outs, implicitCall M fuel used (Factory.declareAll cs) args expose = .ok (maps, outs) := by
  have hfold := foldl_declareState cs {}
  have hpairs : Dict.ofPairs (cs.map fun c => (c.1, c.2.2)) = cs.map fun c => (c.1, c.2.2) := by
    apply Dict.ofPairs_eq
    rw [List.map_map]
    exact w.statesDistinct
  have ef : Factory.declareAll cs = ⟨cs.map (·.2.1), cs.map fun c => (c.1, c.2.2)⟩ := by
    unfold Factory.declareAll; rw [hfold]; unfold Dict.ofPairs at hpairs; simp only [List.nil_append]; rw [hpairs]
  have e1 : (cs.map fun c => (c.1, c.2.2)).map (·.1) = cs.map (·.1) := by rw [List.map_map]; rfl
  have hz : (cs.map (·.1)).zip (cs.map (·.2.1)) = cs.map fun c => (c.1, c.2.1) := by
    rw [List.zip_map']
  have term : ∀ r ∈ M.outputs, ∃ ts, terminalsOf M fuel r = some ts ∧ ∀ t, t ∈ ts ↔ DependsVar M.h r t ∧ Terminal M.h t := by
    intro r hr
    obtain ⟨b1, b2⟩ := w.bound r hr
    obtain ⟨T, V, e, hT⟩ := terminals_exact w.finite b1 b2 hf
    exact ⟨T, by unfold terminalsOf; rw [e]; rfl, hT⟩
  obtain ⟨m, hm, hm2⟩ := pairUp_accepts w cs ([], []) (fun _ h => h)
  obtain ⟨outIn, ho⟩ := inMap_accepts (M := M) (fuel := fuel) (keep := args.map (·.1) ++ cs.map (·.1)) (b := true) m.1 (by
    intro e he
    rcases hm2 e he with h | ⟨c, hc, h1, h2, h3⟩
    · cases h
    · obtain ⟨ts, t1, t2⟩ := term e.2 h2
      refine ⟨ts, t1, fun _ => ?_⟩
      obtain ⟨ro, g1, so, g2, g3, g4, _, _, g5, g6⟩ := w.statesOk c hc
      have : e.2 = ro := w.outputsOk _ h2 _ g1 (by rw [h3, g3])
      rw [h1, ← g4]
      exact List.mem_map.2 ⟨so, (t2 so).2 ⟨this ▸ g5, g6⟩, rfl⟩)
  obtain ⟨expIn, hx⟩ := inMap_accepts (M := M) (fuel := fuel) (keep := args.map (·.1) ++ cs.map (·.1)) (b := false)
    (expose.filterMap fun e => ((nameMap M.h M.outputs).get? e).map fun r => (e, r)) (by
    intro e he
    obtain ⟨x, _, hx⟩ := List.mem_filterMap.1 he
    cases hg : (nameMap M.h M.outputs).get? x with
    | none => rw [hg] at hx; cases hx
    | some r =>
      rw [hg] at hx; cases hx
      obtain ⟨ts, t1, _⟩ := term r (nameMap_some hg).1
      exact ⟨ts, t1, by simp⟩)
  have hgen : ∃ maps, genMaps M fuel args (cs.map (·.1)) (cs.map (·.2.1)) expose = .ok maps := by
    unfold genMaps
    rw [if_neg (by simp [w.noInputs]), if_neg (by simp [w.argsDistinct]), if_neg (by simp [w.statesDistinct]), if_neg (by simp [w.residualsDistinct]), if_neg (by simp),
      checkArgs_accepts w.declaredOk args w.argsOk, checkNames_accepts _ (fun x hx => by
        obtain ⟨c, hc, rfl⟩ := List.mem_map.1 hx
        obtain ⟨ro, g1, so, g2, g3, g4, _⟩ := w.statesOk c hc
        rw [← g4]; exact nameMap_hasName w.declaredOk g2),
      checkNames_accepts _ (fun x hx => by
        obtain ⟨c, hc, rfl⟩ := List.mem_map.1 hx
        obtain ⟨ro, g1, so, g2, g3, g4, _⟩ := w.statesOk c hc
        rw [← g3]; exact nameMap_hasName w.outputsOk g1),
      checkNames_accepts _ (fun x hx => by
        obtain ⟨v, g1, rfl⟩ := w.exposeOk x hx
        exact nameMap_hasName w.outputsOk g1), hz]
    simp only [ok_bind, hm, ho, hx]
    exact ⟨_, rfl⟩
  obtain ⟨maps, hgen⟩ := hgen
  obtain ⟨so, hso⟩ := stateOuts_accepts w cs (fun _ h => h)
  have hnames : (so ++ exposedOuts M expose).map (·.1) = cs.map (·.1) ++ (M.outputs.filter fun x => (M.h x).name ∈ expose).map fun x => (M.h x).name := by
    rw [List.map_append, (stateOuts_ok _ hso).1, e1, exposedOuts, List.map_map]; rfl
  have hexp : ∀ x ∈ (M.outputs.filter fun x => (M.h x).name ∈ expose).map fun x => (M.h x).name, x ∈ expose := by
    intro x hx
    obtain ⟨v, hv, rfl⟩ := List.mem_map.1 hx
    simpa using (List.mem_filter.1 hv).2
  have hreg : registerNew used (so ++ exposedOuts M expose) = .ok () := by
    apply registerNew_accepts
    · rw [hnames, List.nodup_append]
      refine ⟨w.statesDistinct, ?_, ?_⟩
      · refine List.Nodup.map_on ?_ (hnd.filter _)
        intro x hx y hy he
        exact w.outputsOk x (List.mem_filter.1 hx).1 y (List.mem_filter.1 hy).1 he
      · rintro x hx y hy rfl
        exact hdis x hx (hexp x hy)
    · intro o ho'
      apply hban
      have : o.1 ∈ (so ++ exposedOuts M expose).map (·.1) := List.mem_map.2 ⟨o, ho', rfl⟩
      rw [hnames, List.mem_append] at this
      exact this.imp id (hexp _)
  refine ⟨maps, so ++ exposedOuts M expose, ?_⟩
  unfold implicitCall
  rw [ef]
  dsimp only
  rw [e1, hgen, ok_bind, hso, ok_bind, hreg, ok_bind]
  rfl

/-- the example of the residual model meets the hypotheses, with the state `y`, the residual `r`, the argument `a` and the exposed output `p` -/
example : WellFormedImplicit exImp 6 [("y".toList, "r".toList, .number)] [("a".toList, [1])] ["p".toList] ∧
    ∃ maps outs, implicitCall exImp 7 [] (Factory.declareAll [("y".toList, "r".toList, .number)]) [("a".toList, [1])] ["p".toList] = .ok (maps, outs) := by
  have w : WellFormedImplicit exImp 6 [("y".toList, "r".toList, .number)] [("a".toList, [1])] ["p".toList] := by
    refine ⟨rfl, by decide, by decide, by decide, by decide, by decide, by decide, fun v hv w hw => (exImp_reads hw).trans hv, ?_, ?_, by decide⟩
    · intro r hr
      have h5 : r = 3 ∨ r = 5 := by simpa [exImp] using hr
      refine ⟨by omega, ?_⟩
      intro w hw hn
      have := exImp_depends hw
      rcases h5 with rfl | rfl
      · match w with
        | 0 | 1 | 2 => revert hn; decide
        | 3 => rfl
        | n + 4 => omega
      · match w with
        | 0 | 1 | 2 | 3 | 4 => revert hn; decide
        | 5 => rfl
        | n + 6 => omega
    · intro c hc
      simp only [List.mem_singleton] at hc
      subst hc
      refine ⟨5, by decide, 0, by decide, by decide, by decide, rfl, Or.inl rfl, Relation.TransGen.single ⟨4, by decide, by decide⟩, rfl, rfl⟩
  exact ⟨w, C35_accepts exImp 6 7 [] _ _ _ w (by decide) (by decide) (by
    intro x hx
    have : x = "y".toList ∨ x = "p".toList := by simpa using hx
    rcases this with rfl | rfl <;> decide) (by decide)⟩

end Csdl
