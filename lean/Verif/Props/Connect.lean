import Verif.Proofs.Connect
import Verif.Props.Flatten
/-!
# C32, C33: connections
-/
namespace Csdl

theorem substAll_cases (L : List (Nat × Nat)) : ∀ x, substAll L x = x ∨ ∃ e ∈ L, substAll L x = e.1 := by
  induction L with
  | nil => intro x; exact Or.inl rfl
  | cons e L ih =>
    intro x
    have hc : substAll (e :: L) x = substAll L (if x = e.2 then e.1 else x) := rfl
    rw [hc]
    by_cases h : x = e.2
    · rw [if_pos h]
      rcases ih e.1 with h1 | ⟨e', he', h1⟩
      · exact Or.inr ⟨e, by simp, h1⟩
      · exact Or.inr ⟨e', by simp [he'], h1⟩
    · rw [if_neg h]
      rcases ih x with h1 | ⟨e', he', h1⟩
      · exact Or.inl h1
      · exact Or.inr ⟨e', by simp [he'], h1⟩

theorem substAll_not_target (L : List (Nat × Nat)) (h : NoReuse L) : ∀ x, ∀ e ∈ L, substAll L x ≠ e.2 := by
  obtain ⟨h1, h2⟩ := h
  induction L with
  | nil => intro x e he; cases he
  | cons e L ih =>
    intro x e' he'
    have hc : substAll (e :: L) x = substAll L (if x = e.2 then e.1 else x) := rfl
    rw [hc]
    rw [List.pairwise_cons] at h2
    rcases List.mem_cons.1 he' with rfl | he'
    · have hy : (if x = e'.2 then e'.1 else x) ≠ e'.2 := by
        split
        · exact h1 e' (by simp)
        · assumption
      rcases substAll_cases L (if x = e'.2 then e'.1 else x) with h3 | ⟨e2, he2, h3⟩
      · rw [h3]; exact hy
      · rw [h3]; exact h2.1 e2 he2
    · exact ih (fun e he => h1 e (by simp [he])) h2.2 _ e' he'

theorem noReuse_split {L1 L2 : List (Nat × Nat)} {e : Nat × Nat} (h : NoReuse (L1 ++ e :: L2)) (hn : ((L1 ++ e :: L2).map (·.2)).Nodup) :
    substAll (L1 ++ e :: L2) e.2 = substAll (L1 ++ e :: L2) e.1 ∧ substAll L1 e.2 = e.2 := by
  obtain ⟨h1, h2⟩ := h
  rw [List.pairwise_append] at h2
  rw [List.map_append, List.map_cons, List.nodup_append] at hn
  have a : substAll L1 e.2 = e.2 := substAll_notin (fun e' he' heq => hn.2.2 e'.2 (List.mem_map.2 ⟨e', he', rfl⟩) e.2 (by simp) heq)
  have b : substAll L1 e.1 = e.1 := substAll_notin (fun e' he' heq => h2.2.2 e' he' e (by simp) heq.symm)
  refine ⟨?_, a⟩
  rw [substAll_append, substAll_append, a, b]
  have hc : ∀ x, substAll (e :: L2) x = substAll L2 (if x = e.2 then e.1 else x) := fun _ => rfl
  rw [hc, hc, if_pos rfl, if_neg (h1 e (by simp))]

/-- Main has inputs `a` (0), `b` (3) and declares `c` (6); operations 1, 4, 7 read them to compute `y` (2), `z` (5), `w` (8). -/
def exConnHeap : NHeap := fun i => match i with
  | 0 => { kind := .var, name := "a".toList, auto := "_0000".toList, role := .input }
  | 2 => { kind := .var, name := "y".toList, auto := "_0002".toList, role := .output }
  | 3 => { kind := .var, name := "b".toList, auto := "_0003".toList, role := .input }
  | 5 => { kind := .var, name := "z".toList, auto := "_0005".toList, role := .output }
  | 6 => { kind := .var, name := "c".toList, auto := "_0006".toList }
  | 8 => { kind := .var, name := "w".toList, auto := "_0008".toList, role := .output }
  | _ => { kind := .op, name := "_0009".toList }
def exConnGraph : Graph := { nodes := [0, 1, 2, 3, 4, 5, 6, 7, 8], edges := [(0, 1), (1, 2), (3, 4), (4, 5), (6, 7), (7, 8)] }
def exConnModel (cs : List (Name × Name)) : Model :=
  .mk { inputs := [⟨"a".toList, [1]⟩, ⟨"b".toList, [1]⟩], outputs := [⟨"y".toList, [1]⟩, ⟨"z".toList, [1]⟩, ⟨"w".toList, [1]⟩], declared := [⟨"c".toList, [1]⟩],
        connections := cs } .nil

/-- C32 as stated is false of the code: with the connections `a` to `b` and then `b` to `c`, accepted without error, the target `b` (3) is still a node, and the
operation that read `c` reads `b`, which is no longer related to `a`.  With the two connections in the other order it reads `a`. -/
theorem C32_chain_broken :
    (∃ r d g' done, resolve (exConnModel [("a".toList, "b".toList), ("b".toList, "c".toList)]) none = .ok r ∧
      constructFlat exConnHeap id r.p2u (createReverseMap r.p2u) exConnGraph .nil
        (collectConnections (exConnModel [("a".toList, "b".toList), ("b".toList, "c".toList)]) []) = .ok (d, g', done) ∧
      3 ∈ g'.nodes ∧ g'.edges = [(0, 1), (1, 2), (4, 5), (7, 8), (0, 4), (3, 7)]) ∧
    (∃ r d g' done, resolve (exConnModel [("b".toList, "c".toList), ("a".toList, "b".toList)]) none = .ok r ∧
      constructFlat exConnHeap id r.p2u (createReverseMap r.p2u) exConnGraph .nil
        (collectConnections (exConnModel [("b".toList, "c".toList), ("a".toList, "b".toList)]) []) = .ok (d, g', done) ∧
      3 ∉ g'.nodes ∧ g'.edges = [(0, 1), (1, 2), (4, 5), (7, 8), (0, 4), (0, 7)]) := by
  constructor
  · obtain ⟨r, hr, h⟩ := ok_of_check (x := resolve (exConnModel [("a".toList, "b".toList), ("b".toList, "c".toList)]) none) (P := fun r =>
      okCheck (constructFlat exConnHeap id r.p2u (createReverseMap r.p2u) exConnGraph .nil
        (collectConnections (exConnModel [("a".toList, "b".toList), ("b".toList, "c".toList)]) [])) fun x =>
        decide (3 ∈ x.2.1.nodes ∧ x.2.1.edges = [(0, 1), (1, 2), (4, 5), (7, 8), (0, 4), (3, 7)])) (by decide)
    obtain ⟨⟨d, g', done⟩, hst, h⟩ := ok_of_check h
    exact ⟨r, d, g', done, hr, hst, of_decide_eq_true h⟩
  · obtain ⟨r, hr, h⟩ := ok_of_check (x := resolve (exConnModel [("b".toList, "c".toList), ("a".toList, "b".toList)]) none) (P := fun r =>
      okCheck (constructFlat exConnHeap id r.p2u (createReverseMap r.p2u) exConnGraph .nil
        (collectConnections (exConnModel [("b".toList, "c".toList), ("a".toList, "b".toList)]) [])) fun x =>
        decide (3 ∉ x.2.1.nodes ∧ x.2.1.edges = [(0, 1), (1, 2), (4, 5), (7, 8), (0, 4), (0, 7)])) (by decide)
    obtain ⟨⟨d, g', done⟩, hst, h⟩ := ok_of_check h
    exact ⟨r, d, g', done, hr, hst, of_decide_eq_true h⟩

/-- C32 (partial: for connections whose source was not the target of an earlier connection): when all connections are merged without error, they are connections between
nodes found by promoted or full name; every target occurs once; sources are inputs or outputs; sizes agree; the map from targets to sources contains these connections and no others; and, if no source was a target
before, merging replaces every target by (the replacement of) its source: the nodes and edges of the result are the images of those before; no target is a node afterwards
and no target was computed by an operation.
Missing: chains in which a target is the source of a later connection, see `C32_chain_broken`. -/
theorem C32_connections_partial (I : NHeap) (st : FState) (p2u : Dict Name (List Name)) (u2p : Dict Name Name) (g : Graph) (cs : List (Name × Name × Name))
    (hw : g.WF) (hb : Bipartite I g) (d : NodeMaps) (g' : Graph) (done : Dict Nat Nat) (h : mergeConnections I st p2u u2p g cs = .ok (d, g', done)) :
    ∃ L, ConnPairs I st p2u g cs L ∧ (L.map (·.2)).Nodup ∧ (∀ e ∈ L, ((I e.1).role = .input ∨ (I e.1).role = .output) ∧ (I e.1).shape.size = (I e.2).shape.size) ∧
      (∀ s t, done.get? t = some s ↔ (s, t) ∈ L) ∧
      (NoReuse L → ∃ f, IsImage g f g' ∧ (∀ x, (∀ e ∈ L, e.2 ≠ x) → f x = x) ∧
        ∀ e ∈ L, f e.2 = f e.1 ∧ e.2 ∉ g'.nodes ∧ ∀ u, ¬ g.Edge u e.2) := by
  unfold mergeConnections at h
  cases h1 : indexNodes I st p2u u2p g g.nodes {} with
  | error e => rw [h1] at h; cases h
  | ok d1 =>
    rw [h1] at h; dsimp only at h
    cases h2 : mergeConnectionList I d1 cs (g, []) with
    | error e => rw [h2] at h; cases h
    | ok acc =>
      rw [h2] at h; cases h
      obtain ⟨hd, _⟩ := indexNodes_ok g.nodes (fun _ h => h) ⟨by simp [Dict.get?], by simp [Dict.get?]⟩ h1
      obtain ⟨L, b1, b2, b3, _, b5, b6, b7, b8⟩ := mergeConnectionList_ok hd cs h2
      refine ⟨L, b1, b3, ?_, ?_, fun hno => ?_⟩
      · intro e he
        refine ⟨?_, (b5 e he).2⟩
        have := (b5 e he).1
        cases hr : (I e.1).role with
        | input => exact Or.inl rfl
        | output => exact Or.inr rfl
        | declared => exact absurd hr this
      · intro s t
        rw [b8]
        simp [Dict.get?]
      · have hnodes : ∀ e ∈ L, e.1 ∈ g.nodes ∧ (I e.1).kind = .var ∧ (I e.2).kind = .var ∧ e.1 ≠ e.2 := by
          intro e he
          obtain ⟨c, _, hc1, hc2⟩ := forall₂_mem_right b1 he
          exact ⟨hc1.1, hc1.2.1, hc2.2.1, hno.1 e he⟩
        have himg := isImage_contractions hb L (IsImage.refl hw) (by simp) hnodes hno.2 hw
        dsimp only at b2
        rw [b2]
        refine ⟨_, himg, fun x hx => substAll_notin hx, fun e he => ?_⟩
        obtain ⟨L1, L2, hL⟩ := List.append_of_mem he
        have hs := noReuse_split (L1 := L1) (L2 := L2) (e := e) (hL ▸ hno) (hL ▸ b3)
        refine ⟨?_, ?_, ?_⟩
        · show substAll L e.2 = substAll L e.1
          rw [hL]; exact hs.1
        · intro hm
          obtain ⟨x, _, hx⟩ := (himg.nodes _).1 hm
          exact substAll_not_target L hno _ e he hx
        · intro u hu
          have hsub : ∀ e' ∈ L1, e' ∈ L := fun e' he' => by rw [hL]; exact List.mem_append_left _ he'
          have hp1 : L1.Pairwise (fun e e' => e'.1 ≠ e.2) := by
            have := hno.2; rw [hL, List.pairwise_append] at this; exact this.1
          have himg1 := isImage_contractions hb L1 (IsImage.refl hw) (by simp) (fun e' he' => hnodes e' (hsub e' he')) hp1 hw
          have hedge := (himg1.edges _ _).2 ⟨u, e.2, hu, rfl, rfl⟩
          have hi := b6 L1.length e (by rw [hL]; simp)
          have ht : L.take L1.length = L1 := by rw [hL]; simp
          rw [ht] at hi
          apply hi
          simp only [id_eq] at hedge
          rw [hs.2] at hedge
          exact hedge

/-- the hypotheses hold of the second order of the example above, with the pairs `(3, 6)` and `(0, 3)` -/
example : exConnGraph.WF ∧ Bipartite exConnHeap exConnGraph ∧ NoReuse [(3, 6), (0, 3)] ∧ ∃ r st x, resolve (exConnModel []) none = .ok r ∧
    flatten exConnHeap r.p2u (createReverseMap r.p2u) exConnGraph .nil = .ok st ∧
    mergeConnections exConnHeap st r.p2u (createReverseMap r.p2u) exConnGraph [("b".toList, "c".toList, []), ("a".toList, "b".toList, [])] = .ok x := by
  refine ⟨Graph.wf_of (by decide), bipartite_of (kids := .nil) (by decide) [] _ _ (Or.inl ⟨rfl, rfl, rfl⟩), ⟨by decide, by decide⟩, ?_⟩
  obtain ⟨r, hr, h⟩ := ok_of_check (x := resolve (exConnModel []) none) (P := fun r =>
    okCheck (flatten exConnHeap r.p2u (createReverseMap r.p2u) exConnGraph .nil) fun st =>
    okCheck (mergeConnections exConnHeap st r.p2u (createReverseMap r.p2u) exConnGraph [("b".toList, "c".toList, []), ("a".toList, "b".toList, [])]) fun _ => true) (by decide)
  obtain ⟨st, hst, h⟩ := ok_of_check h
  obtain ⟨x, hx, _⟩ := ok_of_check h
  exact ⟨r, st, x, hr, hst, hx⟩

/-! ### C33 -/

theorem Bipartite.contract {I : NHeap} {g : Graph} (hb : Bipartite I g) {u v : Nat} (hu : (I u).kind = .var) (hv : (I v).kind = .var) : Bipartite I (g.contract u v) := by
  intro a b he
  rw [Graph.edge_contract] at he
  rcases he with ⟨h, _⟩ | ⟨h, _, _, rfl⟩ | ⟨h, _, _, rfl⟩
  · exact hb _ _ h
  · have := hb _ _ h; rw [hv] at this; rw [hu]; exact this
  · have := hb _ _ h; rw [hv] at this; rw [hu]; exact this

theorem Bipartite.contractions {I : NHeap} (L : List (Nat × Nat)) : ∀ {g : Graph}, Bipartite I g → g.WF → (∀ e ∈ L, (I e.1).kind = .var ∧ (I e.2).kind = .var) →
    Bipartite I (L.foldl (fun g e => g.contract e.1 e.2) g) ∧ (L.foldl (fun g e => g.contract e.1 e.2) g).WF := by
  induction L with
  | nil => intro g hb hw _; exact ⟨hb, hw⟩
  | cons e L ih =>
    intro g hb hw h
    rw [List.foldl_cons]
    exact ih (hb.contract (h e (by simp)).1 (h e (by simp)).2) (Graph.wf_contract hw _ _) (fun e he => h e (by simp [he]))

theorem mergeAuto_bipartite {I : NHeap} {st : FState} {order : List Nat → List Nat} (ho : ∀ l x, x ∈ order l ↔ x ∈ l) (hw : st.graph.WF) (hb : Bipartite I st.graph) :
    Bipartite I (mergeAuto I order st) ∧ (mergeAuto I order st).WF := by
  unfold mergeAuto
  dsimp only
  rw [contractSources_eq, contractRedundant_eq]
  obtain ⟨u1, u2, u3⟩ := uniqueTargets_spec (I := I) (st := st) (tgtNodes I (varNodes I st.graph))
  have hnd : (tgtNodes I (varNodes I st.graph)).Nodup := (hw.nodup.filter _).filter _
  have hvar : ∀ k r, (uniqueTargets I st (tgtNodes I (varNodes I st.graph))).get? k = some r → (I r).kind = .var :=
    fun k r hr => (mem_targets.1 (u1 k r hr).1).2.1
  obtain ⟨g1, g2⟩ := groupTargets_spec (I := I) (st := st) (removeAll (tgtNodes I (varNodes I st.graph)) ((uniqueTargets I st (tgtNodes I (varNodes I st.graph))).map (·.2)))
  have hred := Bipartite.contractions (redPairs order (uniqueTargets I st (tgtNodes I (varNodes I st.graph))) (groupTargets I st
    (removeAll (tgtNodes I (varNodes I st.graph)) ((uniqueTargets I st (tgtNodes I (varNodes I st.graph))).map (·.2))))) hb hw (by
      rintro ⟨a, b⟩ he
      obtain ⟨k, ts, h1, h2, h3⟩ := (mem_redPairs ho g1).1 he
      have := ((g2 k ts h1) b).1 h2
      rw [mem_removeAll _ hnd] at this
      exact ⟨hvar _ _ h3, (mem_targets.1 this.1.1).2.1⟩)
  refine Bipartite.contractions _ hred.1 hred.2 ?_
  rintro ⟨a, b⟩ he
  obtain ⟨k, h1, h2⟩ := (mem_srcPairs (Dict.nodup_ofPairs _)).1 he
  refine ⟨?_, hvar _ _ h2⟩
  rcases Dict.mem_update (d := []) h1 with h3 | h3
  · obtain ⟨x, hx, hx2⟩ := List.mem_map.1 h3
    cases hx2
    exact (mem_sources.1 hx).2.1
  · simp [Dict.get?] at h3

/-- contractions of targets that no operation computes keep "computed by at most one operation" -/
theorem contractions_one {I : NHeap} (L : List (Nat × Nat)) : ∀ {g : Graph}, Bipartite I g →
    (∀ e ∈ L, (I e.1).kind = .var ∧ (I e.2).kind = .var) →
    (∀ (i : Nat) (e : Nat × Nat), L[i]? = some e → ∀ u, ¬ ((L.take i).foldl (fun g e => g.contract e.1 e.2) g).Edge u e.2) →
    (∀ a a' b, (I b).kind = .var → g.Edge a b → g.Edge a' b → a = a') →
    ∀ a a' b, (I b).kind = .var → (L.foldl (fun g e => g.contract e.1 e.2) g).Edge a b → (L.foldl (fun g e => g.contract e.1 e.2) g).Edge a' b → a = a' := by
  induction L with
  | nil => intro g _ _ _ h; exact h
  | cons e L ih =>
    intro g hb hk hi h
    have h0 := hi 0 e (by simp)
    simp only [List.take_zero, List.foldl_nil] at h0
    obtain ⟨k1, k2⟩ := hk e (by simp)
    rw [List.foldl_cons]
    apply ih (hb.contract k1 k2) (fun e he => hk e (by simp [he]))
    · intro i e' he'
      have := hi (i + 1) e' (by simpa using he')
      simpa using this
    · apply contract_one h0 h
      intro b hbk hedge
      rcases hb _ _ hedge with ⟨_, h2⟩ | ⟨h2, _⟩
      · rw [h2] at hbk; cases hbk
      · rw [k2] at h2; cases h2

theorem length_le_one {l : List Nat} (hn : l.Nodup) (h : ∀ a ∈ l, ∀ b ∈ l, a = b) : l.length ≤ 1 := by
  match l, hn, h with
  | [], _, _ => simp
  | [a], _, _ => simp
  | a :: b :: l, hn, h => exact absurd (h a (by simp) b (by simp)) (by simp at hn; exact hn.1.1)

theorem inDegree_le_one {g : Graph} (hw : g.WF) {v : Nat} (h : ∀ a a', g.Edge a v → g.Edge a' v → a = a') : g.inDegree v ≤ 1 := by
  unfold Graph.inDegree
  have hmem : ∀ a ∈ g.preds v, g.Edge a v := by
    intro a ha
    unfold Graph.preds at ha
    obtain ⟨⟨x, y⟩, hm, rfl⟩ := List.mem_map.1 ha
    rw [List.mem_filter] at hm
    have hy : y = v := by simpa using hm.2
    subst hy
    exact hm.1
  apply length_le_one
  · unfold Graph.preds
    apply (hw.edges_nodup.filter _).map_on
    rintro ⟨a, b⟩ h1 ⟨c, d⟩ h2 he
    rw [List.mem_filter] at h1 h2
    simp only [decide_eq_true_eq] at h1 h2
    dsimp only at he
    subst he
    rw [h1.2, h2.2]
  · intro a ha b hb
    exact h a b (hmem a ha) (hmem b hb)

/-- C33: whenever the flat graph is built without error - for any hierarchy of graphs of variables and operations, any maps, any connections, any iteration order -
every variable has at most one incoming edge. -/
theorem C33_one_operation_per_variable (I : NHeap) (order : List Nat → List Nat) (ho : ∀ l x, x ∈ order l ↔ x ∈ l) (p2u : Dict Name (List Name)) (u2p : Dict Name Name)
    (g : Graph) (kids : Kids) (hk : HierOk g kids) (hb : AllBipartite I g kids) (cs : List (Name × Name × Name)) (d : NodeMaps) (g' : Graph) (done : Dict Nat Nat)
    (h : constructFlat I order p2u u2p g kids cs = .ok (d, g', done)) (v : Nat) (hv : (I v).kind = .var) : g'.inDegree v ≤ 1 := by
  unfold constructFlat at h
  cases hf : flatten I p2u u2p g kids with
  | error e => rw [hf] at h; cases h
  | ok st =>
    rw [hf] at h; dsimp only at h
    obtain ⟨mb, mw⟩ := mergeAuto_bipartite ho (flatten_facts hk hf).1 (flat_bipartite hk hb hf)
    generalize mergeAuto I order st = G at h mb mw
    unfold mergeConnections at h
    cases h1 : indexNodes I st p2u u2p G G.nodes {} with
    | error e => rw [h1] at h; cases h
    | ok d1 =>
      rw [h1] at h; dsimp only at h
      cases h2 : mergeConnectionList I d1 cs (G, []) with
      | error e => rw [h2] at h; cases h
      | ok acc =>
        rw [h2] at h; cases h
        obtain ⟨hd, hone⟩ := indexNodes_ok G.nodes (fun _ h => h) ⟨by simp [Dict.get?], by simp [Dict.get?]⟩ h1
        obtain ⟨L, b1, b2, _, _, _, b6, _⟩ := mergeConnectionList_ok hd cs h2
        have hkinds : ∀ e ∈ L, (I e.1).kind = .var ∧ (I e.2).kind = .var := by
          intro e he
          obtain ⟨c, _, hc1, hc2⟩ := forall₂_mem_right b1 he
          exact ⟨hc1.2.1, hc2.2.1⟩
        dsimp only at b2 b6
        rw [b2]
        apply inDegree_le_one (Bipartite.contractions L mb mw hkinds).2
        intro a a'
        refine contractions_one L mb hkinds b6 ?_ a a' v hv
        intro a a' b hbk e1 e2
        have hlen := hone b (mw.right _ _ e1) hbk
        have m1 : a ∈ G.preds b := List.mem_map.2 ⟨(a, b), List.mem_filter.2 ⟨e1, by simp⟩, rfl⟩
        have m2 : a' ∈ G.preds b := List.mem_map.2 ⟨(a', b), List.mem_filter.2 ⟨e2, by simp⟩, rfl⟩
        match hp : G.preds b, hlen, m1, m2 with
        | [], _, m1, _ => cases m1
        | [x], _, m1, m2 => simp only [List.mem_singleton] at m1 m2; rw [m1, m2]
        | x :: y :: l, hlen, _, _ => simp at hlen

/-- the hypotheses hold of `C32_chain_broken`, and the check is needed: a graph with two operations computing node 2 is rejected, without the second it is not -/
example : HierOk exConnGraph .nil ∧ AllBipartite exConnHeap exConnGraph .nil ∧
    (∃ x, constructFlat exConnHeap id [("a".toList, ["a".toList]), ("y".toList, ["y".toList])] [("a".toList, "a".toList), ("y".toList, "y".toList)]
      ⟨[0, 1, 2, 4], [(0, 1), (1, 2)]⟩ .nil [] = .ok x) ∧
    constructFlat exConnHeap id [("a".toList, ["a".toList]), ("y".toList, ["y".toList])] [("a".toList, "a".toList), ("y".toList, "y".toList)]
      ⟨[0, 1, 2, 4], [(0, 1), (1, 2), (4, 2)]⟩ .nil [] = .error .key :=
  ⟨hierOk_of (by decide), bipartite_of (by decide), ⟨_, rfl⟩, rfl⟩

theorem indexNodes_known {I : NHeap} {st : FState} {p2u : Dict Name (List Name)} {u2p : Dict Name Name} {g : Graph} : ∀ (vs : List Nat) {d d' : NodeMaps}, indexNodes I st p2u u2p g vs d = .ok d' →
    ∀ v ∈ vs, (I v).kind = .var → (I v).name ≠ (I v).auto → (∃ us, p2u.get? (st.pname I v) = some us ∧ ∀ u ∈ us, u2p.has u = true) ∨ ∃ p, g.preds v = [p] ∧ (I p).kind = .op ∧ (I p).custom = true
  | [], _, _, _, v, hv, _, _ => by cases hv
  | w :: vs, d, d', h, v, hv, hk, hn => by
    unfold indexNodes at h
    cases hw : indexNode I st p2u u2p g d w with
    | error e => rw [hw] at h; cases h
    | ok d1 =>
      rw [hw] at h
      dsimp only at h
      rcases List.mem_cons.1 hv with rfl | hv
      · unfold indexNode at hw
        rw [if_neg (by simp [hk])] at hw
        split at hw
        · cases hw
        · rename_i hlen
          split at hw
          · rename_i hp
            refine Or.inr ?_
            cases hc : checkCustom I g v with
            | error e => rw [hc] at hw; cases hw
            | ok u =>
              unfold checkCustom at hc
              split at hc
              · cases hc
              · rename_i p l hpl
                split at hc
                · cases hc
                · rename_i hop
                  split at hc
                  · rename_i hcu
                    refine ⟨p, ?_, by simpa using hop, hcu⟩
                    rw [hpl] at hlen ⊢
                    cases l with
                    | nil => rfl
                    | cons a l => simp at hlen
                  · cases hc
          · rename_i us hp
            refine Or.inl ⟨us, hp, ?_⟩
            cases hi : indexNames u2p v us d.u2n with
            | error e => rw [hi] at hw; cases hw
            | ok r =>
              clear hw hp h
              generalize d.u2n = D at hi
              induction us generalizing D with
              | nil => intro u hu; cases hu
              | cons a us ih =>
                unfold indexNames at hi
                split at hi
                · cases hi
                · split at hi
                  · rename_i ha
                    intro u hu
                    rcases List.mem_cons.1 hu with rfl | hu
                    · exact ha
                    · exact ih _ hi u hu
                  · cases hi
      · exact indexNodes_known vs h v hv hk hn

/-- C33: whenever the flat graph is built without error, every variable of the merged graph that was given a name has a promoted name in the map of promoted names (and the unpromoted names it stands for have promoted names), or is the result of
exactly one operation, a custom operation (whose outputs need not be registered). -/
theorem C33_unknown_names_custom (I : NHeap) (order : List Nat → List Nat) (p2u : Dict Name (List Name)) (u2p : Dict Name Name) (g : Graph) (kids : Kids) (cs : List (Name × Name × Name))
    (r : NodeMaps × Graph × Dict Nat Nat) (h : constructFlat I order p2u u2p g kids cs = .ok r) : ∃ st, flatten I p2u u2p g kids = .ok st ∧ ∀ v ∈ (mergeAuto I order st).nodes, (I v).kind = .var → (I v).name ≠ (I v).auto →
      (∃ us, p2u.get? (st.pname I v) = some us ∧ ∀ u ∈ us, u2p.has u = true) ∨ ∃ p, (mergeAuto I order st).preds v = [p] ∧ (I p).kind = .op ∧ (I p).custom = true := by
  unfold constructFlat at h
  cases hf : flatten I p2u u2p g kids with
  | error e => rw [hf] at h; cases h
  | ok st =>
    rw [hf] at h; dsimp only at h
    unfold mergeConnections at h
    cases h1 : indexNodes I st p2u u2p (mergeAuto I order st) (mergeAuto I order st).nodes {} with
    | error e => rw [h1] at h; cases h
    | ok d1 => exact ⟨st, rfl, indexNodes_known _ h1⟩

/-- without its name in the map, the result `y` of an operation is rejected; that of a custom operation is accepted -/
example : constructFlat exConnHeap id [("a".toList, ["a".toList])] [("a".toList, "a".toList)] ⟨[0, 1, 2], [(0, 1), (1, 2)]⟩ .nil [] = .error .key ∧
    ∃ x, constructFlat (fun i => { exConnHeap i with custom := true }) id [("a".toList, ["a".toList])] [("a".toList, "a".toList)] ⟨[0, 1, 2], [(0, 1), (1, 2)]⟩ .nil [] = .ok x :=
  ⟨rfl, _, rfl⟩

end Csdl
