import Verif.Spec.Connect
import Verif.Proofs.Merge
namespace Csdl

section
variable {I : NHeap} {st : FState} {p2u : Dict Name (List Name)} {u2p : Dict Name Name} {g : Graph}

theorem indexNames_ok {v : Nat} (us : List Name) : ∀ {d d' : Dict Name Nat}, indexNames u2p v us d = .ok d' →
    (∀ u w, d'.get? u = some w → d.get? u = some w ∨ (u ∈ us ∧ w = v)) ∧ (∀ u ∈ us, d'.get? u = some v) ∧
    (∀ u w, d.get? u = some w → d'.get? u = some w) := by
  induction us with
  | nil => intro d d' h; cases h; exact ⟨fun u w h => Or.inl h, by simp, fun _ _ h => h⟩
  | cons u us ih =>
    intro d d' h
    unfold indexNames at h
    by_cases h1 : d.has u = true
    · rw [if_pos h1] at h; cases h
    · rw [if_neg h1] at h
      by_cases h2 : u2p.has u = true
      · rw [if_pos h2] at h
        obtain ⟨a1, a2, a3⟩ := ih h
        refine ⟨?_, ?_, ?_⟩
        · intro x w hx
          rcases a1 x w hx with h3 | ⟨h3, rfl⟩
          · rw [Dict.get?_set] at h3
            split at h3
            · rename_i he
              subst he
              exact Or.inr ⟨by simp, (Option.some.inj h3).symm⟩
            · exact Or.inl h3
          · exact Or.inr ⟨by simp [h3], rfl⟩
        · intro x hx
          rcases List.mem_cons.1 hx with rfl | hx
          · exact a3 _ _ (by rw [Dict.get?_set, if_pos rfl])
          · exact a2 x hx
        · intro x w hx
          apply a3
          rw [Dict.get?_set]
          split
          · rename_i he
            subst he
            exact absurd (Dict.has_iff.2 (Dict.get?_mem_keys hx)) h1
          · exact hx
      · rw [if_neg h2] at h; cases h

/-- entries of the maps stand for nodes -/
structure MapsOk (I : NHeap) (st : FState) (p2u : Dict Name (List Name)) (g : Graph) (d : NodeMaps) : Prop where
  p : ∀ x v, d.p2n.get? x = some v → NodeFor I st p2u g x v
  u : ∀ x v, d.u2n.get? x = some v → NodeFor I st p2u g x v

theorem indexNode_ok {v : Nat} {d d' : NodeMaps} (hv : v ∈ g.nodes) (hd : MapsOk I st p2u g d) (h : indexNode I st p2u u2p g d v = .ok d') :
    MapsOk I st p2u g d' ∧ ((I v).kind = .var → (g.preds v).length ≤ 1) := by
  unfold indexNode at h
  by_cases h1 : (I v).kind ≠ .var
  · rw [if_pos h1] at h; cases h; exact ⟨hd, fun hk => absurd hk h1⟩
  · rw [if_neg h1] at h
    have h1' : (I v).kind = .var := by simpa using h1
    by_cases h2 : 1 < (g.preds v).length
    · rw [if_pos h2] at h; cases h
    · rw [if_neg h2] at h
      refine ⟨?_, fun _ => by omega⟩
      by_cases h3 : (I v).name = (I v).auto
      · rw [if_pos h3] at h; cases h; exact hd
      · rw [if_neg h3] at h
        cases hp : p2u.get? (st.pname I v) with
        | none =>
          rw [hp] at h
          dsimp only at h
          cases hc : checkCustom I g v with
          | error e => rw [hc] at h; cases h
          | ok _ => rw [hc] at h; cases h; exact hd
        | some us =>
          rw [hp] at h
          dsimp only at h
          cases hi : indexNames u2p v us d.u2n with
          | error e => rw [hi] at h; cases h
          | ok u2n =>
            rw [hi] at h
            cases h
            obtain ⟨a1, a2, a3⟩ := indexNames_ok us hi
            refine ⟨?_, ?_⟩
            · intro x w hx
              dsimp only at hx
              rw [Dict.get?_set] at hx
              split at hx
              · rename_i he
                subst he
                cases hx
                exact ⟨hv, h1', h3, us, hp, Or.inl rfl⟩
              · exact hd.p x w hx
            · intro x w hx
              rcases a1 x w hx with h4 | ⟨h4, rfl⟩
              · exact hd.u x w h4
              · exact ⟨hv, h1', h3, us, hp, Or.inr h4⟩

theorem indexNodes_ok (vs : List Nat) : ∀ {d d' : NodeMaps}, (∀ v ∈ vs, v ∈ g.nodes) → MapsOk I st p2u g d → indexNodes I st p2u u2p g vs d = .ok d' →
    MapsOk I st p2u g d' ∧ ∀ v ∈ vs, (I v).kind = .var → (g.preds v).length ≤ 1 := by
  induction vs with
  | nil => intro d d' _ hd h; cases h; exact ⟨hd, by simp⟩
  | cons v vs ih =>
    intro d d' hv hd h
    unfold indexNodes at h
    cases h1 : indexNode I st p2u u2p g d v with
    | error e => rw [h1] at h; cases h
    | ok d1 =>
      rw [h1] at h
      obtain ⟨a1, a2⟩ := indexNode_ok (hv v (by simp)) hd h1
      obtain ⟨b1, b2⟩ := ih (fun w hw => hv w (by simp [hw])) a1 h
      refine ⟨b1, fun w hw => ?_⟩
      rcases List.mem_cons.1 hw with rfl | hw
      · exact a2
      · exact b2 w hw

/-- what the maps contain -/
theorem indexNodes_maps (vs : List Nat) : ∀ {d d' : NodeMaps}, indexNodes I st p2u u2p g vs d = .ok d' →
    (∀ x v, d'.p2n.get? x = some v → d.p2n.get? x = some v ∨ (v ∈ vs ∧ (I v).kind = .var ∧ (I v).name ≠ (I v).auto ∧ st.pname I v = x)) ∧
    (∀ x v, d'.u2n.get? x = some v → d.u2n.get? x = some v ∨ (v ∈ vs ∧ (I v).kind = .var ∧ (I v).name ≠ (I v).auto ∧ ∃ us, p2u.get? (st.pname I v) = some us ∧ x ∈ us)) ∧
    (∀ x v, d.u2n.get? x = some v → d'.u2n.get? x = some v) ∧ (∀ x, d.p2n.has x = true → d'.p2n.has x = true) ∧
    ∀ v ∈ vs, (I v).kind = .var → (I v).name ≠ (I v).auto → ∀ us, p2u.get? (st.pname I v) = some us → d'.p2n.has (st.pname I v) = true ∧ ∀ u ∈ us, d'.u2n.get? u = some v := by
  induction vs with
  | nil => intro d d' h; cases h; exact ⟨fun _ _ h => Or.inl h, fun _ _ h => Or.inl h, fun _ _ h => h, fun _ h => h, by simp⟩
  | cons v vs ih =>
    intro d d' h
    unfold indexNodes at h
    cases h1 : indexNode I st p2u u2p g d v with
    | error e => rw [h1] at h; cases h
    | ok d1 =>
      rw [h1] at h
      obtain ⟨b1, b2, b3, b4, b5⟩ := ih h
      -- one node
      have step : (∀ x w, d1.p2n.get? x = some w → d.p2n.get? x = some w ∨ (w = v ∧ (I v).kind = .var ∧ (I v).name ≠ (I v).auto ∧ st.pname I v = x)) ∧
          (∀ x w, d1.u2n.get? x = some w → d.u2n.get? x = some w ∨ (w = v ∧ (I v).kind = .var ∧ (I v).name ≠ (I v).auto ∧ ∃ us, p2u.get? (st.pname I v) = some us ∧ x ∈ us)) ∧
          (∀ x w, d.u2n.get? x = some w → d1.u2n.get? x = some w) ∧ (∀ x, d.p2n.has x = true → d1.p2n.has x = true) ∧
          ((I v).kind = .var → (I v).name ≠ (I v).auto → ∀ us, p2u.get? (st.pname I v) = some us → d1.p2n.has (st.pname I v) = true ∧ ∀ u ∈ us, d1.u2n.get? u = some v) := by
        unfold indexNode at h1
        by_cases k1 : (I v).kind ≠ .var
        · rw [if_pos k1] at h1; cases h1
          exact ⟨fun _ _ h => Or.inl h, fun _ _ h => Or.inl h, fun _ _ h => h, fun _ h => h, fun h => absurd h k1⟩
        rw [if_neg k1] at h1
        have k1' : (I v).kind = .var := by simpa using k1
        split at h1
        · cases h1
        by_cases k3 : (I v).name = (I v).auto
        · rw [if_pos k3] at h1; cases h1
          exact ⟨fun _ _ h => Or.inl h, fun _ _ h => Or.inl h, fun _ _ h => h, fun _ h => h, fun _ h => absurd k3 h⟩
        rw [if_neg k3] at h1
        cases hp : p2u.get? (st.pname I v) with
        | none =>
          rw [hp] at h1
          dsimp only at h1
          cases hc : checkCustom I g v with
          | error e => rw [hc] at h1; cases h1
          | ok _ =>
            rw [hc] at h1; cases h1
            exact ⟨fun _ _ h => Or.inl h, fun _ _ h => Or.inl h, fun _ _ h => h, fun _ h => h, fun _ _ us hus => by cases hus⟩
        | some us =>
          rw [hp] at h1
          dsimp only at h1
          cases hi : indexNames u2p v us d.u2n with
          | error e => rw [hi] at h1; cases h1
          | ok u2n =>
            rw [hi] at h1
            cases h1
            obtain ⟨a1, a2, a3⟩ := indexNames_ok us hi
            refine ⟨?_, ?_, a3, ?_, ?_⟩
            · intro x w hx
              dsimp only at hx
              rw [Dict.get?_set] at hx
              split at hx
              · rename_i he
                cases hx
                exact Or.inr ⟨rfl, k1', k3, he⟩
              · exact Or.inl hx
            · intro x w hx
              rcases a1 x w hx with h4 | ⟨h4, rfl⟩
              · exact Or.inl h4
              · exact Or.inr ⟨rfl, k1', k3, us, rfl, h4⟩
            · intro x hx
              rw [Dict.has_iff] at hx ⊢
              obtain ⟨w, hw⟩ := Dict.mem_keys_get? hx
              by_cases he : st.pname I v = x
              · exact Dict.get?_mem_keys (v := v) (by rw [Dict.get?_set, if_pos he])
              · exact Dict.get?_mem_keys (v := w) (by rw [Dict.get?_set, if_neg he]; exact hw)
            · intro _ _ us' hus'
              cases hus'
              exact ⟨Dict.has_iff.2 (Dict.get?_mem_keys (v := v) (by rw [Dict.get?_set, if_pos rfl])), a2⟩
      obtain ⟨s1, s2, s3, s4, s5⟩ := step
      refine ⟨?_, ?_, fun x w hx => b3 x w (s3 x w hx), fun x hx => b4 x (s4 x hx), ?_⟩
      · intro x w hx
        rcases b1 x w hx with hx | ⟨hw, hx⟩
        · rcases s1 x w hx with hx | ⟨rfl, hx⟩
          · exact Or.inl hx
          · exact Or.inr ⟨by simp, hx⟩
        · exact Or.inr ⟨by simp [hw], hx⟩
      · intro x w hx
        rcases b2 x w hx with hx | ⟨hw, hx⟩
        · rcases s2 x w hx with hx | ⟨rfl, hx⟩
          · exact Or.inl hx
          · exact Or.inr ⟨by simp, hx⟩
        · exact Or.inr ⟨by simp [hw], hx⟩
      · intro w hw hk hn us hus
        rcases List.mem_cons.1 hw with rfl | hw
        · obtain ⟨e1, e2⟩ := s5 hk hn us hus
          exact ⟨b4 _ e1, fun u hu => b3 u w (e2 u hu)⟩
        · exact b5 w hw hk hn us hus

theorem findNode_ok {d : NodeMaps} (hd : MapsOk I st p2u g d) {x : Name} {v : Nat} (h : findNode d x = .ok v) : NodeFor I st p2u g x v := by
  unfold findNode at h
  cases h1 : d.p2n.get? x with
  | some w => rw [h1] at h; cases h; exact hd.p _ _ h1
  | none =>
    rw [h1] at h
    dsimp only at h
    cases h2 : d.u2n.get? x with
    | some w => rw [h2] at h; cases h; exact hd.u _ _ h2
    | none => rw [h2] at h; cases h

theorem checkConnection_ok {g : Graph} {done : Dict Nat Nat} {src tgt : Nat} (h : checkConnection I g done src tgt = .ok ()) :
    done.has tgt = false ∧ (I src).role ≠ .declared ∧ g.inDegree tgt = 0 ∧ (I src).shape.size = (I tgt).shape.size := by
  unfold checkConnection at h
  by_cases h1 : done.has tgt = true
  · rw [if_pos h1] at h; cases h
  rw [if_neg h1] at h
  by_cases h2 : (I src).role = .declared
  · rw [if_pos h2] at h; cases h
  rw [if_neg h2] at h
  by_cases h3 : g.inDegree tgt ≠ 0
  · rw [if_pos h3] at h; cases h
  rw [if_neg h3] at h
  by_cases h4 : (I src).shape ≠ (I tgt).shape ∧ (I src).shape.size ≠ (I tgt).shape.size
  · rw [if_pos h4] at h; cases h
  refine ⟨by simpa using h1, h2, by simpa using h3, ?_⟩
  by_contra hne
  exact h4 ⟨fun he => hne (by rw [he]), hne⟩

theorem inDegree_zero {g : Graph} {v : Nat} : g.inDegree v = 0 ↔ ∀ u, ¬ g.Edge u v := by
  unfold Graph.inDegree Graph.preds
  rw [List.length_map, List.length_eq_zero_iff, List.filter_eq_nil_iff]
  constructor
  · intro h u he; exact h (u, v) he (by simp)
  · rintro h ⟨a, b⟩ he hb
    simp only [decide_eq_true_eq] at hb
    subst hb
    exact h a he

theorem mergeConnection_ok {d : NodeMaps} (hd : MapsOk I st p2u g d) {acc acc' : Graph × Dict Nat Nat} {c : Name × Name × Name}
    (h : mergeConnection I d acc c = .ok acc') : ∃ src tgt, NodeFor I st p2u g (prependNamespace c.2.2 c.1) src ∧ NodeFor I st p2u g (prependNamespace c.2.2 c.2.1) tgt ∧
      acc.2.has tgt = false ∧ (I src).role ≠ .declared ∧ (∀ u, ¬ acc.1.Edge u tgt) ∧ (I src).shape.size = (I tgt).shape.size ∧
      src ∈ (acc.1.contract src tgt).nodes ∧ acc' = (acc.1.contract src tgt, acc.2.set tgt src) := by
  unfold mergeConnection at h
  cases h1 : findNode d (prependNamespace c.2.2 c.1) with
  | error e => rw [h1] at h; cases h
  | ok src =>
    rw [h1] at h; dsimp only at h
    cases h2 : findNode d (prependNamespace c.2.2 c.2.1) with
    | error e => rw [h2] at h; cases h
    | ok tgt =>
      rw [h2] at h; dsimp only at h
      cases h3 : checkConnection I acc.1 acc.2 src tgt with
      | error e => rw [h3] at h; cases h
      | ok _ =>
        rw [h3] at h; dsimp only at h
        obtain ⟨c1, c2, c3, c4⟩ := checkConnection_ok h3
        unfold nxContract at h
        by_cases h4 : src ∈ (acc.1.contract src tgt).nodes
        · rw [if_pos h4] at h
          cases h
          exact ⟨src, tgt, findNode_ok hd h1, findNode_ok hd h2, c1, c2, inDegree_zero.1 c3, c4, h4, rfl⟩
        · rw [if_neg h4] at h; cases h

/-- what a run over the connections does, in general -/
theorem mergeConnectionList_ok {d : NodeMaps} (hd : MapsOk I st p2u g d) (cs : List (Name × Name × Name)) : ∀ {acc acc' : Graph × Dict Nat Nat},
    mergeConnectionList I d cs acc = .ok acc' → ∃ L : List (Nat × Nat), ConnPairs I st p2u g cs L ∧
      acc'.1 = L.foldl (fun g e => g.contract e.1 e.2) acc.1 ∧ (L.map (·.2)).Nodup ∧ (∀ e ∈ L, acc.2.has e.2 = false) ∧
      (∀ e ∈ L, (I e.1).role ≠ .declared ∧ (I e.1).shape.size = (I e.2).shape.size) ∧
      (∀ (i : Nat) (e : Nat × Nat), L[i]? = some e → ∀ u, ¬ ((L.take i).foldl (fun g e => g.contract e.1 e.2) acc.1).Edge u e.2) ∧
      (∀ (i : Nat) (e : Nat × Nat), L[i]? = some e → e.1 ∈ ((L.take (i + 1)).foldl (fun g e => g.contract e.1 e.2) acc.1).nodes) ∧
      ∀ s t, acc'.2.get? t = some s ↔ (s, t) ∈ L ∨ acc.2.get? t = some s := by
  induction cs with
  | nil =>
    intro acc acc' h
    cases h
    exact ⟨[], .nil, rfl, by simp, by simp, by simp, by simp, by simp, by simp⟩
  | cons c cs ih =>
    intro acc acc' h
    unfold mergeConnectionList at h
    cases h1 : mergeConnection I d acc c with
    | error e => rw [h1] at h; cases h
    | ok acc1 =>
      rw [h1] at h; dsimp only at h
      obtain ⟨src, tgt, a1, a2, a3, a4, a5, a6, a7, rfl⟩ := mergeConnection_ok hd h1
      obtain ⟨L, b1, b2, b3, b4, b5, b6, b7, b8⟩ := ih h
      refine ⟨(src, tgt) :: L, .cons ⟨a1, a2⟩ b1, b2, ?_, ?_, ?_, ?_, ?_, ?_⟩
      · rw [List.map_cons, List.nodup_cons]
        refine ⟨?_, b3⟩
        intro hm
        obtain ⟨e, he, he2⟩ := List.mem_map.1 hm
        have := b4 e he
        dsimp only at this he2
        rw [he2] at this
        have h2 : (acc.2.set tgt src).has tgt = true := by
          rw [Dict.has_iff]; exact Dict.get?_mem_keys (by rw [Dict.get?_set, if_pos rfl])
        rw [h2] at this; cases this
      · intro e he
        rcases List.mem_cons.1 he with rfl | he
        · exact a3
        · have := b4 e he
          dsimp only at this
          by_contra hne
          have hne' : acc.2.has e.2 = true := by simpa using hne
          rw [Dict.has_iff] at hne'
          obtain ⟨w, hw⟩ := Dict.mem_keys_get? hne'
          have h2 : (acc.2.set tgt src).has e.2 = true := by
            rw [Dict.has_iff]
            by_cases he2 : e.2 = tgt
            · exact Dict.get?_mem_keys (v := src) (by rw [Dict.get?_set, if_pos he2.symm])
            · exact Dict.get?_mem_keys (v := w) (by rw [Dict.get?_set, if_neg (Ne.symm he2)]; exact hw)
          rw [h2] at this; cases this
      · intro e he
        rcases List.mem_cons.1 he with rfl | he
        · exact ⟨a4, a6⟩
        · exact b5 e he
      · intro i e he
        cases i with
        | zero => simp at he; subst he; simpa using a5
        | succ i => simp only [List.getElem?_cons_succ] at he; simpa using b6 i e he
      · intro i e he
        cases i with
        | zero => simp at he; subst he; simpa using a7
        | succ i => simp only [List.getElem?_cons_succ] at he; simpa using b7 i e he
      · intro s t
        rw [b8, Dict.get?_set, List.mem_cons, Prod.mk.injEq]
        have hnone : acc.2.get? tgt = none := by
          cases hg : acc.2.get? tgt with
          | none => rfl
          | some w => rw [Dict.has_iff.2 (Dict.get?_mem_keys hg)] at a3; cases a3
        by_cases ht : tgt = t
        · subst ht
          rw [if_pos rfl, hnone]
          simp only [Option.some.injEq, and_true, reduceCtorEq, or_false]
          exact ⟨fun h => h.elim Or.inr fun h => Or.inl h.symm, fun h => h.elim (fun h => Or.inr h.symm) Or.inl⟩
        · rw [if_neg ht]
          simp only [Ne.symm ht, and_false, false_or]

/-- contraction of a node without in-edges adds no in-edges to variables beyond moving -/
theorem contract_one {g : Graph} {u v : Nat} (hv : ∀ a, ¬ g.Edge a v) {P : Nat → Prop} (hP : ∀ a a' b, P b → g.Edge a b → g.Edge a' b → a = a')
    (hout : ∀ b, P b → ¬ g.Edge v b) : ∀ a a' b, P b → (g.contract u v).Edge a b → (g.contract u v).Edge a' b → a = a' := by
  intro a a' b hb h1 h2
  rw [Graph.edge_contract] at h1 h2
  rcases h1 with ⟨h1, _⟩ | ⟨h1, _⟩ | ⟨h1, _⟩
  · rcases h2 with ⟨h2, _⟩ | ⟨h2, _⟩ | ⟨h2, _⟩
    · exact hP _ _ _ hb h1 h2
    · exact absurd h2 (hv _)
    · exact absurd h2 (hout b hb)
  · exact absurd h1 (hv _)
  · exact absurd h1 (hout b hb)

end

end Csdl
