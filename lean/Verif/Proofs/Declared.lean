import Verif.Props.BuildGraph
/-
Which of several declared variables of one name becomes the node of the graph of a model: the last one declared.
-/
namespace Csdl

/-- `c` is the last member of `l` with its name -/
def LastOf (name : Nat → Name) (l : List Nat) (c : Nat) : Prop := ∃ l1 l2, l = l1 ++ c :: l2 ∧ ∀ u ∈ l2, name u ≠ name c

theorem exists_lastOf {name : Nat → Name} {l : List Nat} {c : Nat} (hc : c ∈ l) : ∃ d, LastOf name l d ∧ name d = name c := by
  induction l with
  | nil => cases hc
  | cons a l ih =>
    by_cases h : ∃ d ∈ l, name d = name c
    · obtain ⟨d, hd, e⟩ := h
      by_cases hcl : c ∈ l
      · obtain ⟨d, ⟨l1, l2, rfl, h2⟩, e⟩ := ih hcl
        exact ⟨d, ⟨a :: l1, l2, rfl, h2⟩, e⟩
      · obtain rfl : c = a := by
          rcases List.mem_cons.1 hc with h | h
          · exact h
          · exact absurd h hcl
        clear ih hc hcl
        induction l generalizing d c with
        | nil => cases hd
        | cons b l ih2 =>
          by_cases h : ∃ d ∈ l, name d = name c
          · obtain ⟨d', hd', e'⟩ := h
            obtain ⟨x, ⟨l1, l2, h1, h2⟩, e2⟩ := ih2 d' hd' e'
            cases l1 with
            | nil =>
              simp only [List.nil_append, List.cons.injEq] at h1
              obtain ⟨rfl, rfl⟩ := h1
              exact absurd e' (h2 d' hd')
            | cons y l1 =>
              simp only [List.cons_append, List.cons.injEq] at h1
              obtain ⟨rfl, rfl⟩ := h1
              exact ⟨x, ⟨c :: b :: l1, l2, rfl, h2⟩, e2⟩
          · push Not at h
            rcases List.mem_cons.1 hd with rfl | hd
            · exact ⟨d, ⟨[c], l, rfl, fun u hu => by rw [e]; exact h u hu⟩, e⟩
            · exact absurd e (h d hd)
    · push Not at h
      rcases List.mem_cons.1 hc with rfl | hc
      · exact ⟨c, ⟨[], l, rfl, h⟩, rfl⟩
      · exact absurd rfl (h c hc)

theorem LastOf.mem {name : Nat → Name} {l : List Nat} {c : Nat} (h : LastOf name l c) : c ∈ l := by
  obtain ⟨l1, l2, rfl, _⟩ := h; simp

theorem LastOf.eq {name : Nat → Name} {l : List Nat} {c d : Nat} (h : LastOf name l c) (h' : LastOf name l d) (e : name c = name d) : c = d := by
  obtain ⟨l1, l2, rfl, h1⟩ := h
  obtain ⟨k1, k2, h2, h3⟩ := h'
  rcases List.append_eq_append_iff.1 h2 with ⟨as, rfl, h4⟩ | ⟨bs, rfl, h4⟩
  · cases as with
    | nil => simp only [List.nil_append, List.cons.injEq] at h4; exact h4.1
    | cons a as =>
      simp only [List.cons_append, List.cons.injEq] at h4
      exact absurd e.symm (h1 d (by rw [h4.2]; simp))
  · cases bs with
    | nil => simp only [List.nil_append, List.cons.injEq] at h4; exact h4.1.symm
    | cons a as =>
      simp only [List.cons_append, List.cons.injEq] at h4
      exact absurd e (h3 c (by rw [h4.2]; simp))

/-- variables without dependencies at the front of the queue: the first one of each name becomes its node -/
theorem buildLoop_first {h : Heap} (l q : List Nat) : ∀ (fuel : Nat) (st st' : BState), (∀ c ∈ l, (h c).kind = .var ∧ (h c).deps = []) → st.queue = l ++ q → buildLoop h fuel st = .ok st' →
    (∀ a ∈ st.graph.nodes, st.nodes.get? (h a).name = some a) → (∀ k r, st.nodes.get? k = some r → (h r).name = k) →
    ∀ c l1 l2, l = l1 ++ c :: l2 → (∀ u ∈ l1, (h u).name ≠ (h c).name) → st.nodes.get? (h c).name = none → st'.nodes.get? (h c).name = some c := by
  induction l with
  | nil => intro _ _ _ _ _ _ _ _ c l1 l2 hl; simp at hl
  | cons c0 l ih =>
    intro fuel st st' hv hq hb hn hd c l1 l2 hl hne hnone
    cases fuel with
    | zero => simp [buildLoop, hq] at hb
    | succ fuel =>
      rw [buildLoop, hq] at hb
      dsimp only [List.cons_append] at hb
      cases hvis : visit h c0 { st with queue := l ++ q } with
      | error e => rw [hvis] at hb; cases hb
      | ok st1 =>
        rw [hvis] at hb
        dsimp only at hb
        unfold visit at hvis
        dsimp only at hvis
        cases hg : getGraphNode h st.nodes c0 with
        | error e => rw [hg] at hvis; cases hvis
        | ok x =>
          obtain ⟨nodes, gn⟩ := x
          rw [hg] at hvis
          dsimp only at hvis
          obtain ⟨k1, k2⟩ := hv c0 (by simp)
          rw [k2, k1] at hvis
          simp only [linkAll, reduceCtorEq, if_false] at hvis
          cases hvis
          have hnodes : (nodes = st.nodes.set (h c0).name c0 ∧ st.nodes.get? (h c0).name = none) ∨ (nodes = st.nodes ∧ st.nodes.get? (h c0).name ≠ none) := by
            unfold getGraphNode at hg
            cases hx : st.nodes.get? (h c0).name with
            | none =>
              rw [hx, k1] at hg
              simp only [reduceCtorEq, if_false] at hg
              cases hg
              exact Or.inl ⟨rfl, rfl⟩
            | some r =>
              rw [hx] at hg; dsimp only at hg
              split at hg
              · cases hg
              · cases hg; exact Or.inr ⟨rfl, by simp⟩
          have hgrow : ∀ k r, st.nodes.get? k = some r → nodes.get? k = some r := by
            intro k r hr
            rcases hnodes with ⟨e, e'⟩ | ⟨e, _⟩
            · rw [e, Dict.get?_set]
              split
              · rename_i e2; subst e2; rw [e'] at hr; cases hr
              · exact hr
            · rw [e]; exact hr
          have hd' : ∀ k r, nodes.get? k = some r → (h r).name = k := by
            intro k r hr
            rcases hnodes with ⟨e, e'⟩ | ⟨e, _⟩
            · rw [e, Dict.get?_set] at hr
              split at hr
              · rename_i e2; cases hr; exact e2
              · exact hd k r hr
            · rw [e] at hr; exact hd k r hr
          have hn' : ∀ a ∈ st.graph.nodes, nodes.get? (h a).name = some a := fun a ha => hgrow _ _ (hn a ha)
          cases l1 with
          | nil =>
            simp only [List.nil_append, List.cons.injEq] at hl
            obtain ⟨rfl, rfl⟩ := hl
            rcases hnodes with ⟨e, e'⟩ | ⟨e, e'⟩
            · exact (buildLoop_nodes fuel _ st' hb hn' hd').2 _ _ (by rw [e, Dict.get?_set]; simp)
            · exact absurd hnone e'
          | cons y l1 =>
            simp only [List.cons_append, List.cons.injEq] at hl
            obtain ⟨rfl, rfl⟩ := hl
            refine ih fuel _ st' (fun c hc => hv c (by simp [hc])) rfl hb hn' hd' c l1 l2 rfl (fun u hu => hne u (by simp [hu])) ?_
            rcases hnodes with ⟨e, e'⟩ | ⟨e, e'⟩
            · show nodes.get? _ = none
              rw [e, Dict.get?_set, if_neg (hne c0 (by simp))]; exact hnone
            · show nodes.get? _ = none
              rw [e]; exact hnone

/-- A declared variable that is a node of the graph of a model is the last declaration of its name. -/
theorem buildGraph_last {h : Heap} {subs inputs outputs declared : List Nat} {fuel : Nat} {st : BState} (hk : NamesOk h subs inputs (outputs ++ declared))
    (hdecl : ∀ c ∈ declared, (h c).kind = .var ∧ (h c).deps = []) (hin : ∀ c ∈ declared, ∀ i ∈ inputs, (h i).name ≠ (h c).name)
    (hr : buildGraph h subs inputs outputs declared fuel = .ok st) {c : Nat} (hc : c ∈ declared) :
    c ∈ st.graph.nodes → LastOf (fun i => (h i).name) declared c := by
  intro hcn
  unfold buildGraph at hr
  have hi := BInv.init hk
  have hn0 : ∀ a ∈ ((addModels h ({}, []) subs).1.addNodes ((Dict.ofPairs (inputs.map fun i => ((h i).name, i))).map (·.2))).nodes,
      ((addModels h ({}, []) subs).2.update (Dict.ofPairs (inputs.map fun i => ((h i).name, i)))).get? (h a).name = some a := by
    intro a ha
    rcases (hi.nodes a).1 ha with h1 | ⟨b, h1 | h1⟩
    · exact hi.baseNodes a h1
    · obtain ⟨u, v, ⟨_, h2, _⟩, _⟩ := (hi.edges _ _).1 h1; cases h2
    · obtain ⟨u, v, ⟨_, h2, _⟩, _⟩ := (hi.edges _ _).1 h1; cases h2
  obtain ⟨hn, hg⟩ := buildLoop_nodes fuel _ st hr hn0 hi.names
  obtain ⟨d, hd, e⟩ := exists_lastOf (name := fun i => (h i).name) hc
  have hcd : c = d := by
    obtain ⟨l1, l2, h1, h2⟩ := hd
    have hdm : d ∈ declared := by rw [h1]; simp
    have := buildLoop_first (h := h) declared.reverse outputs.reverse fuel _ st (fun c hc => hdecl c (List.mem_reverse.1 hc)) (by simp) hr hn0 hi.names d l2.reverse l1.reverse
      (by rw [h1]; simp) (fun u hu => h2 u (List.mem_reverse.1 hu)) (by
        dsimp only
        cases hx : ((addModels h ({}, []) subs).2.update (Dict.ofPairs (inputs.map fun i => ((h i).name, i)))).get? (h d).name with
        | none => rfl
        | some r =>
          exfalso
          have hrn := hi.names _ _ hx
          have hneed : Needed h (outputs ++ declared) d := .leaf d (by simp [hdm])
          have hcont : r ∈ subs ∨ r ∈ inputs := by
            obtain ⟨a1, a2, a3, a4, a5, a6, a7⟩ := addModels_spec (h := h) subs ({}, []) [] (by simp [Dict.get?]) (by simp [Dict.get?]) (by simp [Dict.get?]) rfl Graph.wf_empty
            rw [Dict.get?_update _ (Dict.nodup_ofPairs _)] at hx
            cases hy : (Dict.ofPairs (inputs.map fun i => ((h i).name, i))).get? (h d).name with
            | none =>
              rw [hy] at hx
              rcases a2 _ _ (by simpa using hx) with h3 | h3
              · cases h3
              · exact Or.inl h3
            | some x =>
              rw [hy] at hx; simp at hx; subst hx
              have hr' : Dict.get? (Dict.update [] (inputs.map fun i => ((h i).name, i))) (h d).name = some x := hy
              rcases Dict.mem_update hr' with h1 | h1
              · obtain ⟨i, hi, he⟩ := List.mem_map.1 h1
                exact Or.inr ((Prod.mk.inj he).2 ▸ hi)
              · simp [Dict.get?] at h1
          rcases hcont with h3 | h3
          · exact hk.subNames r h3 d (Or.inl hneed) hrn
          · exact hin d hdm r h3 hrn)
    have hcc := hn c hcn
    have e' : (h d).name = (h c).name := e
    rw [← e', this] at hcc
    exact (Option.some.inj hcc).symm
  rw [hcd]; exact hd

end Csdl
