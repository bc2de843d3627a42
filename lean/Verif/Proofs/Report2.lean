import Verif.Proofs.Report

namespace Csdl

/-- the row of one variable of the model reached through `path` -/
def RowAt (I : NHeap) (m : Model) (path : List Name) (v : Nat) (line : HLine) : Prop :=
  ∃ q ≤ path.length, ∃ k w level, PromotedAs m path k w (fullName (path.take q) (I v).name) ∧ w.name = (I v).name ∧ LevelsShown path.length (max q 1) level ∧
    line = ⟨v, (I v).name, (I v).role, level, (I v).shape, fullName (path.take q) (I v).name, fullName path (I v).name⟩

/-- the section of the model reached through `path`, with graph `g` -/
structure SecAt (I : NHeap) (m : Model) (e : List Name × Graph) (sec : HSection) : Prop where
  depth : sec.depth = e.1.length
  name : sec.name = e.1.getLast?.getD systemLevel
  rows : List.Forall₂ (RowAt I m e.1) ((varNodes I e.2).filter (named I)) sec.lines

theorem section_ok {I : NHeap} {m : Model} {st : FState} {path : List Name} {g' : Graph} (hg : ∀ s ∈ path, GoodName s)
    (hrow : ∀ v ∈ g'.nodes, (I v).kind = .var → (I v).name ≠ (I v).auto → ∃ q ≤ path.length, ∃ k w, PromotedAs m path k w (fullName (path.take q) (I v).name) ∧ w.name = (I v).name ∧
      st.ns v = joinDot (path.take q) ∧ st.uns v = descend [] path) :
    ∃ ls, hierarchyLines I st ([] :: path) path.length (varNodes I g') = .ok ls ∧ List.Forall₂ (RowAt I m path) ((varNodes I g').filter (named I)) ls := by
  have key : ∀ v ∈ varNodes I g', (I v).name ≠ (I v).auto → ∃ x, hierarchyLine I st ([] :: path) path.length v = .ok x ∧ RowAt I m path v x := by
    intro v hv hn
    obtain ⟨hv1, hv2⟩ := List.mem_filter.1 hv
    obtain ⟨q, hq, k, w, h1, h2, h3, h4⟩ := hrow v hv1 (of_decide_eq_true hv2) hn
    obtain ⟨level, h5, h6⟩ := hierarchyLine_ok (I := I) hg hq h3
    refine ⟨_, h5, q, hq, k, w, level, h1, h2, h6, ?_⟩
    rw [h3, prepend_joinDot (fun s hs => hg s (List.mem_of_mem_take hs)), h4, descend_prepend path (fun s hs => (hg s hs).1)]
    simp [prependNamespace, fullName]
  obtain ⟨ls, h1, h2⟩ := hierarchyLines_ok (I := I) (st := st) (h := [] :: path) (n := path.length) (varNodes I g') (fun v hv hn => by
    obtain ⟨x, hx, _⟩ := key v hv hn; exact ⟨x, hx⟩)
  refine ⟨ls, h1, forall₂_imp_left ?_ h2⟩
  intro v hv x hx
  obtain ⟨hv1, hv2⟩ := List.mem_filter.1 hv
  obtain ⟨y, hy, hr⟩ := key v hv1 (of_decide_eq_true hv2)
  rw [hx] at hy
  cases hy
  exact hr

theorem flattenA_ok {m : Model} (hd : DotFree m) {r : Res} (hr : resolve m none = .ok r) {I : NHeap} {g : Graph} {kids : Kids} {st : FState}
    (hk : HierOk g kids) (hrep : Represents m I g kids) (h : flatten I r.p2u (createReverseMap r.p2u) g kids = .ok st) :
    ∃ secs, flattenA I r.p2u (createReverseMap r.p2u) g kids = .ok (st, secs) ∧ List.Forall₂ (SecAt I m) (([], g) :: kids.walk []) secs := by
  have hfacts := (flatten_facts hk h).2.2.2
  have hrow : ∀ path g' ks', HierAt g kids path g' ks' → (∀ s ∈ path, GoodName s) ∧ ∀ v ∈ g'.nodes, (I v).kind = .var → (I v).name ≠ (I v).auto →
      ∃ q ≤ path.length, ∃ k w, PromotedAs m path k w (fullName (path.take q) (I v).name) ∧ w.name = (I v).name ∧ st.ns v = joinDot (path.take q) ∧ st.uns v = descend [] path := by
    intro path g' ks' hp
    obtain ⟨m', hm'⟩ := hrep.paths path g' ks' hp
    have hg := at_good' hd hm'
    refine ⟨hg, ?_⟩
    intro v hv hvar hn
    obtain ⟨k, w, p, hw, hwn, _⟩ := hrep.named path g' ks' hp v hv hvar hn
    obtain ⟨q, hq, rfl⟩ := promoted_prefix hd hr hw
    obtain ⟨h1, h2⟩ := hfacts path g' ks' hp v hv hvar
    refine ⟨q, hq, k, w, by rw [← hwn]; exact hw, hwn, ?_, h1⟩
    have := (C29_names_partial m hd r hr I g kids st hk h path g' ks' hp v hv hvar k w _ hw hwn).1
    unfold FState.pname at this
    rw [hwn, ← prepend_joinDot (fun s hs => hg s (List.mem_of_mem_take hs))] at this
    exact prepend_right_inj this
  -- the child models
  have hkids : ∀ e ∈ kids.walk [], ∃ sec, WritesTo I st e sec ∧ SecAt I m e sec := by
    intro e he
    obtain ⟨path, ks', h1, h2, hat⟩ := kids.walk_at he
    rw [List.nil_append] at h1
    obtain ⟨hg, hr'⟩ := hrow path e.2 ks' (Or.inr hat)
    obtain ⟨ls, h3, h4⟩ := section_ok hg hr'
    have hdl : path.dropLast ++ [path.getLast?.getD []] = path := by
      rw [List.getLast?_eq_some_getLast h2]
      exact List.dropLast_append_getLast h2
    have hlen : ([] :: path.dropLast : List Name).length = path.length := by
      have := List.length_pos_iff.2 h2
      simp; omega
    refine ⟨⟨path.length, path.getLast?.getD [], ls⟩, ?_, ⟨by rw [h1], ?_, by rw [h1]; exact h4⟩⟩
    · unfold WritesTo writeSection
      dsimp only
      rw [h1, List.cons_append, hdl, hlen, h3]
    · rw [h1, List.getLast?_eq_some_getLast h2]
      rfl
  unfold flatten at h
  obtain ⟨secs, a1, a2⟩ := mergeKidsA_ok kids (p := []) hk.kids h (fun e he => by obtain ⟨s, hs, _⟩ := hkids e he; exact ⟨s, hs⟩)
  obtain ⟨hg, hr'⟩ := hrow [] g kids (Or.inl ⟨rfl, rfl, rfl⟩)
  obtain ⟨ls, h3, h4⟩ := section_ok hg hr'
  have hroot : writeSection I ⟨g.removeNodes kids.ids, fun v => if v ∈ varNodes I g then rootNs I r.p2u (createReverseMap r.p2u) v else [], fun _ => []⟩ none systemLevel g = .ok ⟨0, systemLevel, ls⟩ := by
    rw [writeSection_congr (st' := st)]
    · unfold writeSection
      dsimp only
      rw [show ([] : List Name).length = 0 from rfl] at h3
      rw [h3]
    · intro v hv
      have := mergeKids_frame kids hk.kids h v (hk.disj v hv)
      exact ⟨this.1.symm, this.2.symm⟩
  unfold flattenA
  dsimp only
  rw [hroot]
  dsimp only
  rw [a1]
  refine ⟨_, rfl, .cons ⟨rfl, rfl, h4⟩ (forall₂_imp_left ?_ a2)⟩
  intro e he s hs
  obtain ⟨s', h5, h6⟩ := hkids e he
  unfold WritesTo at hs h5
  rw [hs] at h5
  cases h5
  exact h6

theorem flattenA_sound {I : NHeap} {p2u u2p} {g : Graph} {kids : Kids} {st secs} (h : flattenA I p2u u2p g kids = .ok (st, secs)) : flatten I p2u u2p g kids = .ok st := by
  unfold flattenA at h
  dsimp only at h
  split at h
  · cases h
  · rename_i sec hs
    split at h
    · cases h
    · rename_i st' l hm
      cases h
      exact mergeKidsA_sound kids hm

/-! ### objects -/

variable {H : Objs} {n fuel : Nat} {root : OModel} {g : Graph} {kids : Kids}

theorem sections_describe (hok : ObjectsOk H n root) (hf : Enough H n fuel root) (hg : root.graphs H fuel = .ok (g, kids)) {secs : List HSection}
    (hs : List.Forall₂ (SecAt H.info (root.toModel H)) (([], g) :: kids.walk []) secs) : Describes H root secs := by
  have hat : ∀ e ∈ ([], g) :: kids.walk [], ∃ ks', HierAt g kids e.1 e.2 ks' := by
    intro e he
    rcases List.mem_cons.1 he with rfl | he
    · exact ⟨kids, Or.inl ⟨rfl, rfl, rfl⟩⟩
    · obtain ⟨path, ks', h1, _, h2⟩ := kids.walk_at he
      rw [List.nil_append] at h1
      exact ⟨ks', Or.inr (h1 ▸ h2)⟩
  refine ⟨(([], g) :: kids.walk []).map Prod.fst, ?_, ?_, walk_indented kids, ?_⟩
  · rw [List.map_cons, List.nodup_cons]
    constructor
    · intro hc
      obtain ⟨e, he, h0⟩ := List.mem_map.1 hc
      obtain ⟨path, ks', h1, h2, _⟩ := kids.walk_at he
      rw [List.nil_append] at h1
      exact h2 (h1.symm.trans h0)
    · refine walk_nodup kids ?_ (kids_names kids (graphs_ok hg).1).1 _
      intro path g' ks' hp
      obtain ⟨m, h1, _, h2⟩ := hier_graphOf hok hf hg (Or.inr hp)
      exact (kids_names ks' (graphs_ok h2).1).1
  · intro path
    constructor
    · intro hp
      obtain ⟨e, he, rfl⟩ := List.mem_map.1 hp
      obtain ⟨ks', h1⟩ := hat e he
      obtain ⟨m, h2, _⟩ := hier_graphOf hok hf hg h1
      exact ⟨m, h2⟩
    · rintro ⟨m, hm⟩
      obtain ⟨g', ks', h1, _⟩ := oat_graphOf hok hf hg hm
      rcases h1 with ⟨rfl, rfl, rfl⟩ | h1
      · simp
      · rw [List.map_cons]
        have := h1.walk []
        rw [List.nil_append] at this
        exact List.mem_cons_of_mem _ (List.mem_map.2 ⟨_, this, rfl⟩)
  · rw [List.forall₂_map_left_iff]
    refine forall₂_imp_left ?_ hs
    intro e he sec hsec
    obtain ⟨ks', h1⟩ := hat e he
    obtain ⟨m, hm, hgo, hgr⟩ := hier_graphOf hok hf hg h1
    have hmo := hok.models _ m hm
    have hmem : ∀ v, v ∈ (varNodes H.info e.2).filter (named H.info) ↔ v ∈ e.2.nodes ∧ (H v).kind = .var ∧ (H v).name ≠ (H v).auto := by
      intro v
      rw [List.mem_filter, varNodes, List.mem_filter]
      simp only [named, decide_eq_true_eq, and_assoc]
      rfl
    have hvars : ∀ v, v ∈ e.2.nodes → (H v).kind = .var → (H v).name ≠ (H v).auto → v ∈ m.vars ∧ m.Uses H v := by
      intro v h2 h3 h4
      have hu := uses_of_var hok hm hgo h2 (by rw [h3]; simp)
      exact ⟨vars_of_named hmo hu h3 h4, hu⟩
    refine ⟨m, hm, hsec.depth, hsec.name, ?_, ?_, ?_⟩
    · intro line hl
      obtain ⟨v, hv, hrow⟩ := forall₂_mem_right hsec.rows hl
      obtain ⟨v1, v2, v3⟩ := (hmem v).1 hv
      obtain ⟨hv4, hv5⟩ := hvars v v1 v2 v3
      obtain ⟨q, hq, k, w, level, p1, p2, p3, rfl⟩ := hrow
      exact ⟨v, hv4, hv5, rfl, rfl, rfl, rfl, ⟨k, w, p1, p2⟩, rfl⟩
    · intro x hx hu
      have hkx : (H x).kind = .var := by
        rcases List.mem_append.1 hx with h2 | h2
        · rcases List.mem_append.1 h2 with h2 | h2
          · exact hmo.names.inputVars x h2
          · exact (hmo.outputRole x h2).1
        · exact (hmo.declaredRole x h2).1
      obtain ⟨v, v1, v2, v3, _⟩ := hgo.uses x hu
      have hvk : (H v).kind = .var := v3.trans hkx
      have hvu := uses_of_var hok hm hgo v1 (by rw [hvk]; simp)
      have hvn : (H v).name ≠ (H v).auto := by
        intro hc
        obtain ⟨hn1, hn2⟩ := auto_needs hmo hvu hc
        obtain ⟨_, hau⟩ := hok.auto _ m hm v hn1 hvk hn2
        rcases hau _ m hm x (Or.inl hx) v2.symm with h3 | h3
        · exact hn2 (h3 ▸ hx)
        · exact h3.1 rfl
      obtain ⟨line, hl, hrow⟩ := forall₂_mem_left hsec.rows ((hmem v).2 ⟨v1, hvk, hvn⟩)
      obtain ⟨q, hq, k, w, level, p1, p2, p3, rfl⟩ := hrow
      refine ⟨_, hl, v2, ?_⟩
      rcases hmo.sourceNames v (hvars v v1 hvk hvn).1 x hx v2 with h3 | h3
      · exact Or.inl h3
      · exact Or.inr ⟨h3.2, h3.1⟩
    · have hnd : ((varNodes H.info e.2).filter (named H.info)).map (fun v => (H v).name) = sec.lines.map HLine.name := by
        have := hsec.rows
        generalize (varNodes H.info e.2).filter (named H.info) = L at this
        generalize sec.lines = M at this
        induction this with
        | nil => rfl
        | cons h2 _ ih =>
          obtain ⟨q, hq, k, w, level, p1, p2, p3, rfl⟩ := h2
          simp only [List.map_cons, List.cons.injEq]
          exact ⟨rfl, ih⟩
      rw [← hnd]
      refine List.Nodup.map_on ?_ ((hgo.wf.nodup.filter _).filter _)
      intro a ha b hb hab
      exact hgo.byName a ((hmem a).1 ha).1 b ((hmem b).1 hb).1 hab

end Csdl
