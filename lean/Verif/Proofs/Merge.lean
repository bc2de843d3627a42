import Verif.Proofs.Flatten
/-
Contraction of nodes, and the automatic merging of variables with the same promoted name.
-/
namespace Csdl

theorem Graph.edge_contract {g : Graph} {u v a b : Nat} : (g.contract u v).Edge a b ↔
    (g.Edge a b ∧ a ≠ v ∧ b ≠ v) ∨ (g.Edge a v ∧ a ≠ u ∧ a ≠ v ∧ b = u) ∨ (g.Edge v b ∧ b ≠ u ∧ b ≠ v ∧ a = u) := by
  unfold contract
  dsimp only
  rw [mem_edges_addEdges, edge_removeNode, List.mem_append, List.mem_map, List.mem_map]
  apply or_congr Iff.rfl
  apply or_congr
  · constructor
    · rintro ⟨⟨x, y⟩, hm, he⟩
      rw [List.mem_filter] at hm
      simp only [decide_eq_true_eq] at hm
      simp only [Prod.mk.injEq] at he
      obtain ⟨h1, rfl, h2, h3⟩ := hm
      obtain ⟨rfl, rfl⟩ := he
      exact ⟨h1, h2, h3, rfl⟩
    · rintro ⟨h1, h2, h3, rfl⟩
      exact ⟨(a, v), by rw [List.mem_filter]; exact ⟨h1, by simp [h2, h3]⟩, rfl⟩
  · constructor
    · rintro ⟨⟨x, y⟩, hm, he⟩
      rw [List.mem_filter] at hm
      simp only [decide_eq_true_eq] at hm
      simp only [Prod.mk.injEq] at he
      obtain ⟨h1, rfl, h2, h3⟩ := hm
      obtain ⟨rfl, rfl⟩ := he
      exact ⟨h1, h2, h3, rfl⟩
    · rintro ⟨h1, h2, h3, rfl⟩
      exact ⟨(v, b), by rw [List.mem_filter]; exact ⟨h1, by simp [h2, h3]⟩, rfl⟩

theorem Graph.mem_nodes_contract {g : Graph} (hw : g.WF) {u v a : Nat} (hu : u ∈ g.nodes) (huv : u ≠ v) :
    a ∈ (g.contract u v).nodes ↔ a ∈ g.nodes ∧ a ≠ v := by
  unfold contract
  dsimp only
  rw [mem_nodes_addEdges, mem_nodes_removeNode]
  constructor
  · rintro (h | ⟨⟨x, y⟩, hm, ha⟩)
    · exact h
    · rw [List.mem_append, List.mem_map, List.mem_map] at hm
      rcases hm with ⟨⟨p, q⟩, hm, he⟩ | ⟨⟨p, q⟩, hm, he⟩ <;>
      · rw [List.mem_filter] at hm
        simp only [decide_eq_true_eq] at hm
        simp only [Prod.mk.injEq] at he
        obtain ⟨h1, rfl, h2, h3⟩ := hm
        obtain ⟨rfl, rfl⟩ := he
        have e1 := hw.left _ _ h1
        have e2 := hw.right _ _ h1
        rcases ha with ha | ha <;> dsimp only at ha <;> subst ha
        all_goals first | exact ⟨hu, huv⟩ | exact ⟨e1, h3⟩ | exact ⟨e2, h3⟩
  · intro h; exact Or.inl h

theorem Graph.wf_contract {g : Graph} (hw : g.WF) (u v : Nat) : (g.contract u v).WF :=
  wf_addEdges (wf_removeNode hw v) _

theorem IsImage.refl {g : Graph} (hw : g.WF) : IsImage g id g :=
  ⟨fun a => by simp, fun a b => ⟨fun h => ⟨a, b, h, rfl, rfl⟩, by rintro ⟨_, _, h, rfl, rfl⟩; exact h⟩, hw⟩

theorem IsImage.contract {G : Graph} {f : Nat → Nat} {G' : Graph} (h : IsImage G f G') {u v : Nat} (hu : u ∈ G'.nodes) (huv : u ≠ v)
    (h1 : ¬ G'.Edge u v) (h2 : ¬ G'.Edge v u) (h3 : ¬ G'.Edge v v) :
    IsImage G (fun x => if f x = v then u else f x) (G'.contract u v) := by
  refine ⟨?_, ?_, Graph.wf_contract h.wf u v⟩
  · intro a
    rw [Graph.mem_nodes_contract h.wf hu huv, h.nodes]
    constructor
    · rintro ⟨⟨x, hx, rfl⟩, hne⟩
      exact ⟨x, hx, by rw [if_neg hne]⟩
    · rintro ⟨x, hx, he⟩
      split at he
      · subst he
        exact ⟨(h.nodes _).1 hu, huv⟩
      · subst he
        exact ⟨⟨x, hx, rfl⟩, by assumption⟩
  · intro a b
    rw [Graph.edge_contract]
    constructor
    · rintro (⟨he, ha, hb⟩ | ⟨he, ha, hb, rfl⟩ | ⟨he, ha, hb, rfl⟩)
      · obtain ⟨x, y, hxy, rfl, rfl⟩ := (h.edges _ _).1 he
        exact ⟨x, y, hxy, by rw [if_neg ha], by rw [if_neg hb]⟩
      · obtain ⟨x, y, hxy, rfl, hy⟩ := (h.edges _ _).1 he
        exact ⟨x, y, hxy, by rw [if_neg hb], by rw [if_pos hy]⟩
      · obtain ⟨x, y, hxy, hx, rfl⟩ := (h.edges _ _).1 he
        exact ⟨x, y, hxy, by rw [if_pos hx], by rw [if_neg hb]⟩
    · rintro ⟨x, y, hxy, rfl, rfl⟩
      have he := (h.edges _ _).2 ⟨x, y, hxy, rfl, rfl⟩
      by_cases hx : f x = v
      · by_cases hy : f y = v
        · rw [hx, hy] at he; exact absurd he h3
        · rw [if_pos hx, if_neg hy]
          rw [hx] at he
          have : f y ≠ u := fun e => h2 (e ▸ he)
          exact Or.inr (Or.inr ⟨he, this, hy, rfl⟩)
      · by_cases hy : f y = v
        · rw [if_neg hx, if_pos hy]
          rw [hy] at he
          have : f x ≠ u := fun e => h1 (e ▸ he)
          exact Or.inr (Or.inl ⟨he, this, hx, rfl⟩)
        · rw [if_neg hx, if_neg hy]
          exact Or.inl ⟨he, hx, hy⟩

/-- The replacements of a sequence of contractions. -/
def substAll (L : List (Nat × Nat)) (x : Nat) : Nat := L.foldl (fun y e => if y = e.2 then e.1 else y) x

theorem substAll_notin {L : List (Nat × Nat)} {x : Nat} (h : ∀ e ∈ L, e.2 ≠ x) : substAll L x = x := by
  unfold substAll
  induction L with
  | nil => rfl
  | cons e L ih =>
    rw [List.foldl_cons, if_neg (Ne.symm (h e (by simp)))]
    exact ih (fun e he => h e (by simp [he]))

theorem substAll_mem {L : List (Nat × Nat)} {x r : Nat} (hx : ∃ e ∈ L, e.2 = x) (hr : ∀ e ∈ L, e.2 = x → e.1 = r) (hn : ∀ e ∈ L, e.2 ≠ r) :
    substAll L x = r := by
  unfold substAll
  induction L with
  | nil => obtain ⟨e, he, _⟩ := hx; cases he
  | cons e L ih =>
    rw [List.foldl_cons]
    by_cases h : x = e.2
    · rw [if_pos h, hr e (by simp) h.symm]
      exact substAll_notin (fun e he => hn e (by simp [he]))
    · rw [if_neg h]
      apply ih
      · obtain ⟨e', he', h'⟩ := hx
        rcases List.mem_cons.1 he' with rfl | he'
        · exact absurd h'.symm h
        · exact ⟨e', he', h'⟩
      · exact fun e he => hr e (by simp [he])
      · exact fun e he => hn e (by simp [he])

theorem substAll_append (L L' : List (Nat × Nat)) (x : Nat) : substAll (L ++ L') x = substAll L' (substAll L x) := by
  simp [substAll, List.foldl_append]

/-- A sequence of contractions between variables, none into a node already removed, gives the image under the replacements. -/
theorem isImage_contractions {I : NHeap} {G : Graph} (hb : Bipartite I G) (L : List (Nat × Nat)) :
    ∀ {f : Nat → Nat} {G' : Graph}, IsImage G f G' → (∀ x ∈ G.nodes, (I (f x)).kind = (I x).kind) →
      (∀ e ∈ L, e.1 ∈ G'.nodes ∧ (I e.1).kind = .var ∧ (I e.2).kind = .var ∧ e.1 ≠ e.2) → L.Pairwise (fun e e' => e'.1 ≠ e.2) →
      G.WF → IsImage G (fun x => substAll L (f x)) (L.foldl (fun g e => g.contract e.1 e.2) G') := by
  induction L with
  | nil => intro f G' h _ _ _ _; exact h
  | cons e L ih =>
    intro f G' h hf hL hp hw
    rw [List.foldl_cons]
    obtain ⟨h1, h2, h3, h4⟩ := hL e (by simp)
    have hno : ∀ a b, (I a).kind = .var → (I b).kind = .var → ¬ G'.Edge a b := by
      intro a b ha hb' he
      obtain ⟨x, y, hxy, rfl, rfl⟩ := (h.edges _ _).1 he
      rw [hf x (hw.left _ _ hxy)] at ha
      rw [hf y (hw.right _ _ hxy)] at hb'
      rcases hb x y hxy with ⟨_, k⟩ | ⟨k, _⟩
      · rw [k] at hb'; cases hb'
      · rw [k] at ha; cases ha
    have hc := h.contract h1 h4 (hno _ _ h2 h3) (hno _ _ h3 h2) (hno _ _ h3 h3)
    have := ih (f := fun x => if f x = e.2 then e.1 else f x) hc (by
      intro x hx
      split
      · rename_i he
        rw [← hf x hx, he, h2, h3]
      · exact hf x hx) (by
      intro e' he'
      obtain ⟨g1, g2, g3, g4⟩ := hL e' (by simp [he'])
      refine ⟨?_, g2, g3, g4⟩
      rw [Graph.mem_nodes_contract h.wf h1 h4]
      exact ⟨g1, (List.pairwise_cons.1 hp).1 e' he'⟩) (List.pairwise_cons.1 hp).2 hw
    exact this

/-! ### the dictionaries -/

section
variable {I : NHeap} {st : FState}

theorem uniqueTargets_inv (targets : List Nat) : ∀ (done : List Nat) (u : Dict Name Nat),
    (∀ k r, u.get? k = some r → r ∈ done ∧ st.pname I r = k ∧ (∀ t ∈ done, st.pname I t = k → dots (st.uns r) ≤ dots (st.uns t)) ∧
      ((∃ t ∈ done, st.pname I t = k ∧ dots (st.uns t) = dots (st.uns r) ∧ (I t).explicit = true) → (I r).explicit = true)) →
    (∀ t ∈ done, ∃ r, u.get? (st.pname I t) = some r) → u.keys.Nodup →
    (∀ k r, (targets.foldl (chooseTarget I st) u).get? k = some r → r ∈ done ++ targets ∧ st.pname I r = k ∧
      (∀ t ∈ done ++ targets, st.pname I t = k → dots (st.uns r) ≤ dots (st.uns t)) ∧
      ((∃ t ∈ done ++ targets, st.pname I t = k ∧ dots (st.uns t) = dots (st.uns r) ∧ (I t).explicit = true) → (I r).explicit = true)) ∧
    (∀ t ∈ done ++ targets, ∃ r, (targets.foldl (chooseTarget I st) u).get? (st.pname I t) = some r) ∧
    (targets.foldl (chooseTarget I st) u).keys.Nodup := by
  induction targets with
  | nil => intro done u h1 h2 h3; simp only [List.foldl_nil, List.append_nil]; exact ⟨h1, h2, h3⟩
  | cons t ts ih =>
    intro done u h1 h2 h3
    have hmove : done ++ t :: ts = (done ++ [t]) ++ ts := by simp
    rw [hmove, List.foldl_cons]
    apply ih (done ++ [t])
    · intro k r hr
      unfold chooseTarget at hr
      cases hu : u.get? (st.pname I t) with
      | none =>
        rw [hu] at hr; dsimp only at hr
        rw [Dict.get?_set] at hr
        split at hr
        · rename_i hk
          cases hr; subst hk
          have hnone : ∀ x ∈ done, st.pname I x ≠ st.pname I t := by
            intro x hx e
            obtain ⟨r, hr⟩ := h2 x hx
            rw [e, hu] at hr; cases hr
          refine ⟨by simp, rfl, ?_, ?_⟩
          · intro x hx e
            rcases List.mem_append.1 hx with hx | hx
            · exact absurd e (hnone x hx)
            · rw [List.mem_singleton] at hx; subst hx; exact le_refl _
          · rintro ⟨x, hx, e, _, he⟩
            rcases List.mem_append.1 hx with hx | hx
            · exact absurd e (hnone x hx)
            · rw [List.mem_singleton] at hx; subst hx; exact he
        · rename_i hk
          obtain ⟨a1, a2, a3, a4⟩ := h1 k r hr
          refine ⟨by simp [a1], a2, ?_, ?_⟩
          · intro x hx e
            rcases List.mem_append.1 hx with hx | hx
            · exact a3 x hx e
            · rw [List.mem_singleton] at hx; subst hx; exact absurd e hk
          · rintro ⟨x, hx, e, e2, he⟩
            rcases List.mem_append.1 hx with hx | hx
            · exact a4 ⟨x, hx, e, e2, he⟩
            · rw [List.mem_singleton] at hx; subst hx; exact absurd e hk
      | some c =>
        rw [hu] at hr; dsimp only at hr
        obtain ⟨c1, c2, c3, c4⟩ := h1 _ c hu
        by_cases hlt : dots (st.uns t) < dots (st.uns c)
        · rw [if_pos hlt, Dict.get?_set] at hr
          split at hr
          · rename_i hk
            cases hr; subst hk
            refine ⟨by simp, rfl, ?_, ?_⟩
            · intro x hx e
              rcases List.mem_append.1 hx with hx | hx
              · exact le_trans (le_of_lt hlt) (c3 x hx e)
              · rw [List.mem_singleton] at hx; subst hx; exact le_refl _
            · rintro ⟨x, hx, e, e2, he⟩
              rcases List.mem_append.1 hx with hx | hx
              · have := c3 x hx e; omega
              · rw [List.mem_singleton] at hx; subst hx; exact he
          · rename_i hk
            obtain ⟨a1, a2, a3, a4⟩ := h1 k r hr
            refine ⟨by simp [a1], a2, ?_, ?_⟩
            · intro x hx e
              rcases List.mem_append.1 hx with hx | hx
              · exact a3 x hx e
              · rw [List.mem_singleton] at hx; subst hx; exact absurd e hk
            · rintro ⟨x, hx, e, e2, he⟩
              rcases List.mem_append.1 hx with hx | hx
              · exact a4 ⟨x, hx, e, e2, he⟩
              · rw [List.mem_singleton] at hx; subst hx; exact absurd e hk
        · rw [if_neg hlt] at hr
          by_cases heq : dots (st.uns c) = dots (st.uns t) ∧ (I t).explicit = true
          · rw [if_pos heq, Dict.get?_set] at hr
            split at hr
            · rename_i hk
              cases hr; subst hk
              refine ⟨by simp, rfl, ?_, fun _ => heq.2⟩
              intro x hx e
              rcases List.mem_append.1 hx with hx | hx
              · rw [← heq.1]; exact c3 x hx e
              · rw [List.mem_singleton] at hx; subst hx; exact le_refl _
            · rename_i hk
              obtain ⟨a1, a2, a3, a4⟩ := h1 k r hr
              refine ⟨by simp [a1], a2, ?_, ?_⟩
              · intro x hx e
                rcases List.mem_append.1 hx with hx | hx
                · exact a3 x hx e
                · rw [List.mem_singleton] at hx; subst hx; exact absurd e hk
              · rintro ⟨x, hx, e, e2, he⟩
                rcases List.mem_append.1 hx with hx | hx
                · exact a4 ⟨x, hx, e, e2, he⟩
                · rw [List.mem_singleton] at hx; subst hx; exact absurd e hk
          · rw [if_neg heq] at hr
            obtain ⟨a1, a2, a3, a4⟩ := h1 k r hr
            refine ⟨by simp [a1], a2, ?_, ?_⟩
            · intro x hx e
              rcases List.mem_append.1 hx with hx | hx
              · exact a3 x hx e
              · rw [List.mem_singleton] at hx; subst hx
                rw [e, hr] at hu; cases hu; omega
            · rintro ⟨x, hx, e, e2, he⟩
              rcases List.mem_append.1 hx with hx | hx
              · exact a4 ⟨x, hx, e, e2, he⟩
              · rw [List.mem_singleton] at hx; subst hx
                rw [e, hr] at hu; cases hu
                exact absurd ⟨e2.symm, he⟩ heq
    · intro x hx
      have hmono : ∀ k r, u.get? k = some r → ∃ r', (chooseTarget I st u t).get? k = some r' := by
        intro k r hr
        unfold chooseTarget
        have hset : ∃ r', (u.set (st.pname I t) t).get? k = some r' := by
          rw [Dict.get?_set]; split
          · exact ⟨_, rfl⟩
          · exact ⟨_, hr⟩
        split
        · exact hset
        · split
          · exact hset
          · split
            · exact hset
            · exact ⟨r, hr⟩
      rcases List.mem_append.1 hx with hx | hx
      · obtain ⟨r, hr⟩ := h2 x hx
        exact hmono _ _ hr
      · rw [List.mem_singleton] at hx; subst hx
        unfold chooseTarget
        cases hu : u.get? (st.pname I x) with
        | none => exact ⟨x, by dsimp only; rw [Dict.get?_set]; simp⟩
        | some c =>
          obtain ⟨r', hr'⟩ := hmono _ _ hu
          unfold chooseTarget at hr'
          rw [hu] at hr'
          exact ⟨r', hr'⟩
    · unfold chooseTarget
      split
      · exact Dict.nodup_set h3 _ _
      · split
        · exact Dict.nodup_set h3 _ _
        · split
          · exact Dict.nodup_set h3 _ _
          · exact h3

theorem uniqueTargets_spec (targets : List Nat) :
    (∀ k r, (uniqueTargets I st targets).get? k = some r → r ∈ targets ∧ st.pname I r = k ∧
      (∀ t ∈ targets, st.pname I t = k → dots (st.uns r) ≤ dots (st.uns t)) ∧
      ((∃ t ∈ targets, st.pname I t = k ∧ dots (st.uns t) = dots (st.uns r) ∧ (I t).explicit = true) → (I r).explicit = true)) ∧
    (∀ t ∈ targets, ∃ r, (uniqueTargets I st targets).get? (st.pname I t) = some r) ∧
    (uniqueTargets I st targets).keys.Nodup := by
  have := uniqueTargets_inv (I := I) (st := st) targets [] [] (by simp [Dict.get?]) (by simp) (by simp [Dict.keys])
  simp only [List.nil_append] at this
  exact this

/-- a representative without a value is the first one of its name at its depth -/
theorem uniqueTargets_first (targets : List Nat) : ∀ k r, (uniqueTargets I st targets).get? k = some r →
    (I r).explicit = true ∨ ∃ l1 l2, targets = l1 ++ r :: l2 ∧ ∀ t ∈ l1, st.pname I t = k → dots (st.uns r) < dots (st.uns t) := by
  induction targets using List.reverseRecOn with
  | nil => intro k r h; simp [uniqueTargets, Dict.get?] at h
  | append_singleton l t ih =>
    intro k r h
    obtain ⟨s1, s2, _⟩ := uniqueTargets_spec (I := I) (st := st) l
    have e : uniqueTargets I st (l ++ [t]) = chooseTarget I st (uniqueTargets I st l) t := by simp [uniqueTargets]
    rw [e] at h
    have hold : (uniqueTargets I st l).get? k = some r → (I r).explicit = true ∨ ∃ l1 l2, l ++ [t] = l1 ++ r :: l2 ∧ ∀ t ∈ l1, st.pname I t = k → dots (st.uns r) < dots (st.uns t) := by
      intro h
      rcases ih k r h with h1 | ⟨l1, l2, rfl, h2⟩
      · exact Or.inl h1
      · exact Or.inr ⟨l1, l2 ++ [t], by simp, h2⟩
    unfold chooseTarget at h
    split at h
    · rename_i hn
      rw [Dict.get?_set] at h
      split_ifs at h with hk
      · cases h
        refine Or.inr ⟨l, [], rfl, fun t' ht' hp => ?_⟩
        obtain ⟨r', hr'⟩ := s2 t' ht'
        rw [hp, ← hk, hn] at hr'
        cases hr'
      · exact hold h
    · rename_i c hc
      split_ifs at h with h1 h2
      · rw [Dict.get?_set] at h
        split_ifs at h with hk
        · cases h
          refine Or.inr ⟨l, [], rfl, fun t' ht' hp => ?_⟩
          exact lt_of_lt_of_le h1 ((s1 _ _ hc).2.2.1 t' ht' (hp.trans hk.symm))
        · exact hold h
      · rw [Dict.get?_set] at h
        split_ifs at h with hk
        · cases h
          exact Or.inl h2.2
        · exact hold h
      · exact hold h

theorem mem_removeAll (reps : List Nat) : ∀ {targets : List Nat}, targets.Nodup → ∀ x, x ∈ removeAll targets reps ↔ x ∈ targets ∧ x ∉ reps := by
  unfold removeAll
  induction reps with
  | nil => intro t _ x; simp
  | cons r reps ih =>
    intro t ht x
    rw [List.foldl_cons, ih (ht.erase r), ht.mem_erase_iff, List.mem_cons]
    tauto

theorem groupTargets_spec (l : List Nat) : (groupTargets I st l).keys.Nodup ∧
    ∀ k ts, (groupTargets I st l).get? k = some ts → ∀ t, t ∈ ts ↔ t ∈ l ∧ st.pname I t = k := by
  suffices h : ∀ (done : List Nat) (d : Dict Name (List Nat)), d.keys.Nodup → (∀ t ∈ done, ∃ s, d.get? (st.pname I t) = some s) →
      (∀ k ts, d.get? k = some ts → ∀ t, t ∈ ts ↔ t ∈ done ∧ st.pname I t = k) →
      (l.foldl (groupStep I st) d).keys.Nodup ∧
      (∀ k ts, (l.foldl (groupStep I st) d).get? k = some ts →
        ∀ t, t ∈ ts ↔ t ∈ done ++ l ∧ st.pname I t = k) ∧
      (∀ t ∈ done ++ l, ∃ s, (l.foldl (groupStep I st) d).get? (st.pname I t) = some s) by
    have := h [] [] (by simp [Dict.keys]) (by simp) (by simp [Dict.get?])
    simp only [List.nil_append] at this
    exact ⟨this.1, this.2.1⟩
  induction l with
  | nil => intro done d h1 h2 h3; simp only [List.foldl_nil, List.append_nil]; exact ⟨h1, h3, h2⟩
  | cons x l ih =>
    intro done d h1 h2 h3
    have hmove : done ++ x :: l = (done ++ [x]) ++ l := by simp
    rw [hmove, List.foldl_cons]
    cases hg : d.get? (st.pname I x) with
    | none =>
      have e1 : groupStep I st d x = d.set (st.pname I x) [x] := by unfold groupStep; rw [hg]
      rw [e1]
      apply ih (done ++ [x])
      · exact Dict.nodup_set h1 _ _
      · intro t ht
        rw [Dict.get?_set]
        split
        · exact ⟨_, rfl⟩
        · rename_i hne
          rcases List.mem_append.1 ht with ht | ht
          · exact h2 t ht
          · rw [List.mem_singleton] at ht; subst ht; exact absurd rfl hne
      · intro k ts hk t
        rw [Dict.get?_set] at hk
        split at hk
        · rename_i he; cases hk; subst he
          rw [List.mem_singleton, List.mem_append, List.mem_singleton]
          constructor
          · rintro rfl; exact ⟨Or.inr rfl, rfl⟩
          · rintro ⟨ht | rfl, e⟩
            · obtain ⟨s, hs⟩ := h2 t ht
              rw [e, hg] at hs; cases hs
            · rfl
        · rename_i he
          rw [h3 k ts hk, List.mem_append, List.mem_singleton]
          constructor
          · rintro ⟨a, b⟩; exact ⟨Or.inl a, b⟩
          · rintro ⟨a | rfl, b⟩
            · exact ⟨a, b⟩
            · exact absurd b he
    | some s =>
      have e1 : groupStep I st d x = d.set (st.pname I x) (s ++ [x]) := by unfold groupStep; rw [hg]
      rw [e1]
      apply ih (done ++ [x])
      · exact Dict.nodup_set h1 _ _
      · intro t ht
        rw [Dict.get?_set]
        split
        · exact ⟨_, rfl⟩
        · rename_i hne
          rcases List.mem_append.1 ht with ht | ht
          · exact h2 t ht
          · rw [List.mem_singleton] at ht; subst ht; exact absurd rfl hne
      · intro k ts hk t
        rw [Dict.get?_set] at hk
        split at hk
        · rename_i he; cases hk; subst he
          rw [List.mem_append, h3 _ _ hg, List.mem_singleton, List.mem_append, List.mem_singleton]
          constructor
          · rintro (⟨a, b⟩ | rfl)
            · exact ⟨Or.inl a, b⟩
            · exact ⟨Or.inr rfl, rfl⟩
          · rintro ⟨a | rfl, b⟩
            · exact Or.inl ⟨a, b⟩
            · exact Or.inr rfl
        · rename_i he
          rw [h3 k ts hk, List.mem_append, List.mem_singleton]
          constructor
          · rintro ⟨a, b⟩; exact ⟨Or.inl a, b⟩
          · rintro ⟨a | rfl, b⟩
            · exact ⟨a, b⟩
            · exact absurd b he

theorem groupTargets_total (l : List Nat) {t : Nat} (ht : t ∈ l) : ∃ ts, (groupTargets I st l).get? (st.pname I t) = some ts := by
  suffices h : ∀ (l done : List Nat) (d : Dict Name (List Nat)), (∀ t ∈ done, ∃ s, d.get? (st.pname I t) = some s) →
      (∀ t ∈ done ++ l, ∃ s, (l.foldl (groupStep I st) d).get? (st.pname I t) = some s) by
    exact h l [] [] (by simp) t (by simpa using ht)
  intro l
  induction l with
  | nil => intro done d h; simpa using h
  | cons x l ih =>
    intro done d h
    have hmove : done ++ x :: l = (done ++ [x]) ++ l := by simp
    rw [hmove, List.foldl_cons]
    apply ih
    intro t ht
    have hset : ∀ s : List Nat, ∃ s', (d.set (st.pname I x) s).get? (st.pname I t) = some s' := by
      intro s
      rw [Dict.get?_set]
      split
      · exact ⟨_, rfl⟩
      · rename_i hne
        rcases List.mem_append.1 ht with ht | ht
        · exact h t ht
        · rw [List.mem_singleton] at ht; subst ht; exact absurd rfl hne
    unfold groupStep
    split <;> exact hset _

/-! ### the sequence of contractions -/

/-- contractions of the redundant targets -/
def redPairs (order : List Nat → List Nat) (u : Dict Name Nat) (red : Dict Name (List Nat)) : List (Nat × Nat) :=
  red.flatMap fun kt => match u.get? kt.1 with | none => [] | some r => (order kt.2).map fun t => (r, t)

/-- contractions into the sources -/
def srcPairs (u : Dict Name Nat) (sources : Dict Name Nat) : List (Nat × Nat) :=
  sources.filterMap fun ks => match u.get? ks.1 with | none => none | some r => some (ks.2, r)

theorem contractRedundant_eq (order : List Nat → List Nat) (u : Dict Name Nat) (red : Dict Name (List Nat)) (g : Graph) :
    contractRedundant order u red g = (redPairs order u red).foldl (fun g e => g.contract e.1 e.2) g := by
  unfold contractRedundant redPairs
  induction red generalizing g with
  | nil => rfl
  | cons kt red ih =>
    rw [List.foldl_cons, List.flatMap_cons, List.foldl_append, ih]
    congr 1
    cases u.get? kt.1 with
    | none => rfl
    | some r => dsimp only; rw [List.foldl_map]

theorem contractSources_eq (u : Dict Name Nat) (sources : Dict Name Nat) (g : Graph) :
    contractSources u sources g = (srcPairs u sources).foldl (fun g e => g.contract e.1 e.2) g := by
  unfold contractSources srcPairs
  induction sources generalizing g with
  | nil => rfl
  | cons ks sources ih =>
    rw [List.foldl_cons, ih, List.filterMap_cons]
    cases u.get? ks.1 with
    | none => rfl
    | some r => rfl

theorem mem_srcPairs {u sources : Dict Name Nat} (hn : sources.keys.Nodup) {a b : Nat} :
    (a, b) ∈ srcPairs u sources ↔ ∃ k, sources.get? k = some a ∧ u.get? k = some b := by
  unfold srcPairs
  rw [List.mem_filterMap]
  constructor
  · rintro ⟨⟨k, s⟩, hm, he⟩
    dsimp only at he
    cases hu : u.get? k with
    | none => rw [hu] at he; cases he
    | some r =>
      rw [hu] at he
      simp only [Option.some.injEq, Prod.mk.injEq] at he
      obtain ⟨rfl, rfl⟩ := he
      exact ⟨k, Dict.mem_get? hn hm, hu⟩
  · rintro ⟨k, h1, h2⟩
    exact ⟨(k, a), Dict.get?_some_mem h1, by dsimp only; rw [h2]⟩

theorem mem_redPairs {order : List Nat → List Nat} (ho : ∀ l x, x ∈ order l ↔ x ∈ l) {u : Dict Name Nat} {red : Dict Name (List Nat)}
    (hn : red.keys.Nodup) {a b : Nat} :
    (a, b) ∈ redPairs order u red ↔ ∃ k ts, red.get? k = some ts ∧ b ∈ ts ∧ u.get? k = some a := by
  unfold redPairs
  rw [List.mem_flatMap]
  constructor
  · rintro ⟨⟨k, ts⟩, hm, he⟩
    dsimp only at he
    cases hu : u.get? k with
    | none => rw [hu] at he; cases he
    | some r =>
      rw [hu] at he
      dsimp only at he
      rw [List.mem_map] at he
      obtain ⟨t, ht, e⟩ := he
      simp only [Prod.mk.injEq] at e
      obtain ⟨rfl, rfl⟩ := e
      exact ⟨k, ts, Dict.mem_get? hn hm, (ho _ _).1 ht, hu⟩
  · rintro ⟨k, ts, h1, h2, h3⟩
    refine ⟨(k, ts), Dict.get?_some_mem h1, ?_⟩
    dsimp only
    rw [h3]
    dsimp only
    rw [List.mem_map]
    exact ⟨b, (ho _ _).2 h2, rfl⟩

theorem pairwise_of_mem {α : Type} {R : α → α → Prop} {l : List α} (h : ∀ a ∈ l, ∀ b ∈ l, R a b) : l.Pairwise R := by
  induction l with
  | nil => exact .nil
  | cons a l ih =>
    exact .cons (fun b hb => h a (by simp) b (by simp [hb])) (ih (fun x hx y hy => h x (by simp [hx]) y (by simp [hy])))

/-- `x` is a variable node of the given graph declared by `declare_variable`. -/
def IsTarget (I : NHeap) (g : Graph) (x : Nat) : Prop := x ∈ g.nodes ∧ (I x).kind = .var ∧ (I x).role = .declared

/-- `x` is a variable node that is an input or an output. -/
def IsSource (I : NHeap) (g : Graph) (x : Nat) : Prop := x ∈ g.nodes ∧ (I x).kind = .var ∧ (I x).role ≠ .declared

theorem mem_targets {g : Graph} {x : Nat} : x ∈ tgtNodes I (varNodes I g) ↔ IsTarget I g x := by
  simp only [tgtNodes, varNodes, List.mem_filter, decide_eq_true_eq, IsTarget, and_assoc]

theorem mem_sources {g : Graph} {x : Nat} : x ∈ srcNodes I (varNodes I g) ↔ IsSource I g x := by
  simp only [srcNodes, varNodes, List.mem_filter, decide_eq_true_eq, IsSource, and_assoc]
  cases (I x).role <;> simp

/-- Everything about the result of the automatic merging. -/
theorem mergeAuto_spec {order : List Nat → List Nat} (ho : ∀ l x, x ∈ order l ↔ x ∈ l) (hw : st.graph.WF) (hb : Bipartite I st.graph)
    (hs : ∀ a b t, IsSource I st.graph a → IsSource I st.graph b → IsTarget I st.graph t → st.pname I t = st.pname I a → st.pname I a = st.pname I b → a = b) :
    ∃ f, IsImage st.graph f (mergeAuto I order st) ∧
      (∀ x, ¬ IsTarget I st.graph x → f x = x) ∧
      (∀ x s, IsTarget I st.graph x → IsSource I st.graph s → st.pname I s = st.pname I x → f x = s) ∧
      (∀ x, IsTarget I st.graph x → (∀ s, IsSource I st.graph s → st.pname I s ≠ st.pname I x) →
        (uniqueTargets I st (tgtNodes I (varNodes I st.graph))).get? (st.pname I x) = some (f x)) := by
  obtain ⟨u1, u2, u3⟩ := uniqueTargets_spec (I := I) (st := st) (tgtNodes I (varNodes I st.graph))
  have hnd : (tgtNodes I (varNodes I st.graph)).Nodup := (hw.nodup.filter _).filter _
  generalize hu : uniqueTargets I st (tgtNodes I (varNodes I st.graph)) = u at u1 u2 u3
  have hrem := fun x => mem_removeAll (u.map (·.2)) hnd x
  generalize hR : removeAll (tgtNodes I (varNodes I st.graph)) (u.map (·.2)) = R at hrem
  obtain ⟨g1, g2⟩ := groupTargets_spec (I := I) (st := st) R
  have g3 := fun t ht => groupTargets_total (I := I) (st := st) R (t := t) ht
  generalize hgr : groupTargets I st R = red at g1 g2 g3
  have hsn : (Dict.ofPairs ((srcNodes I (varNodes I st.graph)).map fun x => (st.pname I x, x))).keys.Nodup := Dict.nodup_ofPairs _
  have hsg : ∀ k s, (Dict.ofPairs ((srcNodes I (varNodes I st.graph)).map fun x => (st.pname I x, x))).get? k = some s →
      IsSource I st.graph s ∧ st.pname I s = k := by
    intro k s h
    have h' : Dict.get? (Dict.update [] ((srcNodes I (varNodes I st.graph)).map fun x => (st.pname I x, x))) k = some s := h
    rcases Dict.mem_update h' with h1 | h1
    · obtain ⟨y, hy, he⟩ := List.mem_map.1 h1
      cases he
      exact ⟨mem_sources.1 hy, rfl⟩
    · simp [Dict.get?] at h1
  have hsg2 : ∀ s t, IsSource I st.graph s → IsTarget I st.graph t → st.pname I t = st.pname I s →
      (Dict.ofPairs ((srcNodes I (varNodes I st.graph)).map fun x => (st.pname I x, x))).get? (st.pname I s) = some s := by
    intro s t h1 ht hn
    obtain ⟨s', hs'⟩ := Dict.mem_keys_get? (d := Dict.ofPairs ((srcNodes I (varNodes I st.graph)).map fun x => (st.pname I x, x))) (k := st.pname I s) (by
      rw [Dict.keys_ofPairs]; simp only [List.map_map, List.mem_map, Function.comp]; exact ⟨s, mem_sources.2 h1, rfl⟩)
    have := hsg _ _ hs'
    rw [hs', hs s' s t this.1 h1 ht (by rw [hn, this.2]) this.2]
  generalize hS : Dict.ofPairs ((srcNodes I (varNodes I st.graph)).map fun x => (st.pname I x, x)) = S at hsn hsg hsg2
  have hmerge : mergeAuto I order st = (redPairs order u red ++ srcPairs u S).foldl (fun g e => g.contract e.1 e.2) st.graph := by
    unfold mergeAuto
    dsimp only
    rw [hu, hR, hgr, hS, contractRedundant_eq, contractSources_eq, List.foldl_append]
  -- the two kinds of pairs
  have hrep : ∀ r, r ∈ u.map (·.2) ↔ ∃ k, u.get? k = some r := by
    intro r
    rw [List.mem_map]
    constructor
    · rintro ⟨⟨k, x⟩, hm, rfl⟩; exact ⟨k, Dict.mem_get? u3 hm⟩
    · rintro ⟨k, hk⟩; exact ⟨(k, r), Dict.get?_some_mem hk, rfl⟩
  have hred : ∀ a b, (a, b) ∈ redPairs order u red ↔ IsTarget I st.graph b ∧ (∀ k, u.get? k ≠ some b) ∧ u.get? (st.pname I b) = some a := by
    intro a b
    rw [mem_redPairs ho g1]
    constructor
    · rintro ⟨k, ts, h1, h2, h3⟩
      obtain ⟨h4, rfl⟩ := (g2 k ts h1 b).1 h2
      obtain ⟨h5, h6⟩ := (hrem b).1 h4
      refine ⟨mem_targets.1 h5, fun k hk => h6 ((hrep b).2 ⟨k, hk⟩), h3⟩
    · rintro ⟨h1, h2, h3⟩
      have hbR : b ∈ R := (hrem b).2 ⟨mem_targets.2 h1, fun hx => by obtain ⟨k, hk⟩ := (hrep b).1 hx; exact h2 k hk⟩
      obtain ⟨ts, hts⟩ := g3 b hbR
      exact ⟨_, ts, hts, (g2 _ _ hts b).2 ⟨hbR, rfl⟩, h3⟩
  have hut : ∀ k r, u.get? k = some r → IsTarget I st.graph r ∧ st.pname I r = k := by
    intro k r hr
    obtain ⟨h1, h2, _⟩ := u1 k r hr
    exact ⟨mem_targets.1 h1, h2⟩
  have hsrc : ∀ a b, (a, b) ∈ srcPairs u S ↔ IsSource I st.graph a ∧ u.get? (st.pname I a) = some b := by
    intro a b
    rw [mem_srcPairs hsn]
    constructor
    · rintro ⟨k, h1, h2⟩
      obtain ⟨h3, rfl⟩ := hsg k a h1
      exact ⟨h3, h2⟩
    · rintro ⟨h1, h2⟩
      exact ⟨_, hsg2 a b h1 (hut _ _ h2).1 (hut _ _ h2).2, h2⟩
  have hpairs : ∀ e ∈ redPairs order u red ++ srcPairs u S, (e ∈ redPairs order u red) ∨ (e ∈ srcPairs u S) := fun e he => List.mem_append.1 he
  have hnts : ∀ x, IsTarget I st.graph x → IsSource I st.graph x → False := fun x h1 h2 => h2.2.2 h1.2.2
  have himg := isImage_contractions hb (redPairs order u red ++ srcPairs u S) (IsImage.refl hw) (by simp) (by
    rintro ⟨a, b⟩ he
    rcases hpairs _ he with he | he
    · obtain ⟨h1, h2, h3⟩ := (hred a b).1 he
      obtain ⟨h4, _⟩ := hut _ _ h3
      refine ⟨h4.1, h4.2.1, h1.2.1, ?_⟩
      intro e
      dsimp only at e; subst e
      exact h2 _ h3
    · obtain ⟨h1, h2⟩ := (hsrc a b).1 he
      obtain ⟨h4, _⟩ := hut _ _ h2
      refine ⟨h1.1, h1.2.1, h4.2.1, ?_⟩
      intro e
      dsimp only at e; subst e
      exact hnts _ h4 h1) (by
    rw [List.pairwise_append]
    refine ⟨pairwise_of_mem ?_, pairwise_of_mem ?_, ?_⟩
    · rintro ⟨a, b⟩ h1 ⟨c, d⟩ h2 e
      dsimp only at e; subst e
      exact ((hred _ _).1 h1).2.1 _ ((hred _ _).1 h2).2.2
    · rintro ⟨a, b⟩ h1 ⟨c, d⟩ h2 e
      dsimp only at e; subst e
      exact hnts _ (hut _ _ ((hsrc _ _).1 h1).2).1 ((hsrc _ _).1 h2).1
    · rintro ⟨a, b⟩ h1 ⟨c, d⟩ h2 e
      dsimp only at e; subst e
      exact hnts _ ((hred _ _).1 h1).1 ((hsrc _ _).1 h2).1) hw
  rw [← hmerge] at himg
  refine ⟨_, himg, ?_, ?_, ?_⟩
  · intro x hx
    apply substAll_notin
    rintro ⟨a, b⟩ he e
    dsimp only [id] at e; subst e
    rcases hpairs _ he with he | he
    · exact hx ((hred _ _).1 he).1
    · exact hx (hut _ _ ((hsrc _ _).1 he).2).1
  all_goals
    have hfirst : ∀ x r, IsTarget I st.graph x → u.get? (st.pname I x) = some r → substAll (redPairs order u red) x = r := by
      intro x r hx hr
      by_cases hxr : x = r
      · subst hxr
        apply substAll_notin
        rintro ⟨a, b⟩ he e
        dsimp only at e; subst e
        exact ((hred _ _).1 he).2.1 _ hr
      · apply substAll_mem
        · refine ⟨(r, x), (hred _ _).2 ⟨hx, ?_, hr⟩, rfl⟩
          intro k hk
          obtain ⟨_, h2⟩ := hut _ _ hk
          rw [h2, hk] at hr
          cases hr; exact hxr rfl
        · rintro ⟨a, b⟩ he e
          dsimp only at e; subst e
          have := ((hred _ _).1 he).2.2
          rw [hr] at this; cases this; rfl
        · rintro ⟨a, b⟩ he e
          dsimp only at e; subst e
          exact ((hred _ _).1 he).2.1 _ hr
  · intro x s hx hsx hn
    obtain ⟨r, hr⟩ := u2 x (mem_targets.2 hx)
    dsimp only [id]
    rw [substAll_append, hfirst x r hx hr]
    apply substAll_mem
    · exact ⟨(s, r), (hsrc _ _).2 ⟨hsx, by rw [hn]; exact hr⟩, rfl⟩
    · rintro ⟨a, b⟩ he e
      dsimp only at e; subst e
      obtain ⟨h1, h2⟩ := (hsrc _ _).1 he
      have e1 := (hut _ _ h2).2
      have e2 := (hut _ _ hr).2
      exact hs a s x h1 hsx hx (by rw [← e1, e2]) (by rw [← e1, e2, hn])
    · rintro ⟨a, b⟩ he e
      dsimp only at e; subst e
      exact hnts _ (hut _ _ ((hsrc _ _).1 he).2).1 hsx
  · intro x hx hno
    obtain ⟨r, hr⟩ := u2 x (mem_targets.2 hx)
    dsimp only [id]
    rw [substAll_append, hfirst x r hx hr]
    rw [substAll_notin]
    · exact hr
    · rintro ⟨a, b⟩ he e
      dsimp only at e; subst e
      obtain ⟨h1, h2⟩ := (hsrc _ _).1 he
      have e1 := (hut _ _ h2).2
      have e2 := (hut _ _ hr).2
      exact hno a h1 (by rw [← e1, e2])

end
end Csdl
