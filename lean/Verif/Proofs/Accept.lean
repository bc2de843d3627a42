import Verif.Props.Cycle
import Verif.Props.Accepts
/-! Lemmas for C72: every step of the construction succeeds on valid models. -/
namespace Csdl

/-! ### the sets of full names have no repetitions -/

/-- all values have no repetitions -/
def SetsNodup (d : Dict Name (List Name)) : Prop := ∀ p us, d.get? p = some us → us.Nodup

theorem unionSet_nodup {a b : List Name} (ha : a.Nodup) (hb : b.Nodup) : (unionSet a b).Nodup := by
  unfold unionSet
  rw [List.nodup_append]
  refine ⟨ha, hb.filter _, ?_⟩
  intro x hx y hy e
  subst e
  rw [List.mem_filter] at hy
  simpa [hx] using hy.2

theorem mergeInto_setsNodup (l : List (Name × List Name)) : ∀ {d : Dict Name (List Name)}, SetsNodup d → (∀ kv ∈ l, kv.2.Nodup) → SetsNodup (mergeInto d l) := by
  induction l with
  | nil => intro d hd _; exact hd
  | cons kv l ih =>
    intro d hd hl
    obtain ⟨k, v⟩ := kv
    have hv : v.Nodup := hl (k, v) (by simp)
    refine ih ?_ (fun kv hkv => hl kv (List.mem_cons_of_mem _ hkv))
    intro p us h
    unfold addEntry at h
    cases hg : d.get? k with
    | none =>
      rw [hg] at h; dsimp only at h
      rw [Dict.get?_set] at h
      split at h
      · cases h; exact hv
      · exact hd p us h
    | some old =>
      rw [hg] at h; dsimp only at h
      rw [Dict.get?_set] at h
      split at h
      · cases h; exact unionSet_nodup (hd _ _ hg) hv
      · exact hd p us h

theorem foldl_self_setsNodup (ks : List Name) : ∀ {d : Dict Name (List Name)}, SetsNodup d → SetsNodup (ks.foldl (fun d k => d.set k [k]) d) := by
  induction ks with
  | nil => intro d hd; exact hd
  | cons k ks ih =>
    intro d hd
    refine ih ?_
    intro p us h
    rw [Dict.get?_set] at h
    split at h
    · cases h; exact List.nodup_singleton _
    · exact hd p us h

theorem mergeChildren_setsNodup {names : List Name} (cs : List Child) : ∀ {d r : Dict Name (List Name)}, (∀ c ∈ cs, c.p2u.keys.Nodup ∧ SetsNodup c.p2u) → SetsNodup d →
    mergeChildren names d cs = .ok r → SetsNodup r := by
  induction cs with
  | nil => intro d r _ hd h; cases h; exact hd
  | cons c cs ih =>
    intro d r hcs hd h
    rw [mergeChildren, Except.bind_ok] at h
    obtain ⟨d', h1, h2⟩ := h
    obtain ⟨c1, c2⟩ := hcs c (by simp)
    rw [mergeChild_eq names d c1] at h1
    split at h1
    · cases h1
    cases h1
    refine ih (fun c hc => hcs c (List.mem_cons_of_mem _ hc)) ?_ h2
    refine mergeInto_setsNodup _ (mergeInto_setsNodup _ hd ?_) ?_
    · intro kv hkv
      simp only [List.mem_map, List.mem_filter] at hkv
      obtain ⟨kv', ⟨hm, _⟩, rfl⟩ := hkv
      exact (c2 _ _ (Dict.mem_get? c1 hm)).map (fun _ _ => prepend_inj_right)
    · intro kv hkv
      simp only [List.mem_map, List.mem_filter] at hkv
      obtain ⟨kv', ⟨hm, _⟩, rfl⟩ := hkv
      exact (c2 _ _ (Dict.mem_get? c1 hm)).map (fun _ _ => prepend_inj_right)

theorem p2u_setsNodup (m : Model) : ∀ {pr : Option (List Name)} {r : Res}, resolve m pr = .ok r → SetsNodup r.p2u := by
  induction m using Model.ind with
  | h l subs ih =>
    intro pr r h
    obtain ⟨cs, psrc, ptgt, h1, h2⟩ := resolve_ok h
    obtain ⟨rs, f1, rfl, _, _, _⟩ := resolveSubs_ok subs _ _ _ _ _ h1
    obtain ⟨_, _, _, _, g5, _, _⟩ := finish_ok h2
    refine mergeChildren_setsNodup _ ?_ ?_ g5
    · intro c hc
      obtain ⟨s, hs, r', hr', rfl⟩ := (mem_children f1 c).1 hc
      exact ⟨(p2u_facts s.model hr').1, ih s hs hr'⟩
    · exact foldl_self_setsNodup _ (foldl_self_setsNodup _ (by intro p us h; simp [Dict.get?] at h))

/-! ### the graphs of all models are built -/

section
variable {H : Objs} {n fuel : Nat} {root : OModel}

mutual
theorem graphs_total (H : Objs) (fuel : Nat) (m : OModel) (h : ∀ path m', OAt H m path m' → ∃ st, buildGraph H.heap (m'.subs.map OSub.id) m'.inputs m'.outputs m'.declared fuel = .ok st) :
    ∃ x, m.graphs H fuel = .ok x := by
  match m, h with
  | .mk i o d c dv cn ob subs, h =>
    obtain ⟨kids, hk⟩ := kids_total H fuel subs [] (by
      intro s hs path m' hm
      exact h _ m' (OAt.down (m := .mk i o d c dv cn ob subs) hs hm))
    obtain ⟨st, hst⟩ := h [] _ (.here _)
    refine ⟨(st.graph, kids), ?_⟩
    unfold OModel.graphs
    rw [hk]
    have hst' : buildGraph H.heap (subs.toList.map OSub.id) i o d fuel = .ok st := hst
    simp only [hst', bind, Except.bind, pure, Except.pure]
theorem kids_total (H : Objs) (fuel : Nat) (subs : OSubs) (seen : List Name) (h : ∀ s ∈ subs.toList, ∀ path m', OAt H s.model path m' → ∃ st, buildGraph H.heap (m'.subs.map OSub.id) m'.inputs m'.outputs m'.declared fuel = .ok st) :
    ∃ kids, subs.kids H fuel seen = .ok kids := by
  match subs, h with
  | .nil, _ => exact ⟨.nil, rfl⟩
  | .cons i p m rest, h =>
    have hrest : ∀ seen, ∃ kids, rest.kids H fuel seen = .ok kids := fun seen => kids_total H fuel rest seen (fun s hs => h s (by simp [OSubs.toList, hs]))
    unfold OSubs.kids
    by_cases hin : (H i).name ∈ seen
    · rw [if_pos hin]; exact hrest seen
    · rw [if_neg hin]
      obtain ⟨gk, hgk⟩ := graphs_total H fuel m (fun path m' hm => h ⟨i, p, m⟩ (by simp [OSubs.toList]) path m' hm)
      obtain ⟨r, hr⟩ := hrest ((H i).name :: seen)
      refine ⟨.cons i (H i).name gk.1 gk.2 r, ?_⟩
      rw [hgk]
      simp only [bind, Except.bind, pure, Except.pure, hr]
end

theorem objects_graphs (hok : ObjectsOk H n root) (hf : Enough H n fuel root) : ∃ g kids, root.graphs H fuel = .ok (g, kids) := by
  obtain ⟨⟨g, kids⟩, h⟩ := graphs_total H fuel root (by
    intro path m hm
    obtain ⟨st, h1, _⟩ := graphOf (hok.models path m hm) (hok.dotFree.subNames hm) (hf path m hm)
    exact ⟨st, h1⟩)
  exact ⟨g, kids, h⟩

end

/-! ### all nodes are indexed -/

section
variable {I : NHeap} {st : FState} {p2u : Dict Name (List Name)} {u2p : Dict Name Name} {g : Graph}

theorem indexNames_total {v : Nat} (us : List Name) : ∀ {d : Dict Name Nat}, us.Nodup → (∀ u ∈ us, u2p.has u = true) → (∀ u ∈ us, d.has u = false) →
    ∃ d', indexNames u2p v us d = .ok d' := by
  induction us with
  | nil => intro d _ _ _; exact ⟨d, rfl⟩
  | cons u us ih =>
    intro d hn hu hd
    rw [List.nodup_cons] at hn
    obtain ⟨d', h⟩ := ih (d := d.set u v) hn.2 (fun x hx => hu x (by simp [hx])) (by
      intro x hx
      rw [Bool.eq_false_iff]
      intro hc
      rw [Dict.has_iff, Dict.keys_set] at hc
      rcases hc with hc | hc
      · have := hd x (by simp [hx])
        rw [Bool.eq_false_iff] at this
        exact this (Dict.has_iff.2 hc)
      · subst hc; exact hn.1 hx)
    refine ⟨d', ?_⟩
    unfold indexNames
    rw [if_neg (by rw [hd u (by simp)]; simp), if_pos (hu u (by simp))]
    exact h

/-- the variable `v` can be indexed -/
def Indexable (I : NHeap) (st : FState) (p2u : Dict Name (List Name)) (u2p : Dict Name Name) (g : Graph) (v : Nat) : Prop :=
  (I v).kind = .var → (g.preds v).length ≤ 1 ∧ ((I v).name ≠ (I v).auto → ∃ us, p2u.get? (st.pname I v) = some us ∧ us.Nodup ∧ ∀ u ∈ us, u2p.get? u = some (st.pname I v))

theorem indexNodes_total (vs : List Nat) : ∀ {d : NodeMaps}, vs.Nodup → (∀ v ∈ vs, Indexable I st p2u u2p g v) →
    (∀ v ∈ vs, ∀ w ∈ vs, (I v).kind = .var → (I w).kind = .var → (I v).name ≠ (I v).auto → st.pname I v = st.pname I w → v = w) →
    (∀ v ∈ vs, (I v).kind = .var → (I v).name ≠ (I v).auto → ∀ us, p2u.get? (st.pname I v) = some us → ∀ u ∈ us, d.u2n.has u = false) →
    ∃ d', indexNodes I st p2u u2p g vs d = .ok d' ∧ (∀ x v, d.u2n.get? x = some v → d'.u2n.get? x = some v) ∧
      (∀ x v, d.p2n.get? x = some v → (∀ w ∈ vs, (I w).kind = .var → st.pname I w ≠ x) → d'.p2n.get? x = some v) ∧
      ∀ v ∈ vs, (I v).kind = .var → (I v).name ≠ (I v).auto → d'.p2n.get? (st.pname I v) = some v ∧ ∀ us, p2u.get? (st.pname I v) = some us → ∀ u ∈ us, d'.u2n.get? u = some v := by
  induction vs with
  | nil => intro d _ _ _ _; exact ⟨d, rfl, fun _ _ h => h, fun _ _ h _ => h, by simp⟩
  | cons v vs ih =>
    intro d hn hi hs hd
    rw [List.nodup_cons] at hn
    have hi' : ∀ w ∈ vs, Indexable I st p2u u2p g w := fun w hw => hi w (by simp [hw])
    have hs' : ∀ a ∈ vs, ∀ b ∈ vs, (I a).kind = .var → (I b).kind = .var → (I a).name ≠ (I a).auto → st.pname I a = st.pname I b → a = b := fun a ha b hb => hs a (by simp [ha]) b (by simp [hb])
    by_cases hk : (I v).kind = .var
    · obtain ⟨hp, hnm⟩ := hi v (by simp) hk
      by_cases ha : (I v).name = (I v).auto
      · obtain ⟨d', h1, h2, h3, h4⟩ := ih (d := d) hn.2 hi' hs' (fun w hw => hd w (by simp [hw]))
        have hstep : indexNode I st p2u u2p g d v = .ok d := by
          unfold indexNode
          rw [if_neg (by simp [hk]), if_neg (by omega), if_pos ha]
        refine ⟨d', by unfold indexNodes; rw [hstep]; exact h1, h2, fun x w hx hw => h3 x w hx (fun w hw' => hw w (by simp [hw'])), ?_⟩
        intro w hw hkw hnw
        rcases List.mem_cons.1 hw with rfl | hw
        · exact absurd ha hnw
        · exact h4 w hw hkw hnw
      · obtain ⟨us, hus, hun, hu2⟩ := hnm ha
        obtain ⟨u2n, hu⟩ := indexNames_total (u2p := u2p) (v := v) us (d := d.u2n) hun (fun u hu => Dict.has_iff.2 (Dict.get?_mem_keys (hu2 u hu))) (hd v (by simp) hk ha us hus)
        obtain ⟨n1, n2, n3⟩ := indexNames_ok us hu
        have hstep : indexNode I st p2u u2p g d v = .ok ⟨d.p2n.set (st.pname I v) v, u2n⟩ := by
          unfold indexNode
          rw [if_neg (by simp [hk]), if_neg (by omega), if_neg ha]
          simp only [hus, hu]
        obtain ⟨d', h1, h2, h3, h4⟩ := ih (d := ⟨d.p2n.set (st.pname I v) v, u2n⟩) hn.2 hi' hs' (by
          intro w hw hkw hnw us' hus' u hu'
          rw [Bool.eq_false_iff]
          intro hc
          rw [Dict.has_iff] at hc
          obtain ⟨z, hz⟩ := Dict.mem_keys_get? hc
          rcases n1 _ _ hz with h5 | ⟨h5, rfl⟩
          · have := hd w (by simp [hw]) hkw hnw us' hus' u hu'
            rw [Bool.eq_false_iff] at this
            exact this (Dict.has_iff.2 (Dict.get?_mem_keys h5))
          · obtain ⟨us2, e1, e2, e3⟩ := (hi' w hw hkw).2 hnw
            rw [hus'] at e1; cases e1
            have := e3 u hu'
            rw [hu2 u h5] at this
            have := hs z (by simp) w (by simp [hw]) hk hkw ha (Option.some.inj this)
            subst this
            exact hn.1 hw)
        refine ⟨d', by unfold indexNodes; rw [hstep]; exact h1, fun x w hx => h2 x w (n3 x w hx), ?_, ?_⟩
        · intro x w hx hw
          refine h3 x w ?_ (fun w hw' => hw w (by simp [hw']))
          dsimp only
          rw [Dict.get?_set, if_neg (hw v (by simp) hk)]
          exact hx
        · intro w hw hkw hnw
          rcases List.mem_cons.1 hw with rfl | hw
          · refine ⟨h3 _ _ (by dsimp only; rw [Dict.get?_set, if_pos rfl]) ?_, ?_⟩
            · intro z hz hkz e
              have := hs w (by simp) z (by simp [hz]) hk hkz hnw e.symm
              subst this
              exact hn.1 hz
            · intro us' hus' u hu'
              rw [hus] at hus'; cases hus'
              exact h2 _ _ (n2 u hu')
          · exact h4 w hw hkw hnw
    · obtain ⟨d', h1, h2, h3, h4⟩ := ih (d := d) hn.2 hi' hs' (fun w hw => hd w (by simp [hw]))
      have hstep : indexNode I st p2u u2p g d v = .ok d := by
        unfold indexNode
        rw [if_pos hk]
      refine ⟨d', by unfold indexNodes; rw [hstep]; exact h1, h2, fun x w hx hw => h3 x w hx (fun w hw' => hw w (by simp [hw'])), ?_⟩
      intro w hw hkw hnw
      rcases List.mem_cons.1 hw with rfl | hw
      · exact absurd hkw hk
      · exact h4 w hw hkw hnw

end
end Csdl
