import Verif.Spec.Compile
import Verif.Props.EndToEnd
import Verif.Props.Implicit
/-
The graphs built from model objects meet the hypotheses of C61.
-/
namespace Csdl

/-! ### the hierarchy of models -/

theorem OSubs.toSubs_toList (H : Objs) : ∀ s : OSubs, (s.toSubs H).toList = s.toList.map fun x => ⟨(H x.id).name, x.promotes, x.model.toModel H⟩
  | .nil => by simp [OSubs.toSubs, Subs.toList, OSubs.toList]
  | .cons i p m rest => by simp [OSubs.toSubs, Subs.toList, OSubs.toList, OSubs.toSubs_toList H rest]

/-- the local data of a model object -/
def OModel.loc (H : Objs) : OModel → Local
  | .mk i o d c dv cn ob _ => { inputs := i.map H.varInfo, outputs := o.map H.varInfo, declared := d.map H.varInfo, connections := c, designVars := dv, constraints := cn, objective := ob }

def OModel.osubs : OModel → OSubs
  | .mk _ _ _ _ _ _ _ s => s

theorem OModel.toModel_eq (H : Objs) (m : OModel) : m.toModel H = .mk (m.loc H) (m.osubs.toSubs H) := by
  cases m; simp [OModel.toModel, OModel.loc, OModel.osubs]

theorem OModel.subs_eq (m : OModel) : m.subs = m.osubs.toList := by cases m; rfl

theorem OAt.toAt {H : Objs} {m : OModel} {path : List Name} {m' : OModel} (h : OAt H m path m') : At (m.toModel H) path (m'.toModel H) := by
  induction h with
  | here m => exact .here _
  | @down m s path m' hs _ ih =>
    rw [OModel.toModel_eq]
    refine At.down (s := ⟨(H s.id).name, s.promotes, s.model.toModel H⟩) ?_ ih
    rw [OSubs.toSubs_toList, List.mem_map]
    exact ⟨s, by rw [← OModel.subs_eq]; exact hs, rfl⟩

theorem OAt.ofAt {H : Objs} {m : OModel} {path : List Name} {M : Model} (h : At (m.toModel H) path M) : ∃ m', OAt H m path m' ∧ M = m'.toModel H := by
  generalize hm : m.toModel H = M0 at h
  induction h generalizing m with
  | here M0 => exact ⟨m, .here _, hm.symm⟩
  | @down l subs path m' s hs _ ih =>
    rw [OModel.toModel_eq] at hm
    cases hm
    rw [OSubs.toSubs_toList, List.mem_map] at hs
    obtain ⟨x, hx, rfl⟩ := hs
    obtain ⟨m2, h1, h2⟩ := ih rfl
    exact ⟨m2, .down (by rw [OModel.subs_eq]; exact hx) h1, h2⟩

/-! ### the hierarchy of graphs -/

theorem graphs_eq (H : Objs) (fuel : Nat) (m : OModel) : m.graphs H fuel = (do
    let kids ← m.osubs.kids H fuel []
    let st ← buildGraph H.heap (m.subs.map OSub.id) m.inputs m.outputs m.declared fuel
    pure (st.graph, kids)) := by
  cases m; simp [OModel.graphs, OModel.osubs, OModel.subs, OModel.inputs, OModel.outputs, OModel.declared]

theorem graphs_ok {H : Objs} {fuel : Nat} {m : OModel} {g : Graph} {kids : Kids} (h : m.graphs H fuel = .ok (g, kids)) :
    m.osubs.kids H fuel [] = .ok kids ∧ ∃ st, buildGraph H.heap (m.subs.map OSub.id) m.inputs m.outputs m.declared fuel = .ok st ∧ st.graph = g := by
  rw [graphs_eq] at h
  obtain ⟨k, h1, h⟩ := exceptBind h
  obtain ⟨st, h2, h⟩ := exceptBind h
  cases h
  exact ⟨h1, st, h2, rfl⟩

/-- what `kids` returns -/
theorem kids_cons {H : Objs} {fuel : Nat} : ∀ (s : OSubs) {seen : List Name} {id n g ks rest}, s.kids H fuel seen = .ok (.cons id n g ks rest) →
    ∃ x ∈ s.toList, x.id = id ∧ (H id).name = n ∧ n ∉ seen ∧ x.model.graphs H fuel = .ok (g, ks) ∧
      ∃ s' : OSubs, s'.kids H fuel (n :: seen) = .ok rest ∧ ∀ y ∈ s'.toList, y ∈ s.toList
  | .nil, seen, id, n, g, ks, rest, h => by simp [OSubs.kids] at h
  | .cons i p m r, seen, id, n, g, ks, rest, h => by
    rw [OSubs.kids] at h
    split at h
    · obtain ⟨x, hx, h1, h2, h2', h3, s', h4, h5⟩ := kids_cons r h
      refine ⟨x, by simp [OSubs.toList, hx], h1, h2, h2', h3, s', h4, fun y hy => by simp [OSubs.toList, h5 y hy]⟩
    · rename_i hseen
      obtain ⟨gk, h1, h⟩ := exceptBind h
      obtain ⟨r', h2, h⟩ := exceptBind h
      cases h
      exact ⟨⟨i, p, m⟩, by simp [OSubs.toList], rfl, rfl, hseen, h1, r, h2, fun y hy => by simp [OSubs.toList, hy]⟩

/-- names of the child models -/
def Kids.names : Kids → List Name
  | .nil => []
  | .cons _ n _ _ rest => n :: rest.names

theorem kids_names {H : Objs} {fuel : Nat} (kids : Kids) : ∀ {s : OSubs} {seen : List Name}, s.kids H fuel seen = .ok kids → kids.names.Nodup ∧ ∀ n ∈ kids.names, n ∉ seen := by
  induction kids with
  | nil => intro s seen _; exact ⟨List.nodup_nil, by simp [Kids.names]⟩
  | cons id n g ks rest _ ih =>
    intro s seen h
    obtain ⟨x, _, _, _, hn, _, s', h4, _⟩ := kids_cons s h
    obtain ⟨i1, i2⟩ := ih h4
    refine ⟨?_, ?_⟩
    · rw [Kids.names, List.nodup_cons]
      exact ⟨fun hc => i2 n hc (by simp), i1⟩
    · intro k hk
      rw [Kids.names, List.mem_cons] at hk
      rcases hk with rfl | hk
      · exact hn
      · exact fun hc => i2 k hk (by simp [hc])

theorem kids_ids {H : Objs} {fuel : Nat} (kids : Kids) : ∀ {s : OSubs} {seen : List Name}, s.kids H fuel seen = .ok kids → ∀ i ∈ kids.ids, i ∈ s.toList.map OSub.id := by
  induction kids with
  | nil => intro s seen _ i hi; cases hi
  | cons id n g ks rest _ ih =>
    intro s seen h i hi
    obtain ⟨x, hx, e, _, hn, _, s', h4, h5⟩ := kids_cons s h
    rw [Kids.ids, List.mem_cons] at hi
    rcases hi with rfl | hi
    · exact List.mem_map.2 ⟨x, hx, e⟩
    · obtain ⟨y, hy, rfl⟩ := List.mem_map.1 (ih h4 i hi)
      exact List.mem_map.2 ⟨y, h5 y hy, rfl⟩

theorem kidsAt_oat {H : Objs} {fuel : Nat} {kids : Kids} {path g' ks'} (h : kids.At path g' ks') : ∀ {s : OSubs} {seen : List Name}, s.kids H fuel seen = .ok kids →
    ∃ x ∈ s.toList, ∃ path' m', path = (H x.id).name :: path' ∧ OAt H x.model path' m' ∧ m'.graphs H fuel = .ok (g', ks') := by
  induction h with
  | @head id n g ks rest =>
    intro s seen h
    obtain ⟨x, hx, e, hn, _, h3, _⟩ := kids_cons s h
    exact ⟨x, hx, [], x.model, by rw [e, hn], .here _, h3⟩
  | @inside id n g ks rest path g' ks' _ ih =>
    intro s seen h
    obtain ⟨x, hx, e, hn, _, h3, _⟩ := kids_cons s h
    obtain ⟨y, hy, path', m', e2, h4, h5⟩ := ih (graphs_ok h3).1
    refine ⟨x, hx, path, m', by rw [e, hn], ?_, h5⟩
    rw [e2]
    exact .down (by rw [OModel.subs_eq]; exact hy) h4
  | @next id n g ks rest path g' ks' _ ih =>
    intro s seen h
    obtain ⟨x, hx, e, hn, _, h3, s', h4, h5⟩ := kids_cons s h
    obtain ⟨y, hy, r⟩ := ih h4
    exact ⟨y, h5 y hy, r⟩

/-- every graph of the hierarchy is the graph of a model object -/
theorem hierAt_oat {H : Objs} {fuel : Nat} {root : OModel} {g kids path g' ks'} (hg : root.graphs H fuel = .ok (g, kids)) (h : HierAt g kids path g' ks') :
    ∃ m', OAt H root path m' ∧ m'.graphs H fuel = .ok (g', ks') := by
  rcases h with ⟨rfl, rfl, rfl⟩ | h
  · exact ⟨root, .here _, hg⟩
  · obtain ⟨x, hx, path', m', rfl, h1, h2⟩ := kidsAt_oat h (graphs_ok hg).1
    exact ⟨m', .down (by rw [OModel.subs_eq]; exact hx) h1, h2⟩

theorem kids_mem {H : Objs} {fuel : Nat} : ∀ (s : OSubs) {seen : List Name} {kids : Kids}, (s.toList.map fun x => (H x.id).name).Nodup → (∀ x ∈ s.toList, (H x.id).name ∉ seen) →
    s.kids H fuel seen = .ok kids → ∀ x ∈ s.toList, ∃ g ks, x.model.graphs H fuel = .ok (g, ks) ∧ ∀ path g' ks', HierAt g ks path g' ks' → kids.At ((H x.id).name :: path) g' ks'
  | .nil, _, _, _, _, _, x, hx => by cases hx
  | .cons i p m r, seen, kids, hn, hs, h, x, hx => by
    rw [OSubs.kids, if_neg (hs ⟨i, p, m⟩ (by simp [OSubs.toList]))] at h
    obtain ⟨gk, h1, h⟩ := exceptBind h
    obtain ⟨r', h2, h⟩ := exceptBind h
    cases h
    rw [OSubs.toList, List.map_cons, List.nodup_cons] at hn
    rw [OSubs.toList, List.mem_cons] at hx
    rcases hx with rfl | hx
    · refine ⟨gk.1, gk.2, h1, ?_⟩
      rintro path g' ks' (⟨rfl, rfl, rfl⟩ | hp)
      · exact .head
      · exact .inside hp
    · obtain ⟨g, ks, h3, h4⟩ := kids_mem r hn.2 (by
        intro y hy hc
        rw [List.mem_cons] at hc
        rcases hc with hc | hc
        · exact hn.1 (List.mem_map.2 ⟨y, hy, hc⟩)
        · exact hs y (by simp [OSubs.toList, hy]) hc) h2 x hx
      exact ⟨g, ks, h3, fun path g' ks' hp => .next (h4 path g' ks' hp)⟩

/-- every model object has its graph in the hierarchy -/
theorem oat_hierAt {H : Objs} {fuel : Nat} {root : OModel} {path m'} (h : OAt H root path m') : ∀ {g kids}, DotFree (root.toModel H) → root.graphs H fuel = .ok (g, kids) →
    ∃ g' ks', HierAt g kids path g' ks' ∧ m'.graphs H fuel = .ok (g', ks') := by
  induction h with
  | here m => intro g kids _ hg; exact ⟨g, kids, Or.inl ⟨rfl, rfl, rfl⟩, hg⟩
  | @down m s path m' hs hat ih =>
    intro g kids hd hg
    have hnd : (m.osubs.toList.map fun x => (H x.id).name).Nodup := by
      rw [OModel.toModel_eq] at hd
      have := (hd [] _ _ (.here _)).2.2
      rw [OSubs.toSubs_toList] at this
      simpa [Function.comp_def] using this
    obtain ⟨g1, k1, h1, h2⟩ := kids_mem m.osubs hnd (by simp) (graphs_ok hg).1 s (by rw [← OModel.subs_eq]; exact hs)
    have hd' : DotFree (s.model.toModel H) := by
      intro p l subs hp
      have hm := OAt.toAt (OAt.down (H := H) hs (.here s.model))
      refine hd ((H s.id).name :: p) l subs ?_
      rw [OModel.toModel_eq]
      refine At.down (s := ⟨(H s.id).name, s.promotes, s.model.toModel H⟩) ?_ hp
      rw [OSubs.toSubs_toList, List.mem_map]
      exact ⟨s, by rw [← OModel.subs_eq]; exact hs, rfl⟩
    obtain ⟨g', ks', h3, h4⟩ := ih hd' h1
    exact ⟨g', ks', Or.inr (h2 path g' ks' h3), h4⟩

/-! ### distinct nodes -/

theorem mem_allNodes {kids : Kids} {x : Nat} (h : x ∈ kids.allNodes) : ∃ n path g ks, kids.At (n :: path) g ks ∧ x ∈ g.nodes ∧ n ∈ kids.names := by
  induction kids with
  | nil => cases h
  | cons id n g ks rest ih1 ih2 =>
    rw [Kids.allNodes, List.mem_append, List.mem_append] at h
    rcases h with (h | h) | h
    · exact ⟨n, [], g, ks, .head, h, by simp [Kids.names]⟩
    · obtain ⟨n', path, g', ks', h1, h2, _⟩ := ih1 h
      exact ⟨n, n' :: path, g', ks', .inside h1, h2, by simp [Kids.names]⟩
    · obtain ⟨n', path, g', ks', h1, h2, h3⟩ := ih2 h
      exact ⟨n', path, g', ks', .next h1, h2, by simp [Kids.names, h3]⟩

theorem allNodes_nodup (kids : Kids) : (∀ path g ks, kids.At path g ks → g.nodes.Nodup ∧ ks.names.Nodup) → kids.names.Nodup →
    (∀ path g ks path' g' ks', kids.At path g ks → kids.At path' g' ks' → ∀ x ∈ g.nodes, x ∈ g'.nodes → path = path') → kids.allNodes.Nodup := by
  induction kids with
  | nil => intro _ _ _; exact List.nodup_nil
  | cons id n g ks rest ih1 ih2 =>
    intro hw hn hs
    rw [Kids.names, List.nodup_cons] at hn
    have hks := ih1 (fun p a b h => hw _ a b (.inside h)) (hw _ _ _ .head).2 (by
      intro p a b p' a' b' h h' x hx hx'
      have := hs _ _ _ _ _ _ (.inside h) (.inside h') x hx hx'
      simpa using this)
    have hrest := ih2 (fun p a b h => hw _ a b (.next h)) hn.2 (fun p a b p' a' b' h h' => hs _ _ _ _ _ _ (.next h) (.next h'))
    rw [Kids.allNodes, List.nodup_append, List.nodup_append]
    refine ⟨⟨(hw _ _ _ .head).1, hks, ?_⟩, hrest, ?_⟩
    · intro a ha b hb hab
      subst hab
      obtain ⟨n', path, g', ks', h1, h2, _⟩ := mem_allNodes hb
      have := hs _ _ _ _ _ _ .head (.inside h1) a ha h2
      simp at this
    · intro a ha b hb hab
      subst hab
      obtain ⟨n', path, g', ks', h1, h2, h3⟩ := mem_allNodes hb
      rw [List.mem_append] at ha
      rcases ha with ha | ha
      · have := hs _ _ _ _ _ _ .head (.next h1) a ha h2
        simp only [List.cons.injEq] at this
        exact hn.1 (this.1 ▸ h3)
      · obtain ⟨n'', path'', g'', ks'', h1', h2', h3'⟩ := mem_allNodes ha
        have := hs _ _ _ _ _ _ (.inside h1') (.next h1) a h2' h2
        simp only [List.cons.injEq] at this
        exact hn.1 (this.1 ▸ h3)

end Csdl
