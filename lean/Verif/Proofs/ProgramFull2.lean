import Verif.Proofs.ProgramFull
import Verif.Props.ValidProgram
import Verif.Props.Valid
/-
Proofs for C80, C81: what the optimisation declarations and custom operations change in the construction of the representation.
-/
namespace Csdl

/-! ### optimisation declarations -/

/-- the names without optimisation declarations -/
def Local.strip (l : Local) : Local := { l with designVars := [], constraints := [], objective := none }

mutual
def Model.strip : Model → Model
  | .mk l subs => .mk l.strip (Subs.strip subs)
def Subs.strip : Subs → Subs
  | .nil => .nil
  | .cons n p m rest => .cons n p (Model.strip m) (Subs.strip rest)
end

theorem finish_strip (l : Local) (c : List Child) (a b : Dict Name Shape) (p : Option (List Name)) : finish l.strip c a b p = finish l c a b p := rfl

mutual
theorem resolve_strip : ∀ (m : Model) (p : Option (List Name)), resolve (Model.strip m) p = resolve m p
  | .mk l subs, p => by rw [Model.strip, resolve, resolve, resolveSubs_strip subs]; rfl
theorem resolveSubs_strip : ∀ (s : Subs) (a b : Dict Name Shape), resolveSubs (Subs.strip s) a b = resolveSubs s a b
  | .nil, a, b => rfl
  | .cons n p m rest, a, b => by
    rw [Subs.strip, resolveSubs, resolveSubs, resolve_strip m]
    simp only [resolveSubs_strip rest]
end

mutual
theorem collectConnections_strip : ∀ (m : Model) (ns : Name), collectConnections (Model.strip m) ns = collectConnections m ns
  | .mk l subs, ns => by rw [Model.strip, collectConnections, collectConnections, collectConnectionsSubs_strip subs]; rfl
theorem collectConnectionsSubs_strip : ∀ (s : Subs) (ns : Name), collectConnectionsSubs (Subs.strip s) ns = collectConnectionsSubs s ns
  | .nil, _ => rfl
  | .cons n p m rest, ns => by rw [Subs.strip, collectConnectionsSubs, collectConnectionsSubs, collectConnections_strip m, collectConnectionsSubs_strip rest]
end

mutual
theorem collectDecl_strip (sel : Local → Dict Name Nat) (hs : ∀ l : Local, sel l.strip = []) (p2u : Dict Name (List Name)) :
    ∀ (m : Model) (ns : Name) (acc : Dict Name Nat), collectDecl sel p2u (Model.strip m) ns acc = .ok acc
  | .mk l subs, ns, acc => by rw [Model.strip, collectDecl, hs l]; exact collectDeclSubs_strip sel hs p2u subs ns acc
theorem collectDeclSubs_strip (sel : Local → Dict Name Nat) (hs : ∀ l : Local, sel l.strip = []) (p2u : Dict Name (List Name)) :
    ∀ (s : Subs) (ns : Name) (acc : Dict Name Nat), collectDeclSubs sel p2u (Subs.strip s) ns acc = .ok acc
  | .nil, _, _ => rfl
  | .cons n p m rest, ns, acc => by
    rw [Subs.strip, collectDeclSubs, collectDecl_strip sel hs p2u m]
    exact collectDeclSubs_strip sel hs p2u rest ns acc
end

mutual
theorem findObjective_strip (p2u : Dict Name (List Name)) : ∀ (m : Model) (ns : Name) (o : Option (Name × Nat)), findObjective p2u (Model.strip m) ns o = .ok o
  | .mk l subs, ns, o => by rw [Model.strip, findObjective]; exact findObjectiveSubs_strip p2u subs ns o
theorem findObjectiveSubs_strip (p2u : Dict Name (List Name)) : ∀ (s : Subs) (ns : Name) (o : Option (Name × Nat)), findObjectiveSubs p2u (Subs.strip s) ns o = .ok o
  | .nil, _, _ => rfl
  | .cons n p m rest, ns, o => by
    rw [Subs.strip, findObjectiveSubs, findObjective_strip p2u m]
    exact findObjectiveSubs_strip p2u rest ns o
end

mutual
theorem toModel_strip (H : Objs) : ∀ (m : OModel), (Prog.OModel.strip m).toModel H = Model.strip (m.toModel H)
  | .mk i o d c dv cn ob subs => by
    rw [Prog.OModel.strip, OModel.toModel, OModel.toModel, Model.strip, toSubs_strip H subs]; rfl
theorem toSubs_strip (H : Objs) : ∀ (s : OSubs), (Prog.OSubs.strip s).toSubs H = Subs.strip (s.toSubs H)
  | .nil => rfl
  | .cons i p m rest => by
    rw [Prog.OSubs.strip, OSubs.toSubs, OSubs.toSubs, Subs.strip, toModel_strip H m, toSubs_strip H rest]
end

theorem strip_ids : ∀ s : OSubs, (Prog.OSubs.strip s).toList.map OSub.id = s.toList.map OSub.id
  | .nil => rfl
  | .cons i p m rest => by rw [Prog.OSubs.strip, OSubs.toList, OSubs.toList, List.map_cons, List.map_cons, strip_ids rest]

mutual
theorem graphs_strip (H : Objs) (fuel : Nat) : ∀ (m : OModel), (Prog.OModel.strip m).graphs H fuel = m.graphs H fuel
  | .mk i o d c dv cn ob subs => by
    rw [Prog.OModel.strip, OModel.graphs, OModel.graphs, kids_strip H fuel subs, strip_ids]
theorem kids_strip (H : Objs) (fuel : Nat) : ∀ (s : OSubs) (seen : List Name), (Prog.OSubs.strip s).kids H fuel seen = s.kids H fuel seen
  | .nil, _ => rfl
  | .cons i p m rest, seen => by
    rw [Prog.OSubs.strip, OSubs.kids, OSubs.kids, graphs_strip H fuel m, kids_strip H fuel rest, kids_strip H fuel rest]
end

/-- what a declaration adds to the representation -/
theorem compile_strip (H : Objs) (fuel : Nat) (order : List Nat → List Nat) (root : OModel) (rep : Rep) :
    compile H fuel order root = .ok rep ↔ ∃ rep0 dv ob cn, compile H fuel order (Prog.OModel.strip root) = .ok rep0 ∧ collectDecl Local.designVars rep0.p2u (root.toModel H) [] [] = .ok dv ∧
      findObjective rep0.p2u (root.toModel H) [] none = .ok ob ∧ collectDecl Local.constraints rep0.p2u (root.toModel H) [] [] = .ok cn ∧
      rep = { rep0 with designVars := dv, objective := ob, constraints := cn } := by
  unfold compile
  rw [toModel_strip, resolve_strip, graphs_strip, collectConnections_strip]
  cases h1 : resolve (root.toModel H) none with
  | error e => simp [raises, bind, Except.bind]
  | ok r =>
    have hr : repConnections (Model.strip (root.toModel H)) r.p2u = repConnections (root.toModel H) r.p2u := by
      unfold repConnections; rw [collectConnections_strip]
    simp only [raises, bind, Except.bind, hr, findObjective_strip, collectDecl_strip Local.designVars (fun _ => rfl), collectDecl_strip Local.constraints (fun _ => rfl)]
    cases h2 : repConnections (root.toModel H) r.p2u with
    | error e => simp
    | ok cs =>
      simp only
      cases h6 : root.graphs H fuel with
      | error e =>
        constructor
        · intro h
          split at h <;> try cases h
          split at h <;> try cases h
          split at h <;> cases h
        · rintro ⟨_, _, _, _, h, _⟩; cases h
      | ok gk =>
        simp only
        cases h7 : constructFlat H.info order r.p2u (createReverseMap r.p2u) gk.1 gk.2 (collectConnections (root.toModel H) []) with
        | error e =>
          constructor
          · intro h
            split at h <;> try cases h
            split at h <;> try cases h
            split at h <;> cases h
          · rintro ⟨_, _, _, _, h, _⟩; cases h
        | ok f =>
          simp only
          cases h8 : flatSort f.2.1 with
          | error e =>
            constructor
            · intro h
              split at h <;> try cases h
              split at h <;> try cases h
              split at h <;> cases h
            · rintro ⟨_, _, _, _, h, _⟩; cases h
          | ok l =>
            simp only [pure, Except.pure, Except.ok.injEq]
            cases h3 : collectDecl Local.designVars r.p2u (root.toModel H) [] [] with
            | error e =>
              simp only [reduceCtorEq, false_iff]
              rintro ⟨_, _, _, _, rfl, h, _⟩
              simp only at h
              rw [h3] at h; cases h
            | ok dv =>
              cases h4 : findObjective r.p2u (root.toModel H) [] none with
              | error e =>
                simp only [reduceCtorEq, false_iff]
                rintro ⟨_, _, _, _, rfl, _, h, _⟩
                simp only at h
                rw [h4] at h; cases h
              | ok ob =>
                cases h5 : collectDecl Local.constraints r.p2u (root.toModel H) [] [] with
                | error e =>
                  simp only [reduceCtorEq, false_iff]
                  rintro ⟨_, _, _, _, rfl, _, _, h, _⟩
                  simp only at h
                  rw [h5] at h; cases h
                | ok cn =>
                  simp only [Except.ok.injEq]
                  constructor
                  · intro h
                    refine ⟨_, dv, ob, cn, rfl, h3, h4, h5, h.symm⟩
                  · rintro ⟨_, dv', ob', cn', rfl, a1, a2, a3, rfl⟩
                    simp only at a1 a2 a3
                    rw [h3] at a1; rw [h4] at a2; rw [h5] at a3
                    cases a1; cases a2; cases a3
                    rfl

theorem mem_strip {s : Subs} {t : Subgraph} : t ∈ (Subs.strip s).toList ↔ ∃ t' ∈ s.toList, t.name = t'.name ∧ t.promotes = t'.promotes ∧ t.model = Model.strip t'.model := by
  induction s using Subs.rec (motive_1 := fun _ => True) with
  | mk => trivial
  | nil => simp [Subs.strip, Subs.toList]
  | cons n p m rest _ ih =>
    rw [Subs.strip, Subs.toList, Subs.toList]
    simp only [List.mem_cons, ih]
    constructor
    · rintro (rfl | ⟨t', h, h'⟩)
      · exact ⟨_, .inl rfl, rfl, rfl, rfl⟩
      · exact ⟨t', .inr h, h'⟩
    · rintro ⟨t', rfl | h, h'⟩
      · left
        obtain ⟨a, b, c⟩ := h'
        cases t
        simp only at a b c
        rw [a, b, c]
      · exact .inr ⟨t', h, h'⟩

theorem at_strip {m : Model} {path : List Name} {M : Model} : At (Model.strip m) path M ↔ ∃ M', At m path M' ∧ M = Model.strip M' := by
  constructor
  · intro h
    generalize hm : Model.strip m = m0 at h
    induction h generalizing m with
    | here => exact ⟨m, .here _, hm.symm⟩
    | @down l subs path m' s hs _ ih =>
      cases m with
      | mk l0 subs0 =>
        rw [Model.strip] at hm
        cases hm
        obtain ⟨t, h1, h2, _, h3⟩ := mem_strip.1 hs
        obtain ⟨M', h4, h5⟩ := ih h3.symm
        rw [h2]
        exact ⟨M', .down h1 h4, h5⟩
  · rintro ⟨M', h, rfl⟩
    induction h with
    | here => exact .here _
    | @down l subs path m' s hs _ ih =>
      rw [Model.strip]
      exact At.down (s := ⟨s.name, s.promotes, Model.strip s.model⟩) (mem_strip.2 ⟨s, hs, rfl, rfl, rfl⟩) ih

theorem strip_names : ∀ (s : Subs), (Subs.strip s).toList.map Subgraph.name = s.toList.map Subgraph.name
  | .nil => rfl
  | .cons n p m rest => by rw [Subs.strip, Subs.toList, Subs.toList, List.map_cons, List.map_cons, strip_names rest]

theorem dotFree_strip {m : Model} : DotFree (Model.strip m) ↔ DotFree m := by
  constructor
  · intro h path l subs ha
    obtain ⟨a, b, c⟩ := h path _ _ (at_strip.2 ⟨_, ha, by rw [Model.strip]⟩)
    refine ⟨fun k v hv => a k v (by cases k <;> exact hv), fun s hs => ?_, by rwa [strip_names] at c⟩
    exact b ⟨s.name, s.promotes, Model.strip s.model⟩ (mem_strip.2 ⟨s, hs, rfl, rfl, rfl⟩)
  · intro h path l subs ha
    obtain ⟨⟨l', subs'⟩, h1, h2⟩ := at_strip.1 ha
    rw [Model.strip] at h2
    cases h2
    obtain ⟨a, b, c⟩ := h path l' subs' h1
    refine ⟨fun k v hv => a k v (by cases k <;> exact hv), fun s hs => ?_, by rwa [strip_names]⟩
    obtain ⟨t, h3, h4, _⟩ := mem_strip.1 hs
    rw [h4]
    exact b t h3

theorem promotedAs_strip {m : Model} {path : List Name} {k : VarKind} {v : VarInfo} {p : Name} : PromotedAs (Model.strip m) path k v p ↔ PromotedAs m path k v p := by
  constructor
  · intro h
    generalize hm : Model.strip m = m0 at h
    induction h generalizing m with
    | here hv =>
      cases m; rw [Model.strip] at hm; cases hm
      exact .here (by rename_i k; cases k <;> exact hv)
    | up hs _ hp ih =>
      cases m; rw [Model.strip] at hm; cases hm
      obtain ⟨t, h1, h2, h3, h4⟩ := mem_strip.1 hs
      rw [h2]
      exact .up h1 (ih h4.symm) (by rw [← h3]; exact hp)
    | stay hs _ hp ih =>
      cases m; rw [Model.strip] at hm; cases hm
      obtain ⟨t, h1, h2, h3, h4⟩ := mem_strip.1 hs
      rw [h2]
      exact .stay h1 (ih h4.symm) (by rw [← h3]; exact hp)
  · intro h
    induction h with
    | here hv => rw [Model.strip]; exact .here (by rename_i k _; cases k <;> exact hv)
    | @up l subs path k v p s hs _ hp ih =>
      rw [Model.strip]
      exact PromotedAs.up (s := ⟨s.name, s.promotes, Model.strip s.model⟩) (mem_strip.2 ⟨s, hs, rfl, rfl, rfl⟩) ih hp
    | @stay l subs path k v p s hs _ hp ih =>
      rw [Model.strip]
      exact PromotedAs.stay (s := ⟨s.name, s.promotes, Model.strip s.model⟩) (mem_strip.2 ⟨s, hs, rfl, rfl, rfl⟩) ih hp

/-! ### custom operations -/

/-- the objects, with no operation custom -/
def Objs.plain (H : Objs) : Objs := fun i => { H i with custom := false }

mutual
theorem toModel_plain (H : Objs) : ∀ m : OModel, m.toModel H.plain = m.toModel H
  | .mk i o d c dv cn ob subs => by rw [OModel.toModel, OModel.toModel, toSubs_plain H subs]; rfl
theorem toSubs_plain (H : Objs) : ∀ s : OSubs, s.toSubs H.plain = s.toSubs H
  | .nil => rfl
  | .cons i p m rest => by rw [OSubs.toSubs, OSubs.toSubs, toModel_plain H m, toSubs_plain H rest]; rfl
end

mutual
theorem graphs_plain (H : Objs) (fuel : Nat) : ∀ m : OModel, m.graphs H.plain fuel = m.graphs H fuel
  | .mk i o d c dv cn ob subs => by rw [OModel.graphs, OModel.graphs, kids_plain H fuel subs]; rfl
theorem kids_plain (H : Objs) (fuel : Nat) : ∀ (s : OSubs) (seen : List Name), s.kids H.plain fuel seen = s.kids H fuel seen
  | .nil, _ => rfl
  | .cons i p m rest, seen => by
    rw [OSubs.kids, OSubs.kids, graphs_plain H fuel m, kids_plain H fuel rest, kids_plain H fuel rest]; rfl
end

theorem oat_plain {H : Objs} {root : OModel} {path : List Name} {m : OModel} : OAt H.plain root path m ↔ OAt H root path m := by
  constructor
  · intro h
    induction h with
    | here => exact .here _
    | down hs _ ih => exact OAt.down (H := H) hs ih
  · intro h
    induction h with
    | here => exact .here _
    | down hs _ ih => exact OAt.down (H := H.plain) hs ih

theorem objectsOk_plain {H : Objs} {n : Nat} {root : OModel} (h : ObjectsOk H n root) : ObjectsOk H.plain n root where
  models := fun path m hm => by
    have c := h.models path m (oat_plain.1 hm)
    exact ⟨c.bounded, c.names, c.subKinds, c.inputRole, c.outputRole, c.declaredRole, c.varDeps, c.opDeps, c.userNamed, c.autoNamed, c.sources, c.sourceNames⟩
  dotFree := by rw [toModel_plain]; exact h.dotFree
  separate := fun path m path' m' h1 h2 c h3 h4 => h.separate path m path' m' (oat_plain.1 h1) (oat_plain.1 h2) c h3 h4
  auto := fun path m h1 c h2 h3 h4 => by
    obtain ⟨a, b⟩ := h.auto path m (oat_plain.1 h1) c h2 h3 h4
    exact ⟨a, fun path' m' h5 c' h6 h7 => b path' m' (oat_plain.1 h5) c' h6 h7⟩

theorem checkUnknown_plain {H : Objs} {g : Graph} {v : Nat} (h : checkUnknown H.plain.info g v = .ok ()) : checkUnknown H.info g v = .ok () := by
  unfold checkUnknown at h ⊢
  have e : ∀ i, (H.plain.info i).name = (H.info i).name ∧ (H.plain.info i).auto = (H.info i).auto ∧ (H.plain.info i).kind = (H.info i).kind := fun i => ⟨rfl, rfl, rfl⟩
  by_cases hn : (H.info v).name = (H.info v).auto
  · rw [if_pos hn]
  · rw [(e v).1, (e v).2.1, if_neg hn] at h
    rw [if_neg hn]
    cases hp : g.preds v with
    | nil => rw [hp] at h; cases h
    | cons p l =>
      rw [hp] at h
      simp only [(e p).2.2] at h
      have : (H.plain.info p).custom = false := rfl
      rw [this] at h
      split at h
      · cases h
      · simp at h

theorem assignNs_plain {H : Objs} {p2u : Dict Name (List Name)} {u2p : Dict Name Name} {uns : Name} {st st' : FState} {v : Nat} (h : assignNs H.plain.info p2u u2p uns st v = .ok st') :
    assignNs H.info p2u u2p uns st v = .ok st' := by
  unfold assignNs at h ⊢
  have e : (H.plain.info v).name = (H.info v).name := rfl
  simp only [e] at h ⊢
  split at h
  · rename_i h1; rw [if_pos h1]; exact h
  · rename_i h1
    rw [if_neg h1]
    split at h
    · exact h
    · split at h
      · cases h
      · rename_i h3
        rw [checkUnknown_plain h3]
        exact h

theorem assignAll_plain {H : Objs} {p2u : Dict Name (List Name)} {u2p : Dict Name Name} {uns : Name} : ∀ (l : List Nat) {st st' : FState}, assignAll H.plain.info p2u u2p uns st l = .ok st' →
    assignAll H.info p2u u2p uns st l = .ok st'
  | [], _, _, h => h
  | v :: vs, st, st', h => by
    unfold assignAll at h ⊢
    split at h
    · cases h
    · rename_i h1
      rw [assignNs_plain h1]
      exact assignAll_plain vs h

theorem mergeKids_plain {H : Objs} {p2u : Dict Name (List Name)} {u2p : Dict Name Name} : ∀ (k : Kids) (ns : Name) {st st' : FState}, mergeKids H.plain.info p2u u2p k ns st = .ok st' →
    mergeKids H.info p2u u2p k ns st = .ok st'
  | .nil, _, _, _, h => h
  | .cons i name g kids rest, ns, st, st', h => by
    unfold mergeKids at h ⊢
    simp only at h ⊢
    have e : varNodes H.plain.info g = varNodes H.info g := rfl
    rw [e] at h
    split at h
    · cases h
    · rename_i h1
      rw [assignAll_plain _ h1]
      simp only
      split at h
      · cases h
      · rename_i h2
        rw [mergeKids_plain kids _ h2]
        exact mergeKids_plain rest ns h

theorem flatten_plain {H : Objs} {p2u : Dict Name (List Name)} {u2p : Dict Name Name} {g : Graph} {kids : Kids} {st : FState} (h : flatten H.plain.info p2u u2p g kids = .ok st) :
    flatten H.info p2u u2p g kids = .ok st := by
  unfold flatten at h ⊢
  exact mergeKids_plain kids [] h

theorem indexNodes_plain {H : Objs} {st : FState} {p2u : Dict Name (List Name)} {u2p : Dict Name Name} {g : Graph} : ∀ (l : List Nat) (d : NodeMaps),
    (∀ v ∈ l, (H v).kind = .var → (H v).name ≠ (H v).auto → ∃ us, p2u.get? (st.pname H.info v) = some us) → indexNodes H.info st p2u u2p g l d = indexNodes H.plain.info st p2u u2p g l d
  | [], _, _ => rfl
  | v :: vs, d, h => by
    unfold indexNodes
    have e : indexNode H.info st p2u u2p g d v = indexNode H.plain.info st p2u u2p g d v := by
      unfold indexNode
      have e1 : (H.plain.info v).kind = (H.info v).kind := rfl
      have e2 : (H.plain.info v).name = (H.info v).name := rfl
      have e3 : (H.plain.info v).auto = (H.info v).auto := rfl
      have e4 : st.pname H.plain.info v = st.pname H.info v := rfl
      rw [e1, e2, e3, e4]
      by_cases hk : (H.info v).kind ≠ .var
      · rw [if_pos hk, if_pos hk]
      · rw [if_neg hk, if_neg hk]
        by_cases hp : 1 < (g.preds v).length
        · rw [if_pos hp, if_pos hp]
        · rw [if_neg hp, if_neg hp]
          by_cases hn : (H.info v).name = (H.info v).auto
          · rw [if_pos hn, if_pos hn]
          · rw [if_neg hn, if_neg hn]
            obtain ⟨us, hu⟩ := h v (by simp) (not_not.1 hk) hn
            rw [hu]
    rw [e]
    split
    · rfl
    · exact indexNodes_plain vs _ fun w hw => h w (by simp [hw])

theorem mergeConnectionList_plain (H : Objs) (d : NodeMaps) : ∀ (cs : List (Name × Name × Name)) (acc : Graph × Dict Nat Nat), mergeConnectionList H.info d cs acc = mergeConnectionList H.plain.info d cs acc
  | [], _ => rfl
  | c :: cs, acc => by
    unfold mergeConnectionList
    have e : mergeConnection H.info d acc c = mergeConnection H.plain.info d acc c := rfl
    rw [e]
    split
    · rfl
    · exact mergeConnectionList_plain H d cs _

/-- Custom operations are compiled as all others: if all outputs are registered or have automatic names. -/
theorem compile_plain {H : Objs} {n fuel : Nat} {root : OModel} (hok : ObjectsOk H.plain n root) (hf : ∀ path m, OAt H.plain root path m → (m.outputs ++ m.declared).length + n ≤ fuel)
    (order : List Nat → List Nat) (ho : ∀ l x, x ∈ order l ↔ x ∈ l) : compile H fuel order root = compile H.plain fuel order root := by
  have hd := hok.dotFree
  unfold compile
  rw [← toModel_plain H root, ← graphs_plain H fuel root]
  cases hr : resolve (root.toModel H.plain) none with
  | error e => rfl
  | ok r =>
    have key : ∀ g kids, root.graphs H.plain fuel = .ok (g, kids) → ∀ cs, constructFlat H.info order r.p2u (createReverseMap r.p2u) g kids cs = constructFlat H.plain.info order r.p2u (createReverseMap r.p2u) g kids cs := by
      intro g kids hg cs
      have hk := hierOk_objects hok hf hg
      have hb := bipartite_objects hok hf hg
      have hrep := represents_objects hok hf hg
      obtain ⟨st, hst⟩ := C29_flatten_total (root.toModel H.plain) hd r hr H.plain.info g kids hrep
      obtain ⟨f1, i1, k1, k2, k3, _⟩ := C30_merge_by_name (root.toModel H.plain) hd (distinctSources_objects hok) r hr H.plain.info g kids st hk hb hrep hst order ho
      obtain ⟨c3, _⟩ := C03_promotion_map_exact (root.toModel H.plain) r hr
      unfold constructFlat
      rw [hst, flatten_plain hst]
      simp only
      have e : mergeAuto H.info order st = mergeAuto H.plain.info order st := rfl
      rw [e]
      have mergedFlat : ∀ a ∈ (mergeAuto H.plain.info order st).nodes, a ∈ st.graph.nodes := by
        intro a ha
        obtain ⟨x, hx, rfl⟩ := (i1.nodes a).1 ha
        by_cases ht : IsTarget H.plain.info st.graph x
        · by_cases hsrc : ∃ s, IsSource H.plain.info st.graph s ∧ st.pname H.plain.info s = st.pname H.plain.info x
          · obtain ⟨s, hs', hns⟩ := hsrc
            rw [k2 x s ht hs' hns]; exact hs'.1
          · exact (k3 x ht (fun s hs' hns => hsrc ⟨s, hs', hns⟩)).1.1
        · rw [k1 x ht]; exact hx
      unfold mergeConnections
      rw [indexNodes_plain]
      · split
        · rfl
        · rw [mergeConnectionList_plain]
      · intro v hv hkv hnm
        obtain ⟨path, g', ks', k, w, _, _, _, hw, _⟩ := hasPromotedName_of_named hd hr hk hrep hst (mergedFlat v hv) hkv hnm
        obtain ⟨us, h1, _⟩ := (c3 _ _).2 ⟨path, k, w, hw, rfl⟩
        exact ⟨us, h1⟩
    simp only [raises, bind, Except.bind]
    cases hg : root.graphs H.plain fuel with
    | error e => rfl
    | ok gk => simp only [key gk.1 gk.2 hg]

end Csdl
