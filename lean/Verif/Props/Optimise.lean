import Verif.Spec.Optimise
import Verif.Props.Given
import Verif.Props.Lookup
import Verif.Props.ProgramFull
/-
C110: what an optimiser optimises.
-/
namespace Csdl.Prog
open Csdl Csdl.Arith
variable {K F G I : Type} [Field K] [DecidableEq K]

omit [DecidableEq K] in
theorem strip_toSubs : ∀ (b : XBody K F G I) (n : Nat), Subs.strip b.toSubs = (b.low n).toSubs
  | .done, _ => rfl
  | .stmt s rest, n => by rw [XBody.low, toSubs_prefix, XBody.toSubs, strip_toSubs rest]
  | .add _ name p sub rest, n => by
    rw [XBody.low, Body.toSubs, XBody.toSubs, Subs.strip, Model.strip, strip_toSubs rest n, strip_toSubs sub 0]
    rfl

omit [DecidableEq K] in
theorem strip_xmodel (b : XBody K F G I) : Model.strip b.toModel = (b.low 0).toModel := by
  rw [XBody.toModel, Model.strip, strip_toSubs b 0]
  rfl

omit [DecidableEq K] in
theorem promotedAs_low {b : XBody K F G I} {path : List Name} {k : VarKind} {v : VarInfo} {p : Name} : PromotedAs b.toModel path k v p ↔ PromotedAs (b.low 0).toModel path k v p := by
  rw [← strip_xmodel, promotedAs_strip]

omit [DecidableEq K] in
theorem denotes_low {b : XBody K F G I} {n p : Name} : Denotes b.toModel n p ↔ Denotes (b.low 0).toModel n p := by
  constructor
  · rintro (h | h)
    · exact .promoted (promotedAs_low.1 h)
    · exact .full (promotedAs_low.1 h)
  · rintro (h | h)
    · exact .promoted (promotedAs_low.2 h)
    · exact .full (promotedAs_low.2 h)

omit [DecidableEq K] in
/-- a design variable of a method is an input of it -/
theorem design_input {b' : XBody K F G I} (hm : ∀ P y P', b'.stmts 0 = P ++ y :: P' → XStmtOk P y.2) {n : Nat} {name : Name} {d : Nat} (h : (n, .designVar name d) ∈ b'.stmts 0) :
    ∃ y shape v, (b'.low 0).Has y (.input name shape v) := by
  obtain ⟨P, P', hs⟩ := List.append_of_mem h
  obtain ⟨⟨y, shape, h1⟩, _⟩ := hm _ _ _ hs
  obtain ⟨v, h2⟩ := mem_inputOf.1 h1
  refine ⟨y, shape, v, ?_⟩
  unfold Body.Has
  rw [low_stmts, hs, lowAll, List.flatMap_append]
  exact List.mem_append_left _ h2

/-- in a model of a hierarchy, a name without dots denotes only itself -/
theorem denotes_self {m : Model} (hd : DotFree m) {path : List Name} {l : Local} {subs : Subs} (ha : At m path (.mk l subs)) {k q : Name} (hk : '.' ∉ k) (h : Denotes (.mk l subs) k q) : q = k := by
  cases h with
  | promoted h => rfl
  | @full path' kk v _ h =>
    obtain ⟨_, hs, _⟩ := hd _ _ _ ha
    cases h with
    | here => rfl
    | @up _ _ path' _ _ _ s h1 _ _ => exact absurd (dot_mem_prepend (hs s h1).1) hk
    | @stay _ _ path' _ _ _ s h1 _ _ => exact absurd (dot_mem_prepend (hs s h1).1) hk

/-- what a design variable denotes -/
theorem design_denotes {b : XBody K F G I} (R : Ready (b.low 0)) {path : List Name} {b' : XBody K F G I} (hb : XAt b path b') {y : Nat} {name : Name} {shape : Shape} {v : Val K}
    (hy : (b'.low 0).Has y (.input name shape v)) : ∃ p, PromotedAs (b.low 0).toModel path .source ⟨name, shape⟩ p ∧ HasName (b.low 0) path y p ∧ Denotes b'.toModel name name ∧
      ∀ q p', Denotes b'.toModel name q → Denotes b.toModel (fullName path q) p' → q = name ∧ p' = p := by
  have hc := xat_low hb
  obtain ⟨p, h1, h2⟩ := R.inputName hc hy
  have hm : (⟨name, shape⟩ : VarInfo) ∈ (b'.low 0).locals.vars .source := by
    simp only [Local.vars, Local.sources, Body.locals]
    exact List.mem_append_left _ (List.mem_map.2 ⟨_, mem_inputOf.2 ⟨_, hy⟩, rfl⟩)
  have hat := at_of_bat hc
  have hdot : '.' ∉ name := (R.dotFree _ _ _ hat).1 .source _ hm
  refine ⟨p, h2, h1, denotes_low.2 (.promoted (path := []) (.here hm)), fun q p' h3 h4 => ?_⟩
  obtain rfl := denotes_self R.dotFree hat hdot (denotes_low.1 h3)
  exact ⟨rfl, R.denotes (denotes_low.1 h4) (.full h2)⟩

mutual
theorem issuedPre_nodup (sel : Local → Dict Name Nat) : ∀ (m : Model), (∀ path l subs, At m path (.mk l subs) → (sel l).keys.Nodup ∧ (subs.toList.map Subgraph.name).Nodup) →
    ((issuedPre sel m).map fun i => (i.1, i.2.2.1)).Nodup
  | .mk l subs, h => by
    rw [issuedPre, List.map_append, List.map_map, List.nodup_append]
    refine ⟨?_, issuedPreSubs_nodup sel subs (h _ _ _ (.here _)).2 fun s hs path l' subs' ha => h (s.name :: path) l' subs' (.down hs ha), ?_⟩
    · have := (h _ _ _ (.here _)).1
      rw [Dict.keys] at this
      have e : ((sel l).map ((fun i : List Name × Model × Name × Nat => (i.1, i.2.2.1)) ∘ fun x => ([], Model.mk l subs, x))) = ((sel l).map Prod.fst).map fun k => ([], k) := by simp [Function.comp_def]
      rw [e]
      exact this.map fun _ _ h => by simpa using h
    · intro a ha c hc e
      subst e
      obtain ⟨x, _, rfl⟩ := List.mem_map.1 ha
      obtain ⟨⟨path, m', y⟩, hy, he⟩ := List.mem_map.1 hc
      obtain ⟨s, _, path', rfl, _⟩ := (mem_issuedPreSubs subs path m' y).1 hy
      cases he
theorem issuedPreSubs_nodup (sel : Local → Dict Name Nat) : ∀ (subs : Subs), (subs.toList.map Subgraph.name).Nodup → (∀ s ∈ subs.toList, ∀ path l' subs', At s.model path (.mk l' subs') → (sel l').keys.Nodup ∧ (subs'.toList.map Subgraph.name).Nodup) →
    ((issuedPreSubs sel subs).map fun i => (i.1, i.2.2.1)).Nodup
  | .nil, _, _ => by simp [issuedPreSubs]
  | .cons n p m rest, h, h' => by
    rw [Subs.toList, List.map_cons, List.nodup_cons] at h
    rw [issuedPreSubs, List.map_append, List.map_map, List.nodup_append]
    refine ⟨?_, issuedPreSubs_nodup sel rest h.2 fun s hs => h' s (by rw [Subs.toList]; exact List.mem_cons_of_mem _ hs), ?_⟩
    · have := issuedPre_nodup sel m (h' ⟨n, p, m⟩ (by rw [Subs.toList]; exact List.mem_cons_self ..))
      have e : ((issuedPre sel m).map ((fun i : List Name × Model × Name × Nat => (i.1, i.2.2.1)) ∘ fun px => (n :: px.1, px.2))) = ((issuedPre sel m).map fun i => (i.1, i.2.2.1)).map fun k => (n :: k.1, k.2) := by
        simp [Function.comp_def]
      rw [e]
      exact this.map fun _ _ h => by simpa [Prod.ext_iff] using h
    · intro a ha c hc e
      subst e
      obtain ⟨x, _, rfl⟩ := List.mem_map.1 ha
      obtain ⟨⟨path, m', y⟩, hy, he⟩ := List.mem_map.1 hc
      obtain ⟨s, hs, path', rfl, _⟩ := (mem_issuedPreSubs rest path m' y).1 hy
      simp only [Function.comp_apply, Prod.mk.injEq, List.cons.injEq] at he
      exact h.1 (List.mem_map.2 ⟨s, hs, he.1.1⟩)
end

/-- **C110.** In a program whose methods are fine and that is valid when written without optimisation declarations, the names of the design variables always denote variables, different ones. -/
theorem C110_design_variables_never_clash (b : XBody K F G I) (hm : ∀ path b', XAt b path b' → ∀ P y P', b'.stmts 0 = P ++ y :: P' → XStmtOk P y.2) (hv : ValidProgram (b.low 0)) (hs : (b.low 0).maxObjects ≤ 63 ^ 4) :
    NamesResolve b.toModel Local.designVars ∧ DeclaredOnce b.toModel Local.designVars := by
  have R := ready hv hs
  have hdv : ∀ (b' : XBody K F G I) k d, (k, d) ∈ b'.locals.designVars → ∃ n, (n, .designVar k d) ∈ b'.stmts 0 := by
    intro b' k d h
    unfold XBody.locals at h
    obtain ⟨⟨n, s⟩, h2, h3⟩ := List.mem_filterMap.1 h
    cases s <;> simp only [XStmt.designVar?, reduceCtorEq, Option.some.injEq, Prod.mk.injEq] at h3
    obtain ⟨rfl, rfl⟩ := h3
    exact ⟨n, h2⟩
  constructor
  · intro path l subs k d ha hk
    obtain ⟨b', hb, e⟩ := xat_of_at ha
    unfold XBody.toModel at e
    cases e
    obtain ⟨n, hn⟩ := hdv b' k d hk
    obtain ⟨y, shape, v, hy⟩ := design_input (hm _ _ hb) hn
    obtain ⟨p, h1, _, h2, _⟩ := design_denotes R hb hy
    exact ⟨k, p, h2, .full (promotedAs_low.2 h1)⟩
  · have hkeys : ∀ path b', XAt b path b' → (Dict.keys b'.locals.designVars).Nodup := by
      intro path b' hb
      have key : ∀ (L P : List (Nat × XStmt K F G I)), b'.stmts 0 = P ++ L → (∀ y ∈ P.filterMap (fun y => y.2.designVar?), y.1 ∉ (L.filterMap fun y => y.2.designVar?).map Prod.fst) ∧ ((L.filterMap fun y => y.2.designVar?).map Prod.fst).Nodup := by
        intro L
        induction L with
        | nil => intro P _; simp
        | cons y L ih =>
          intro P hP
          obtain ⟨i1, i2⟩ := ih (P ++ [y]) (by simp [hP])
          have hy := hm _ _ hb P y L hP
          obtain ⟨n, s⟩ := y
          rw [List.filterMap_append] at i1
          cases hs : s.designVar? with
          | none =>
            simp only [List.filterMap_cons, hs]
            exact ⟨fun y hy => i1 y (List.mem_append_left _ hy), i2⟩
          | some kd =>
            have hs' : s = .designVar kd.1 kd.2 := by
              cases s <;> simp only [XStmt.designVar?, reduceCtorEq, Option.some.injEq] at hs
              subst hs; rfl
            subst hs'
            simp only [List.filterMap_cons, XStmt.designVar?, List.map_cons, List.nodup_cons] at i1 ⊢
            refine ⟨fun z hz hz' => ?_, i1 kd (by simp), i2⟩
            rcases List.mem_cons.1 hz' with h | h
            · exact hy.2 z.2 (by rw [← h]; exact hz)
            · exact i1 z (List.mem_append_left _ hz) h
      exact (key _ [] rfl).2
    have hnd := issuedPre_nodup Local.designVars b.toModel fun path l subs ha => by
      obtain ⟨b', hb, e⟩ := xat_of_at ha
      unfold XBody.toModel at e
      cases e
      have := (R.dotFree _ _ _ (at_of_bat (xat_low hb))).2.2
      rw [← strip_toSubs, strip_names] at this
      exact ⟨hkeys path b' hb, this⟩
    refine List.Nodup.pairwise_of_forall_ne hnd.of_map ?_
    rintro ⟨path, M, k, d⟩ hi ⟨path', M', k', d'⟩ hj hne n n' p h1 h2 h3 h4
    have get : ∀ {path M k d n p}, (path, M, k, d) ∈ issuedPre Local.designVars b.toModel → Denotes M k n → Denotes b.toModel (fullName path n) p → ∃ b' shape, XAt b path b' ∧ M = b'.toModel ∧ PromotedAs (b.low 0).toModel path .source ⟨k, shape⟩ p := by
      intro path M k d n p hi h1 h2
      obtain ⟨l, subs, rfl, ha, hk⟩ := (mem_issuedPre _ _ _ _).1 hi
      obtain ⟨b', hb, e⟩ := xat_of_at ha
      unfold XBody.toModel at e
      cases e
      obtain ⟨n, hn⟩ := hdv b' k d hk
      obtain ⟨y, shape, v, hy⟩ := design_input (hm _ _ hb) hn
      obtain ⟨p', g1, _, _, g2⟩ := design_denotes R hb hy
      obtain ⟨rfl, rfl⟩ := g2 _ _ h1 h2
      exact ⟨b', shape, hb, rfl, g1⟩
    obtain ⟨b1, sh1, a1, rfl, a2⟩ := get hi h1 h2
    obtain ⟨b2, sh2, c1, rfl, c2⟩ := get hj h3 h4
    obtain rfl := hv.oneSource [] _ (.here _) _ _ _ _ _ a2 c2
    have hk := R.localName a2 c2
    exact hne (List.inj_on_of_nodup_map hnd hi hj (by simpa using hk))

/-- the promoted name of a variable with a name -/
theorem named_promoted {b : Body K F} {path : List Name} {c : Body K F} (hc : BAt b path c) {z : Nat} {name : Name} (hn : c.Named z name) (hl : c.Live z) :
    ∃ k w p, w.name = name ∧ PromotedAs b.toModel path k w p ∧ HasName b path z p ∧ Denotes c.toModel name name := by
  have key : ∃ k, ∃ w ∈ c.locals.vars k, w.name = name := by
    rcases hn with ⟨sh, h | h⟩ | h
    · refine ⟨.source, ⟨name, sh⟩, ?_, rfl⟩
      simp only [Local.vars, Local.sources, Body.locals]
      exact List.mem_append_left _ (List.mem_map.2 ⟨_, h, rfl⟩)
    · exact ⟨.target, ⟨name, sh⟩, List.mem_map.2 ⟨_, h, rfl⟩, rfl⟩
    · exact ⟨.source, ⟨name, c.shapes.getD z []⟩, List.mem_append_right _ (List.mem_map.2 ⟨_, h, rfl⟩), rfl⟩
  obtain ⟨k, w, hw, rfl⟩ := key
  obtain ⟨p, hp⟩ := promoted_total (at_of_bat hc) hw
  exact ⟨k, w, p, rfl, hp, ⟨c, _, k, w, hc, hl, hn, hp, rfl⟩, .promoted (path := []) (.here hw)⟩

/-- every name of a variable finds the node of its promoted name -/
theorem find_denoted {b : Body K F} (R : Ready b) {maps : NodeMaps} {done : Dict Nat Nat} {node : List Name → Nat → Nat}
    (e1 : ∀ path x p, HasName b path x p → ∃ t, maps.p2n.get? p = some t ∧ Leads done t (node path x) ∧ ∀ path' k w, PromotedAs b.toModel path' k w p → maps.u2n.get? (fullName path' w.name) = some t)
    (e2 : ∀ n t, maps.p2n.get? n = some t → ∃ path x, HasName b path x n) {path : List Name} {x : Nat} {p n : Name} (hp : HasName b path x p) (hd : Denotes b.toModel n p) :
    ∃ t, findNode maps n = .ok t ∧ Leads done t (node path x) := by
  obtain ⟨t, t1, t2, t3⟩ := e1 path x p hp
  refine ⟨t, ?_, t2⟩
  unfold findNode
  cases hd with
  | promoted hw => rw [t1]
  | full hw =>
    rename_i path' k w
    cases hg : maps.p2n.get? (fullName path' w.name) with
    | none => dsimp only; rw [t3 path' k w hw]
    | some t' =>
      obtain ⟨path2, x2, hp2⟩ := e2 _ t' hg
      have hp2' := hp2
      obtain ⟨_, _, k2, w2, _, _, _, hw2, _⟩ := hp2
      have := R.denotes (Denotes.promoted hw2) (Denotes.full hw)
      rw [this] at hg
      rw [t1] at hg
      cases hg; rfl

theorem NodeByName.of {b : Body K F} {maps : NodeMaps} {done : Dict Nat Nat} {node : List Name → Nat → Nat} (h : ∀ path x p, HasName b path x p → ∃ t, maps.p2n.get? p = some t ∧ Leads done t (node path x)) {path : List Name} {x : Nat} {p : Name}
    (hp : HasName b path x p) (i : Nat) : NodeByName maps done p i ↔ i = node path x := by
  obtain ⟨t, h1, h2⟩ := h _ _ _ hp
  have hf : findNode maps p = .ok t := by unfold findNode; rw [h1]
  constructor
  · rintro ⟨t', h3, h4⟩
    rw [hf] at h3; cases h3
    exact h4.unique h2
  · rintro rfl
    exact ⟨t, hf, h2⟩

/-- **C110.** What an optimiser optimises.  Let a program be valid and none of its design variables be the target of a connection.  Then csdl accepts it; the design variables of the representation are the inputs declared design variables, under their promoted names; each has a node of its
own, found by its name; and if an optimiser sets these nodes to any values `x`, the others having their initial values, executing the representation computes the one solution of the program in which each of these inputs has the value `x` gives for its name and every other variable that
must be given has its default value (C86).  All variables are found in it by their names; under the name given for the objective by the representation is the value of the variable that the program declares as the objective, and so for the constraints. -/
theorem C110_optimiser_sees_the_program (b : XBody K F G I) (hv : XValid b) (hp : XPlain b) (hd : ∀ path y p, DesignInput b path y p → ¬ TargetName (b.low 0).toModel p) : ∃ objs root, xrunProgram b = .ok (objs, root) ∧
    ∀ order : List Nat → List Nat, (∀ l x, x ∈ order l ↔ x ∈ l) → ∀ fuel, (∀ path b', XAt b path b' → (b'.locals.outputs ++ b'.locals.declared).length + objs.length ≤ fuel) →
      ∃ rep, compile (xobjects objs) fuel order root = .ok rep ∧ (∀ p, p ∈ rep.designVars.keys ↔ ∃ path y, DesignInput b path y p) ∧
      (∀ p ∈ rep.designVars.keys, ∃ i ∈ rep.graph.nodes, NodeByName rep.maps rep.done p i ∧ ∀ p' ∈ rep.designVars.keys, NodeByName rep.maps rep.done p' i → p' = p) ∧
      (∀ x : Name → Val K, ∃ σ0, SetBy rep x (initial objs) σ0) ∧
      ∃ f : Nat → Nat, ∀ (P : Power K) (den : Fun F G I → List (Val K) → Nat → Val K) (x : Name → Val K) (σ0 : Env (Val K)), SetBy rep x (initial objs) σ0 →
        let σ := execAll rep.graph ⟨fun i => decide ((xobjects objs i).kind = .op), fun i => (xobjects objs i).deps.map f, opMeaning P den objs⟩ σ0 rep.sorted
        ∃ value, Prog.Solution P den (b.low 0) value ∧ (∀ path y p, DesignInput b path y p → value path y = x p) ∧
          (∀ path z, GivenVar (b.low 0) path z → (∀ path' y p, DesignInput b path' y p → ¬ SameVar (b.low 0) path z path' y) → ∃ v, DefaultOf (b.low 0) path z v ∧ value path z = v.getD fun _ => 1) ∧
          (∀ ρ, Prog.Solution P den (b.low 0) ρ → (∀ path z, GivenVar (b.low 0) path z → ρ path z = value path z) → ∀ path b', XAt b path b' → ∀ z, (b'.low 0).Live z → ρ path z = value path z) ∧
          (∀ path z p n, HasName (b.low 0) path z p → Denotes (b.low 0).toModel n p → ∀ v, ValueByName rep.maps rep.done σ n v ↔ v = value path z) ∧
          (∀ path b' n k d z, XAt b path b' → (n, .objective k d) ∈ b'.stmts 0 → (b'.low 0).Named z k → (b'.low 0).Live z → ∃ p, rep.objective = some (p, d) ∧ ∀ v, ValueByName rep.maps rep.done σ p v ↔ v = value path z) ∧
          ∀ path b' n k d z, XAt b path b' → (n, .constraint k d) ∈ b'.stmts 0 → (b'.low 0).Named z k → (b'.low 0).Live z → ∃ p, (p, d) ∈ rep.constraints ∧ ∀ v, ValueByName rep.maps rep.done σ p v ↔ v = value path z := by
  classical
  have R := ready hv.low hp.size
  obtain ⟨objs, root, hr, hcomp⟩ := C80_valid_programs_compute b hv hp
  have hr0 := (xrunFrom_low hr).1
  have hn : objs.length ≤ 63 ^ 4 := by
    have := runFrom_length hr0
    have := hp.size
    simp only [List.length_nil, Nat.zero_add] at *
    omega
  refine ⟨objs, root, hr, fun order ho fuel hf => ?_⟩
  obtain ⟨rep, hc, _⟩ := hcomp hn order ho fuel hf
  have hdecl := C81_declarations_exact b hp hv.low.names objs root hr hn fuel hf order ho rep hc
  have hf' : ∀ path c, BAt (b.low 0) path c → (c.locals.outputs ++ c.locals.declared).length + objs.length ≤ fuel := by
    intro path c hc
    obtain ⟨b', h1, rfl⟩ := bat_low hc
    exact hf path b' h1
  have hcl : Closed objs := runFrom_closed (by simp [Closed]) hr0
  obtain ⟨rep0, dv, ob, cn, hc0, _, _, _, hrep⟩ := (xcompile hv.low.names hr List.prefix_rfl hcl hn hf' ho rep).1 hc
  obtain ⟨Ls, f, node, u, hk, rfl, f1, f2, hlive, hsame, h3⟩ := means_kept [] (b.low 0) hv.low.names hv.low.noChain objs _ hr0 objs List.prefix_rfl hcl hn fuel hf' order ho rep0 hc0
  have e1 : ∀ path x p, HasName (b.low 0) path x p → ∃ t, rep.maps.p2n.get? p = some t ∧ Leads rep.done t (f (objOf Ls path x)) ∧
        ∀ path' k w, PromotedAs (b.low 0).toModel path' k w p → rep.maps.u2n.get? (fullName path' w.name) = some t := by
    intro path x p hp
    obtain ⟨t, t1, t2, t3⟩ := hk.found _ p (u.rep_of_hasName hp).2
    rw [hrep]
    exact ⟨t, t1, t2, by rw [← u.hier.names]; exact t3⟩
  have e2 : ∀ n t, rep.maps.p2n.get? n = some t → ∃ path x, HasName (b.low 0) path x n := by
    intro n t h
    rw [hrep] at h
    obtain ⟨path, x, _, h⟩ := u.hasName_of_named (hk.foundP n t h)
    exact ⟨path, x, h⟩
  have hnode : ∀ {path x p}, HasName (b.low 0) path x p → ∀ i, NodeByName rep.maps rep.done p i ↔ i = f (objOf Ls path x) := fun h i =>
    NodeByName.of (b := b.low 0) (node := fun path x => f (objOf Ls path x)) (fun path x p hp => (e1 path x p hp).imp fun _ h => ⟨h.1, h.2.1⟩) h i
  -- design variables
  have hdes : ∀ {path y p}, DesignInput b path y p → HasName (b.low 0) path y p ∧ FreeInput (b.low 0) path y := by
    intro path y p h
    have ht := hd path y p h
    obtain ⟨b', n, name, d, shape, v, h1, h2, h4, h5⟩ := h
    obtain ⟨q, g1, g2, g3, g4⟩ := design_denotes R h1 h4
    obtain ⟨_, rfl⟩ := g4 name p g3 (.full (promotedAs_low.2 h5))
    exact ⟨g2, _, name, shape, v, xat_low h1, h4, fun q hq => R.sameName (xat_low h1) (.refl _) g2 hq ▸ ht⟩
  have hkeys : ∀ p, p ∈ rep.designVars.keys ↔ ∃ path y, DesignInput b path y p := by
    intro p
    constructor
    · intro h
      obtain ⟨⟨_, d⟩, h1, rfl⟩ := List.mem_map.1 h
      obtain ⟨path, b', n, k, q, h2, h3, h4, h5⟩ := (hdecl.1.2 _ _).1 h1
      obtain ⟨y, shape, v, h6⟩ := design_input (hv.methods _ _ h2) h3
      obtain ⟨p', g1, g2, g3, g4⟩ := design_denotes R h2 h6
      obtain ⟨_, rfl⟩ := g4 _ _ h4 h5
      exact ⟨path, y, b', n, k, d, shape, v, h2, h3, h6, g1⟩
    · rintro ⟨path, y, b', n, name, d, shape, v, h1, h2, h4, h5⟩
      obtain ⟨q, g1, g2, g3, g4⟩ := design_denotes R h1 h4
      exact List.mem_map.2 ⟨(p, d), (hdecl.1.2 _ _).2 ⟨path, b', n, name, name, h1, h2, g3, .full (promotedAs_low.2 h5)⟩, rfl⟩
  have hnameLive : ∀ {path x p}, HasName (b.low 0) path x p → ∃ c, BAt (b.low 0) path c ∧ c.Live x := fun h => by
    obtain ⟨c, _, _, _, g1, g2, _⟩ := h
    exact ⟨c, g1, g2⟩
  have hapart : ∀ {p p' i}, p ∈ rep.designVars.keys → p' ∈ rep.designVars.keys → NodeByName rep.maps rep.done p i → NodeByName rep.maps rep.done p' i → p' = p := by
    intro p p' i k1 k2 n1 n2
    obtain ⟨path, y, h1⟩ := (hkeys p).1 k1
    obtain ⟨path', y', h2⟩ := (hkeys p').1 k2
    obtain ⟨a1, a2⟩ := hdes h1
    obtain ⟨c1, c2⟩ := hdes h2
    obtain ⟨c, l1, l2⟩ := hnameLive a1
    obtain ⟨c', l1', l2'⟩ := hnameLive c1
    have e := ((hnode a1 i).1 n1).symm.trans ((hnode c1 i).1 n2)
    obtain ⟨rfl, rfl⟩ := C109_free_inputs_apart (b.low 0) hv.low hp.size _ _ _ _ a2 c2 ((hsame _ _ _ _ l1 l1' _ _ l2 l2').1 e)
    exact R.sameName l1' (.refl _) c1 a1
  refine ⟨rep, hc, hkeys, fun p hpk => ?_, fun x => ?_, f, fun P den x σ0 hσ => ?_⟩
  · obtain ⟨path, y, h1⟩ := (hkeys p).1 hpk
    obtain ⟨a1, _⟩ := hdes h1
    obtain ⟨c, l1, l2⟩ := hnameLive a1
    have hi := (hnode a1 _).2 rfl
    exact ⟨_, by rw [hrep]; exact (hlive _ _ l1 _ l2).1, hi, fun p' h' hi' => hapart hpk h' hi hi'⟩
  · refine ⟨fun i => if h : ∃ p ∈ rep.designVars.keys, NodeByName rep.maps rep.done p i then x h.choose else initial objs i, fun p hpk i hi => ?_, fun i hi => ?_⟩
    · have h : ∃ p ∈ rep.designVars.keys, NodeByName rep.maps rep.done p i := ⟨p, hpk, hi⟩
      rw [dif_pos h, hapart hpk h.choose_spec.1 hi h.choose_spec.2]
    · exact dif_neg fun ⟨p, h1, h2⟩ => hi p h1 h2
  · obtain ⟨s1, s2, s3⟩ := h3 P den σ0
    have e : rep.graph = rep0.graph ∧ rep.sorted = rep0.sorted := by rw [hrep]; exact ⟨rfl, rfl⟩
    rw [e.1, e.2]
    have hval : ∀ path z p n, HasName (b.low 0) path z p → Denotes (b.low 0).toModel n p → ∀ v, ValueByName rep.maps rep.done (execAll rep0.graph ⟨fun i => decide ((xobjects objs i).kind = .op), fun i => (xobjects objs i).deps.map f, opMeaning P den objs⟩ σ0 rep0.sorted) n v ↔
        v = execAll rep0.graph ⟨fun i => decide ((xobjects objs i).kind = .op), fun i => (xobjects objs i).deps.map f, opMeaning P den objs⟩ σ0 rep0.sorted (f (objOf Ls path z)) := by
      intro path z p n h1 h2 v
      obtain ⟨t, t1, t2⟩ := find_denoted R (node := fun path x => f (objOf Ls path x)) e1 e2 h1 h2
      constructor
      · rintro ⟨t', v', h5, h6, rfl⟩
        rw [t1] at h5; cases h5
        exact congrArg (execAll rep0.graph ⟨fun i => decide ((xobjects objs i).kind = .op), fun i => (xobjects objs i).deps.map f, opMeaning P den objs⟩ σ0 rep0.sorted) (t2.unique h6).symm
      · rintro rfl
        exact ⟨t, _, t1, t2, rfl⟩
    have hopt : ∀ {path b' k z}, XAt b path b' → (b'.low 0).Named z k → (b'.low 0).Live z → ∃ p, Denotes b'.toModel k k ∧ Denotes b.toModel (fullName path k) p ∧ HasName (b.low 0) path z p ∧ Denotes (b.low 0).toModel p p := by
      intro path b' k z h1 h2 h4
      obtain ⟨kk, w, p, rfl, g1, g2, g3⟩ := named_promoted (xat_low h1) h2 h4
      exact ⟨p, denotes_low.2 g3, .full (promotedAs_low.2 g1), g2, .promoted g1⟩
    refine ⟨_, s1, fun path y p h => ?_, fun path z hz hno => ?_, fun ρ r1 r2 path b' hb z hz => ?_, hval, fun path b' n k d z h1 h2 h4 h5 => ?_, fun path b' n k d z h1 h2 h4 h5 => ?_⟩
    · obtain ⟨a1, a2⟩ := hdes h
      exact (s2 path y (R.free_given a2)).trans (hσ.set p ((hkeys p).2 ⟨path, y, h⟩) _ ((hnode a1 _).2 rfl))
    · obtain ⟨v, d1, d2⟩ := u.defaults hk f2 hz
      refine ⟨v, d1, ((s2 path z hz).trans (hσ.other _ fun p hpk hi => ?_)).trans d2⟩
      obtain ⟨path', y, h⟩ := (hkeys p).1 hpk
      obtain ⟨a1, _⟩ := hdes h
      obtain ⟨c, l1, l2⟩ := hnameLive a1
      obtain ⟨⟨c', l1', l2'⟩, _⟩ := id hz
      exact hno path' y p h ((hsame _ _ _ _ l1' l1 _ _ l2' l2).1 ((hnode a1 _).1 hi))
    · exact s3 ρ r1 (fun path x hx => (r2 path x hx).trans (s2 path x hx)) path _ (xat_low hb) z hz
    · obtain ⟨p, g1, g2, g3, g4⟩ := hopt h1 h4 h5
      exact ⟨p, (hdecl.2.2 _ _).2 ⟨path, b', n, k, k, h1, h2, g1, g2⟩, hval path z p p g3 g4⟩
    · obtain ⟨p, g1, g2, g3, g4⟩ := hopt h1 h4 h5
      exact ⟨p, (hdecl.2.1.2 _ _).2 ⟨path, b', n, k, k, h1, h2, g1, g2⟩, hval path z p p g3 g4⟩

/-! ### Example: the program of C80 -/

/-- its two design variables, in two models, can be set to any values; `t`, constrained, is found by its name -/
example (P : Power ℚ) (den : Fun Unit Nat Unit → List (Val ℚ) → Nat → Val ℚ) (x : Name → Val ℚ) : ∃ objs root rep, xrunProgram exX = .ok (objs, root) ∧ compile (xobjects objs) 50 id root = .ok rep ∧
    rep.designVars.keys = ["a".toList, "s.b".toList] ∧ ∃ (f : Nat → Nat) (σ0 : Env (Val ℚ)) (value : List Name → Nat → Val ℚ), SetBy rep x (initial objs) σ0 ∧ Prog.Solution P den (exX.low 0) value ∧ value [] 0 = x "a".toList ∧
      value ["s".toList] 0 = x "s.b".toList ∧ ∃ p, (p, 6) ∈ rep.constraints ∧ ∀ v, ValueByName rep.maps rep.done
        (execAll rep.graph ⟨fun i => decide ((xobjects objs i).kind = .op), fun i => (xobjects objs i).deps.map f, opMeaning P den objs⟩ σ0 rep.sorted) p v ↔ v = value [] 3 := by
  have hconn : ∀ path b', XAt exX path b' → (b'.low 0).locals.connections = [] := by
    intro path b' h
    rcases exX_at h with ⟨_, rfl⟩ | ⟨_, rfl⟩ <;> decide +kernel
  have hsub : XAt exX ["s".toList] exXSub := .down (p := some []) (by simp [exX, XBody.subs]) (.here _)
  obtain ⟨objs, root, hr, h⟩ := C110_optimiser_sees_the_program exX exX_valid exX_plain fun path y p _ ht => by
    obtain ⟨path, c, a, d, h1, h2, _⟩ := target_iff.1 ht
    obtain ⟨b', h3, rfl⟩ := bat_low h1
    rw [hconn _ _ h3] at h2; cases h2
  obtain ⟨⟨objs', root'⟩, hr', h'⟩ := ok_of_check (x := xrunProgram exX) (P := fun q => decide (q.1.length = 10) && okCheck (compile (xobjects q.1) 50 id q.2) fun rep => decide (rep.designVars.keys = ["a".toList, "s.b".toList]))
    (by decide +kernel)
  rw [hr] at hr'
  cases hr'
  rw [Bool.and_eq_true] at h'
  have hl : objs.length = 10 := of_decide_eq_true h'.1
  obtain ⟨rep', hc', hk⟩ := ok_of_check h'.2
  obtain ⟨rep, hc, _, _, h3, f, h4⟩ := h id (fun _ _ => Iff.rfl) 50 fun path b' h => by
    rw [hl]
    rcases exX_at h with ⟨_, rfl⟩ | ⟨_, rfl⟩ <;> decide +kernel
  obtain rfl : rep = rep' := by rw [hc] at hc'; injection hc'
  obtain ⟨σ0, h5⟩ := h3 x
  obtain ⟨value, v1, v2, _, _, _, _, v6⟩ := h4 P den x σ0 h5
  have ha : DesignInput exX [] 0 "a".toList := ⟨exX, 4, "a".toList, 5, [1], fun _ => 1, .here _, by simp [exX, XBody.stmts, XStmt.count, Stmt.count, XStmt.results]; decide +kernel,
    by unfold Body.Has; rw [exX_stmts]; exact List.mem_cons_self .., .here (v := ⟨"a".toList, [1]⟩) (by decide +kernel)⟩
  have hb : DesignInput exX ["s".toList] 0 "s.b".toList := ⟨exXSub, 2, "b".toList, 4, [1], fun _ => 1, hsub, by simp [exXSub, XBody.stmts, XStmt.count, Stmt.count, XStmt.results]; decide +kernel,
    by unfold Body.Has; rw [exXSub_stmts]; exact List.mem_cons_self ..,
    PromotedAs.stay (l := (exX.low 0).locals) (subs := (exX.low 0).toSubs) (s := ⟨"s".toList, some [], (exXSub.low 0).toModel⟩)
      (by rw [show (exX.low 0).toSubs.toList = [⟨"s".toList, some [], (exXSub.low 0).toModel⟩] from rfl]; exact List.mem_cons_self ..) (.here (v := ⟨"b".toList, [1]⟩) (by decide +kernel)) (by simp [IsPromoted])⟩
  obtain ⟨p, c1, c2⟩ := v6 [] exX 4 "t".toList 6 3 (.here _) (by simp [exX, XBody.stmts, XStmt.count, Stmt.count, XStmt.results]; decide +kernel) (Or.inr (by decide +kernel)) (.output (name := "t".toList) (by decide +kernel))
  exact ⟨objs, root, rep, hr, hc, of_decide_eq_true hk, f, σ0, value, h5, v1, v2 _ _ _ ha, v2 _ _ _ hb, p, c1, c2⟩

/-! ### Design variables that are targets of connections -/

/-- `x = create_input('x'); y = create_input('y'); t = 2 * y; register_output('t', t); connect('x', 'y'); add_design_variable('x'); add_design_variable('y')` -/
def exDV : XBody ℚ Unit Nat Unit :=
  .stmt (.plain (.input "x".toList [1] (fun _ => 1))) (.stmt (.plain (.input "y".toList [1] (fun _ => 1))) (.stmt (.plain (.expr (.mulc 1 (.num 2)))) (.stmt (.plain (.register "t".toList 2))
    (.stmt (.plain (.connect "x".toList "y".toList)) (.stmt (.designVar "x".toList 0) (.stmt (.designVar "y".toList 1) .done))))))

/-- **C110, refutation without the condition on connections.** csdl accepts two design variables of which one is connected to the other; both names lead to the same node, so they cannot be set independently: no values of the nodes are right for different values of the two. -/
theorem C110_connected_design_variables : ∃ objs root rep, xrunProgram exDV = .ok (objs, root) ∧ compile (xobjects objs) 50 id root = .ok rep ∧ rep.designVars = [("x".toList, 0), ("y".toList, 1)] ∧
    NodeByName rep.maps rep.done "x".toList 0 ∧ NodeByName rep.maps rep.done "y".toList 0 ∧ ∀ x : Name → Val ℚ, x "x".toList ≠ x "y".toList → ¬ ∃ σ0, SetBy rep x (initial objs) σ0 := by
  obtain ⟨⟨objs, root⟩, hr, h⟩ := ok_of_check (x := xrunProgram exDV) (P := fun q => okCheck (compile (xobjects q.1) 50 id q.2) fun rep =>
    decide (rep.designVars = [("x".toList, 0), ("y".toList, 1)] ∧ rep.maps.p2n.get? "x".toList = some 0 ∧ rep.maps.p2n.get? "y".toList = some 1 ∧ rep.done.get? 1 = some 0 ∧ rep.done.get? 0 = none)) (by decide +kernel)
  obtain ⟨rep, hc, h⟩ := ok_of_check h
  obtain ⟨h1, h2, h3, h4, h5⟩ := of_decide_eq_true h
  have n1 : NodeByName rep.maps rep.done "x".toList 0 := ⟨0, by unfold findNode; rw [h2], .stop h5⟩
  have n2 : NodeByName rep.maps rep.done "y".toList 0 := ⟨1, by unfold findNode; rw [h3], .step h4 (.stop h5)⟩
  refine ⟨objs, root, rep, hr, hc, h1, n1, n2, ?_⟩
  rintro x hne ⟨σ0, h⟩
  exact hne ((h.set "x".toList (by rw [h1]; simp [Dict.keys]) 0 n1).symm.trans (h.set "y".toList (by rw [h1]; simp [Dict.keys]) 0 n2))

end Csdl.Prog
