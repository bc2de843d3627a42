import Verif.Proofs.Defaults
import Verif.Props.Program
import Verif.Props.OneModel
/-
C86: default values.
-/
namespace Csdl.Prog
open Csdl Csdl.Arith
variable {K F : Type} [Field K] [DecidableEq K]
variable {objs : List (PObj K F)} {b : Body K F} {root : OModel} {Ls : List (List Name × Slot K F)}

theorem LiveAt_same {b : Body K F} {q r : List Name × Nat} (h : Relation.EqvGen (Same b) q r) : (∃ b', BAt b q.1 b' ∧ b'.Live q.2) ↔ ∃ b', BAt b r.1 b' ∧ b'.Live r.2 := by
  induction h with
  | rel q r h =>
    cases h with
    | name p h1 h2 =>
      obtain ⟨b1, _, _, _, a1, a2, _⟩ := h1
      obtain ⟨b2, _, _, _, c1, c2, _⟩ := h2
      exact ⟨fun _ => ⟨b2, c1, c2⟩, fun _ => ⟨b1, a1, a2⟩⟩
    | connection path b' s t p q hb hst hp hq h1 h2 =>
      obtain ⟨b1, _, _, _, a1, a2, _⟩ := h1
      obtain ⟨b2, _, _, _, c1, c2, _⟩ := h2
      exact ⟨fun _ => ⟨b2, c1, c2⟩, fun _ => ⟨b1, a1, a2⟩⟩
    | «alias» b' hb h1 h2 _ => exact ⟨fun _ => ⟨b', hb, h2⟩, fun _ => ⟨b', hb, h1⟩⟩
  | refl => exact Iff.rfl
  | symm _ _ _ ih => exact ih.symm
  | trans _ _ _ _ _ ih1 ih2 => exact ih1.trans ih2

theorem Hier.bat_unique (h : Hier objs b root Ls) {path : List Name} {b1 b2 : Body K F} (h1 : BAt b path b1) (h2 : BAt b path b2) : b1 = b2 := by
  obtain ⟨s1, m1, rfl⟩ := h.ofBody path b1 h1
  obtain ⟨s2, m2, rfl⟩ := h.ofBody path b2 h2
  have := List.inj_on_of_nodup_map h.paths m1 m2 rfl
  rw [Prod.mk.injEq] at this
  rw [this.2]

theorem initial_of {o : Nat} {p : PObj K F} (h : objs[o]? = some p) : initial objs o = p.val.getD fun _ => 1 := by simp [initial, h]

/-- an input: its object -/
theorem Setup.input_obj (u : Setup objs b root Ls) {path : List Name} {b' : Body K F} (hb : BAt b path b') {y : Nat} {name : Name} {sh : Shape} {v : Val K} (hy : b'.Has y (.input name sh v)) :
    b'.Live y ∧ (objects objs (objOf Ls path y)).role = .input ∧ initial objs (objOf Ls path y) = v ∧ ∃ p, NamedVar (objects objs) root (objOf Ls path y) p ∧ HasName b path y p := by
  obtain ⟨s, hs, rfl⟩ := u.hier.ofBody path b' hb
  obtain ⟨m, hm, c⟩ := u.hier.model hs
  obtain ⟨o, p, h1, h2, h3, _⟩ := c.given hy (Or.inl ⟨_, _, _, rfl, rfl⟩)
  obtain ⟨o', h4, h5, hnm⟩ := c.input_mem hy
  rw [h1] at h5; cases h5
  have e := u.hier.objOf' hs h1
  have hv : o ∈ m.vars := by simp [OModel.vars, h4]
  obtain ⟨k, q, h6, _⟩ := promoted_var u.ok hm hv
  refine ⟨.input (mem_inputOf.2 ⟨v, hy⟩), by rw [e]; exact (u.ok.models path m hm).inputRole o h4, by rw [e, initial_of h2, h3]; rfl, q, ?_, ?_⟩
  · rw [e]
    exact ⟨path, m, k, _, hm, hv, Or.inl h4, h6, rfl⟩
  · exact ⟨s.body, name, k, _, hb, .input (mem_inputOf.2 ⟨v, hy⟩), Or.inl ⟨sh, Or.inl (mem_inputOf.2 ⟨v, hy⟩)⟩, by rw [← u.hier.names]; exact h6, hnm⟩

/-- a declared variable: its object -/
theorem Setup.declare_obj (u : Setup objs b root Ls) {path : List Name} {b' : Body K F} (hb : BAt b path b') {y : Nat} {name : Name} {sh : Shape} {v : Option (Val K)} (hy : b'.Has y (.declare name sh v)) :
    (objects objs (objOf Ls path y)).role = .declared ∧ (objects objs (objOf Ls path y)).explicit = v.isSome ∧ initial objs (objOf Ls path y) = v.getD fun _ => 1 := by
  obtain ⟨s, hs, rfl⟩ := u.hier.ofBody path b' hb
  obtain ⟨m, hm, c⟩ := u.hier.model hs
  obtain ⟨o, p, h1, h2, h3, h7⟩ := c.given hy (Or.inr ⟨_, _, rfl⟩)
  obtain ⟨o', h4, h5, _⟩ := c.declare_mem hy
  rw [h1] at h5; cases h5
  have e := u.hier.objOf' hs h1
  have hr := ((u.ok.models path m hm).declaredRole o h4).2
  refine ⟨by rw [e]; exact hr, ?_, by rw [e, initial_of h2, h3]⟩
  rw [e, objects_eq h2]
  rw [objects_eq h2] at hr
  exact h7 hr

omit [Field K] [DecidableEq K] in
theorem GivenAt.default {path : List Name} {x : Nat} {path' : List Name} {y : Nat} {v : Option (Val K)} (h : GivenAt b path x path' y v) : DefaultOf b path x v := by
  cases h with
  | input h1 h2 h3 h4 => exact .input h1 h2 h3 h4
  | declare h1 h2 h3 h4 h5 h6 => exact .declare h1 h2 h3 h4 h5 h6

/-- the values of variables that are not computed -/
theorem Setup.given_at (u : Setup objs b root Ls) {f : Nat → Nat} {maps : NodeMaps} {done : Dict Nat Nat} (hk : Kept (objects objs) root maps done f)
    (f2 : ∀ path m path' m', OAt (objects objs) root path m → OAt (objects objs) root path' m' → ∀ x y, (objects objs x).kind = .var → m.Uses (objects objs) x → (objects objs y).kind = .var → m'.Uses (objects objs) y →
        (f x = f y ↔ Relation.EqvGen (Joined (objects objs) root) x y)) {path : List Name} {x : Nat} (hx : GivenVar b path x) :
    ∃ path' y v, GivenAt b path x path' y v ∧ f (objOf Ls path x) = objOf Ls path' y ∧ initial objs (f (objOf Ls path x)) = v.getD fun _ => 1 := by
  obtain ⟨⟨b', hb, hl⟩, hnc⟩ := hx
  obtain ⟨r1, m, g1, g2, g3⟩ := u.rep hb hl
  -- variables of the class of `x` are represented by the same object
  have hsame : ∀ path2 b2 z, BAt b path2 b2 → SameVar b path x path2 z → b2.Live z ∧ f (objOf Ls path2 z) = f (objOf Ls path x) := by
    intro path2 b2 z hb2 hs
    obtain ⟨b3, hb3, hl3⟩ := (LiveAt_same hs).1 ⟨b', hb, hl⟩
    obtain rfl := u.hier.bat_unique hb2 hb3
    obtain ⟨_, m3, k1, k2, k3⟩ := u.rep hb2 hl3
    exact ⟨hl3, ((f2 path m path2 m3 g1 k1 _ _ g3 g2 k3 k2).2 (u.same_joined hs)).symm⟩
  obtain ⟨path', m', hm', hvar, huse, hj⟩ := hk.used path m g1 _ g3 g2
  -- where the object comes from
  have horig : ∀ path' m', OAt (objects objs) root path' m' → m'.Uses (objects objs) (f (objOf Ls path x)) → ∃ s n t, (path', s) ∈ Ls ∧ s.body.Has n t ∧ s.st.env[n]? = some (f (objOf Ls path x)) ∧
      SameVar b path x path' n ∧ ((∃ name sh v, t = .input name sh v) ∨ ∃ name sh v, t = .declare name sh v) := by
    intro path' m' hm' huse
    rcases u.uses_cases hm' hvar huse with ⟨y, hy⟩ | ⟨s2, i, d, hs2, c2, e, hh2, _, hcp⟩
    · obtain ⟨s, n, t, z, h1, h2, h3, h4, h5, h6, h7⟩ := u.origin hy
      have hsz : SameVar b path x path' z := .trans _ _ _ (.symm _ _ (u.pick_same r1)) (.trans _ _ _ (u.joined_same' hj) (u.pick_same ⟨s, h1, h5, h6⟩))
      rcases h7 with h7 | ⟨rfl, h7⟩
      · exact absurd hsz (hnc path' s.body n t z (u.hier.toBody _ h1) h2 h7 h3 h4 h6)
      · exact ⟨s, z, t, h1, h2, h5, hsz, h7⟩
    · exfalso
      have hnn : ∀ p, ¬ NamedVar (objects objs) root (i + 1) p := by
        intro p hp
        obtain ⟨path3, z, hz, _⟩ := u.hasName_of_named hp
        exact u.copy_hidden c2 hs2 hh2 hcp (path3, z) hz
      rw [e] at hj
      have e' := joined_alone hnn (.symm _ _ hj)
      rw [← e'] at r1
      exact u.copy_hidden c2 hs2 hh2 hcp (path, x) r1
  by_cases hr : (objects objs (f (objOf Ls path x))).role = .declared
  · obtain ⟨path', m', hm', huse, hlast, hall⟩ := hk.closest path m g1 _ g3 g2 hr
    obtain ⟨s, n, t, h1, h2, h3, h4, ⟨name, sh, v, rfl⟩ | ⟨name, sh, v, rfl⟩⟩ := horig path' m' hm' huse
    · have := (u.input_obj (u.hier.toBody _ h1) h2).2.1
      rw [u.hier.objOf' h1 h3, hr] at this
      cases this
    · have hbt := u.hier.toBody _ h1
      obtain ⟨d1, d2, d3⟩ := u.declare_obj hbt h2
      rw [u.hier.objOf' h1 h3] at d1 d2 d3
      obtain ⟨s', hs', c⟩ := u.hier.ctx hm'
      have es := List.inj_on_of_nodup_map u.hier.paths h1 hs' rfl
      rw [Prod.mk.injEq] at es
      obtain ⟨_, rfl⟩ := es
      have hmem : f (objOf Ls path x) ∈ m'.declared := by
        obtain ⟨o, o1, o2, _⟩ := c.declare_mem h2
        rw [h3] at o2; cases o2
        exact o1
      refine ⟨path', n, v, .declare hbt h2 h4 ((c.lastOf_iff h2 h3).1 (hlast hmem)) ?_ ?_, (u.hier.objOf' h1 h3).symm, d3⟩
      · intro path2 b2 z nm s2 w hb2 hz hs2
        obtain ⟨hl2, e2⟩ := hsame path2 b2 z hb2 hs2
        obtain ⟨_, m2, k1, k2, k3⟩ := u.rep hb2 hl2
        have := (hall path2 m2 _ k1 k3 k2 e2).1
        rw [(u.input_obj hb2 hz).2.1] at this
        cases this
      · intro path2 b2 z nm s2 w hb2 hz hs2
        obtain ⟨hl2, e2⟩ := hsame path2 b2 z hb2 hs2
        obtain ⟨⟨sl, hsl, hz', _⟩, m2, k1, k2, k3⟩ := u.rep hb2 hl2
        obtain ⟨_, a2, a3, a4⟩ := hall path2 m2 _ k1 k3 k2 e2
        refine ⟨a2, fun hd hla hw => ?_, fun he => by rw [← d2]; exact a4 he⟩
        obtain ⟨e1, e2', e3⟩ := u.declare_obj hb2 hz
        rw [← d2]
        obtain ⟨s3, hs3, c3⟩ := u.hier.ctx k1
        have es := List.inj_on_of_nodup_map u.hier.paths hsl hs3 rfl
        rw [Prod.mk.injEq] at es
        obtain ⟨_, rfl⟩ := es
        obtain rfl := u.hier.bat_unique hb2 c3.at_
        exact a3 hd ((c3.lastOf_iff hz hz').2 hla) (by rw [e2']; exact hw)
  · obtain ⟨s, n, t, h1, h2, h3, h4, ⟨name, sh, v, rfl⟩ | ⟨name, sh, v, rfl⟩⟩ := horig path' m' hm' huse
    · have hbt := u.hier.toBody _ h1
      have e := u.hier.objOf' h1 h3
      refine ⟨path', n, some v, .input hbt h2 h4 ?_, e.symm, ?_⟩
      · intro p hp htp
        have := (u.rep_of_hasName hp).2
        rw [e] at this
        exact hk.noTarget path m g1 _ g3 g2 p this (by rw [u.hier.names]; exact htp)
      · rw [← e]
        exact (u.input_obj hbt h2).2.2.1
    · exfalso
      have := (u.declare_obj (u.hier.toBody _ h1) h2).1
      rw [u.hier.objOf' h1 h3] at this
      exact hr this

theorem Setup.defaults (u : Setup objs b root Ls) {f : Nat → Nat} {maps : NodeMaps} {done : Dict Nat Nat} (hk : Kept (objects objs) root maps done f)
    (f2 : ∀ path m path' m', OAt (objects objs) root path m → OAt (objects objs) root path' m' → ∀ x y, (objects objs x).kind = .var → m.Uses (objects objs) x → (objects objs y).kind = .var → m'.Uses (objects objs) y →
        (f x = f y ↔ Relation.EqvGen (Joined (objects objs) root) x y)) {path : List Name} {x : Nat} (hx : GivenVar b path x) :
    ∃ v, DefaultOf b path x v ∧ initial objs (f (objOf Ls path x)) = v.getD fun _ => 1 := by
  obtain ⟨_, _, v, h1, _, h2⟩ := u.given_at hk f2 hx
  exact ⟨v, h1.default, h2⟩

/-- an input that is not the target of a connection gives its value to all variables that are the same -/
theorem Setup.input_wins (u : Setup objs b root Ls) {f : Nat → Nat} {maps : NodeMaps} {done : Dict Nat Nat} (hk : Kept (objects objs) root maps done f)
    (f2 : ∀ path m path' m', OAt (objects objs) root path m → OAt (objects objs) root path' m' → ∀ x y, (objects objs x).kind = .var → m.Uses (objects objs) x → (objects objs y).kind = .var → m'.Uses (objects objs) y →
        (f x = f y ↔ Relation.EqvGen (Joined (objects objs) root) x y)) {path path' : List Name} {x y : Nat} {b' : Body K F} {name : Name} {sh : Shape} {v : Val K} (hb : BAt b path' b') (hy : b'.Has y (.input name sh v))
    (hs : SameVar b path x path' y) (hno : ∀ p, HasName b path' y p → ¬ TargetName b.toModel p) : initial objs (f (objOf Ls path x)) = v := by
  obtain ⟨h1, h2, h3, p, h4, h5⟩ := u.input_obj hb hy
  obtain ⟨b0, hb0, hl0⟩ := (LiveAt_same hs).2 ⟨b', hb, h1⟩
  obtain ⟨_, m, g1, g2, g3⟩ := u.rep hb0 hl0
  obtain ⟨_, m', k1, k2, k3⟩ := u.rep hb h1
  rw [(f2 path m path' m' g1 k1 _ _ g3 g2 k3 k2).2 (u.same_joined hs)]
  rw [hk.sources _ p h4 (by rw [h2]; decide) (by rw [u.hier.names]; exact hno p h5)]
  exact h3

/-- C86 in a session with other objects: `pre` exist when the program runs, `done` when it has run, `objs` when the representation is built. -/
theorem defaults_in_session (pre : List (PObj K F)) (b : Body K F) (hg : GoodNames b) (hno : NoChain b.toModel) (done : List (PObj K F)) (root : OModel) (hr : runFrom pre b = .ok (done, root))
    (objs : List (PObj K F)) (hpre : done <+: objs) (hcl : Closed objs) (hn : objs.length ≤ 63 ^ 4) (fuel : Nat) (hf : ∀ path b', BAt b path b' → (b'.locals.outputs ++ b'.locals.declared).length + objs.length ≤ fuel)
    (order : List Nat → List Nat) (ho : ∀ l x, x ∈ order l ↔ x ∈ l) (rep : Csdl.Rep) (hc : compile (objects objs) fuel order root = .ok rep) :
    ∃ (f : Nat → Nat) (node : List Name → Nat → Nat),
      (∀ path b', BAt b path b' → ∀ x, b'.Live x → node path x ∈ rep.graph.nodes ∧ (objects objs (node path x)).kind = .var) ∧
      ∀ (P : Power K) (den : F → List (Val K) → Nat → Val K),
        let value := fun path x => execAll rep.graph ⟨fun i => decide ((objects objs i).kind = .op), fun i => (objects objs i).deps.map f, opMeaning P den objs⟩ (initial objs) rep.sorted (node path x)
        Solution P den b value ∧ (∀ path x, GivenVar b path x → ∃ v, DefaultOf b path x v ∧ value path x = v.getD fun _ => 1) ∧
        (∀ path x, GivenVar b path x → ∀ path' b' y name shape v, BAt b path' b' → b'.Has y (.input name shape v) → SameVar b path x path' y → (∀ p, HasName b path' y p → ¬ TargetName b.toModel p) → value path x = v) ∧
        ∀ ρ, Solution P den b ρ → (∀ path x, GivenVar b path x → ρ path x = value path x) → ∀ path b', BAt b path b' → ∀ x, b'.Live x → ρ path x = value path x := by
  obtain ⟨Ls, f, node, u, hk, rfl, f1, f2, h1, h2, h3⟩ := means_kept pre b hg hno done root hr objs hpre hcl hn fuel hf order ho rep hc
  refine ⟨f, _, h1, fun P den => ?_⟩
  obtain ⟨a1, a2, a3⟩ := h3 P den (initial objs)
  refine ⟨a1, fun path x hx => ?_, fun path x hx path' b' y name shape v hb hy hs hno => ?_, fun ρ hρ hg => a3 ρ hρ fun path x hx => (hg path x hx).trans (a2 path x hx)⟩
  · obtain ⟨v, d1, d2⟩ := u.defaults hk f2 hx
    exact ⟨v, d1, (a2 path x hx).trans d2⟩
  · exact (a2 path x hx).trans (u.input_wins hk f2 hb hy hs hno)

/-- **C86.** Let a program run without error, create no more objects than there are short automatic names, and let its representation be built without error, with no connection starting at the target of an earlier one.
Executing the representation from the values of its variables gives a solution of the program in which every variable that nothing computes has the value given for it: that of an input that is the same variable (by
promoted names, connections, unary plus) and is not the target of a connection (there is no other such input with another value); if there is none, that of a declared variable that is the same, the last declaration of its name in its model, of a model of least
depth (the main model and its direct submodels are equally deep), with an explicit value if one of these has one; 1 if no value was given there.  It is the only solution with these values. -/
theorem C86_default_values (b : Body K F) (hg : GoodNames b) (hno : NoChain b.toModel) (objs : List (PObj K F)) (root : OModel) (hr : runProgram b = .ok (objs, root))
    (hn : objs.length ≤ 63 ^ 4) (fuel : Nat) (hf : ∀ path b', BAt b path b' → (b'.locals.outputs ++ b'.locals.declared).length + objs.length ≤ fuel)
    (order : List Nat → List Nat) (ho : ∀ l x, x ∈ order l ↔ x ∈ l) (rep : Csdl.Rep) (hc : compile (objects objs) fuel order root = .ok rep) :
    ∃ (f : Nat → Nat) (node : List Name → Nat → Nat),
      (∀ path b', BAt b path b' → ∀ x, b'.Live x → node path x ∈ rep.graph.nodes ∧ (objects objs (node path x)).kind = .var) ∧
      ∀ (P : Power K) (den : F → List (Val K) → Nat → Val K),
        let value := fun path x => execAll rep.graph ⟨fun i => decide ((objects objs i).kind = .op), fun i => (objects objs i).deps.map f, opMeaning P den objs⟩ (initial objs) rep.sorted (node path x)
        Solution P den b value ∧ (∀ path x, GivenVar b path x → ∃ v, DefaultOf b path x v ∧ value path x = v.getD fun _ => 1) ∧
        (∀ path x, GivenVar b path x → ∀ path' b' y name shape v, BAt b path' b' → b'.Has y (.input name shape v) → SameVar b path x path' y → (∀ p, HasName b path' y p → ¬ TargetName b.toModel p) → value path x = v) ∧
        ∀ ρ, Solution P den b ρ → (∀ path x, GivenVar b path x → ρ path x = value path x) → ∀ path b', BAt b path b' → ∀ x, b'.Live x → ρ path x = value path x :=
  defaults_in_session [] b hg hno objs root hr objs List.prefix_rfl (runFrom_closed (by simp [Closed]) hr) hn fuel hf order ho rep hc

/-- **C86, in a session, with custom operations, implicit operations and optimisation declarations** (`pre` are the objects that exist when the program runs, `done` those that exist when it has run, `objs` those that exist when the representation is built; the program is
written with calls and registrations, as in C82): executing the representation from the values of its variables gives a solution in which every variable that nothing computes has the value given for it, as in `C86_default_values`. -/
theorem C86_default_values_in_session {F G I : Type} (b : XBody K F G I) (hg : GoodNames (b.low 0)) (hno : NoChain (b.low 0).toModel) (pre done : List (PObj K (Fun F G I))) (root : OModel)
    (hr : xrunFrom pre b = .ok (done, root)) (objs : List (PObj K (Fun F G I))) (hpre : done <+: objs) (hcl : Closed objs) (hn : objs.length ≤ 63 ^ 4) (fuel : Nat) (hf : ∀ path b', XAt b path b' → (b'.locals.outputs ++ b'.locals.declared).length + objs.length ≤ fuel)
    (order : List Nat → List Nat) (ho : ∀ l x, x ∈ order l ↔ x ∈ l) (rep : Csdl.Rep) (hc : compile (xobjects objs) fuel order root = .ok rep) :
    ∃ (f : Nat → Nat) (node : List Name → Nat → Nat),
      (∀ path b', XAt b path b' → ∀ x, (b'.low 0).Live x → node path x ∈ rep.graph.nodes ∧ (xobjects objs (node path x)).kind = .var) ∧
      ∀ (P : Power K) (den : Fun F G I → List (Val K) → Nat → Val K),
        let value := fun path x => execAll rep.graph ⟨fun i => decide ((xobjects objs i).kind = .op), fun i => (xobjects objs i).deps.map f, opMeaning P den objs⟩ (initial objs) rep.sorted (node path x)
        Prog.Solution P den (b.low 0) value ∧ (∀ path x, GivenVar (b.low 0) path x → ∃ v, DefaultOf (b.low 0) path x v ∧ value path x = v.getD fun _ => 1) ∧
        (∀ path x, GivenVar (b.low 0) path x → ∀ path' b' y name shape v, XAt b path' b' → (b'.low 0).Has y (.input name shape v) → SameVar (b.low 0) path x path' y → (∀ p, HasName (b.low 0) path' y p → ¬ TargetName (b.low 0).toModel p) →
          value path x = v) ∧
        ∀ ρ, Prog.Solution P den (b.low 0) ρ → (∀ path x, GivenVar (b.low 0) path x → ρ path x = value path x) → ∀ path b', XAt b path b' → ∀ x, (b'.low 0).Live x → ρ path x = value path x := by
  have hf' : ∀ path c, BAt (b.low 0) path c → (c.locals.outputs ++ c.locals.declared).length + objs.length ≤ fuel := by
    intro path c hc
    obtain ⟨b', h1, rfl⟩ := bat_low hc
    exact hf path b' h1
  obtain ⟨rep0, dv, ob, cn, hc0, _, _, _, rfl⟩ := (xcompile hg hr hpre hcl hn hf' ho rep).1 hc
  obtain ⟨f, node, h1, h3⟩ := defaults_in_session pre (b.low 0) hg hno done _ (xrunFrom_low hr).1 objs hpre hcl hn fuel hf' order ho rep0 hc0
  refine ⟨f, node, fun path b' hb => h1 path _ (xat_low hb), fun P den => ?_⟩
  obtain ⟨a1, a2, a4, a3⟩ := h3 P den
  exact ⟨a1, a2, fun path x hx path' b' y name shape v hb => a4 path x hx path' _ y name shape v (xat_low hb), fun ρ hρ hg path b' hb => a3 ρ hρ hg path _ (xat_low hb)⟩

/-- in one model without connections, the same variable has one kind of object, and declared variables one name -/
theorem Setup.one_model_same (u : Setup objs b root Ls) (hs : b.subs = []) (hcn : b.locals.connections = []) {q r : List Name × Nat} (h : Relation.EqvGen (Same b) q r) :
    (objects objs (objOf Ls q.1 q.2)).role = (objects objs (objOf Ls r.1 r.2)).role ∧
      ((objects objs (objOf Ls q.1 q.2)).role = .declared → (objects objs (objOf Ls q.1 q.2)).name = (objects objs (objOf Ls r.1 r.2)).name) := by
  induction h with
  | rel q r h =>
    cases h with
    | @name path path' x y p h1 h2 =>
      obtain ⟨b1, n1, k1, w1, a1, a2, a3, a4, a5⟩ := h1
      obtain ⟨b2, n2, k2, w2, c1, c2, c3, c4, c5⟩ := h2
      obtain ⟨rfl, rfl⟩ := oneModel_at hs a1
      obtain ⟨rfl, rfl⟩ := oneModel_at hs c1
      have e : b2.toModel = .mk b2.locals .nil := by rw [Body.toModel, toSubs_nil hs]
      rw [e] at a4 c4
      have en : n1 = n2 := by rw [← a5, ← c5, (oneModel_promoted a4).2.2, (oneModel_promoted c4).2.2]
      subst en
      rcases named_unique u.good a3 c3 with rfl | ⟨⟨s1, d1⟩, s2, d2⟩
      · exact ⟨rfl, fun _ => rfl⟩
      · obtain ⟨v1, d1⟩ := mem_declaredOf.1 d1
        obtain ⟨v2, d2⟩ := mem_declaredOf.1 d2
        refine ⟨by rw [(u.declare_obj (.here _) d1).1, (u.declare_obj (.here _) d2).1], fun _ => ?_⟩
        obtain ⟨sl, hsl, rfl⟩ := u.hier.ofBody [] _ (.here _)
        obtain ⟨m, hm, c⟩ := u.hier.model hsl
        obtain ⟨o1, _, e1, e2⟩ := c.declare_mem d1
        obtain ⟨o2, _, e3, e4⟩ := c.declare_mem d2
        rw [u.hier.objOf' hsl e1, u.hier.objOf' hsl e3, e2, e4]
    | connection path b' s t p q hb hst hp hq h1 h2 =>
      obtain ⟨_, rfl⟩ := oneModel_at hs hb
      rw [hcn] at hst
      cases hst
    | @«alias» path x y b' hb hl hl' hx =>
      obtain ⟨sl, hsl, rfl⟩ := u.hier.ofBody path b' hb
      obtain ⟨m, hm, c⟩ := u.hier.model hsl
      obtain ⟨⟨s1, hs1, e1, _⟩, _⟩ := u.rep hb hl
      have es := List.inj_on_of_nodup_map u.hier.paths hsl hs1 rfl
      rw [Prod.mk.injEq] at es
      obtain ⟨_, rfl⟩ := es
      have e2 := (c.alias_iff (lt_of_some e1)).1 hx
      have e3 := u.hier.objOf' hsl (e2.symm.trans e1)
      have e : objOf Ls path x = objOf Ls path y := e3.symm
      simp only [e, implies_true, and_self]
  | refl => exact ⟨rfl, fun _ => rfl⟩
  | symm _ _ _ ih => exact ⟨ih.1.symm, fun h => (ih.2 (ih.1.trans h)).symm⟩
  | trans _ _ _ _ _ ih1 ih2 => exact ⟨ih1.1.trans ih2.1, fun h => (ih1.2 h).trans (ih2.2 (ih1.1.symm.trans h))⟩

/-- inputs and declared variables of one model are not computed -/
theorem Setup.one_model_given (u : Setup objs b root Ls) (hs : b.subs = []) (hcn : b.locals.connections = []) {x : Nat} (hl : b.Live x) (hr : (objects objs (objOf Ls [] x)).role ≠ .output) : GivenVar b [] x := by
  refine ⟨⟨b, .here _, hl⟩, fun path' b' n t y hb ht hcm h1 h2 hly hsv => hr ?_⟩
  obtain ⟨m, i, hm, hi, hk, hv⟩ := u.computed_op hb ht hcm h1 h2 hly
  rw [(u.one_model_same hs hcn hsv).1]
  exact (((u.ok.models path' m hm).opDeps i hi hk).2 _ hv).2

/-- **C86, one model.** In a program of one model without connections, an input has the value given to `create_input`, and a declared variable the value given to the last declaration of its name, 1 if none is given there. -/
theorem C86_one_model (b : Body K F) (hs : b.subs = []) (hcn : b.locals.connections = []) (hg : GoodNames b) (objs : List (PObj K F)) (root : OModel) (hr : runProgram b = .ok (objs, root))
    (hn : objs.length ≤ 63 ^ 4) (fuel : Nat) (hf : (b.locals.outputs ++ b.locals.declared).length + objs.length ≤ fuel)
    (order : List Nat → List Nat) (ho : ∀ l x, x ∈ order l ↔ x ∈ l) (rep : Csdl.Rep) (hc : compile (objects objs) fuel order root = .ok rep) :
    ∃ (f : Nat → Nat) (node : Nat → Nat), ∀ (P : Power K) (den : F → List (Val K) → Nat → Val K),
      let value := fun x => execAll rep.graph ⟨fun i => decide ((objects objs i).kind = .op), fun i => (objects objs i).deps.map f, opMeaning P den objs⟩ (initial objs) rep.sorted (node x)
      Solution P den b (fun _ => value) ∧ (∀ x name shape v, b.Has x (.input name shape v) → value x = v) ∧
      ∀ x name shape w y shape' v, b.Has x (.declare name shape w) → b.Live x → b.Has y (.declare name shape' v) → b.LastDeclared name y → value x = v.getD fun _ => 1 := by
  have hnt : ∀ p, ¬ TargetName b.toModel p := by
    rintro p ⟨path, l, subs, a, c, h1, h2, _⟩
    have e : b.toModel = .mk b.locals .nil := by rw [Body.toModel, toSubs_nil hs]
    rw [e] at h1
    cases h1 with
    | here => rw [hcn] at h2; cases h2
    | down h _ => cases h
  have hno : NoChain b.toModel := by
    have e : issuedPost Local.connections b.toModel = [] := by
      rw [Body.toModel, toSubs_nil hs]
      simp [issuedPost, issuedPostSubs, hcn]
    constructor
    · rw [e]; intro i hi; cases hi
    · rw [e]; exact List.Pairwise.nil
  have hf' : ∀ path b', BAt b path b' → (b'.locals.outputs ++ b'.locals.declared).length + objs.length ≤ fuel := by
    intro path b' hb
    obtain ⟨_, rfl⟩ := oneModel_at hs hb
    exact hf
  obtain ⟨Ls, f, node, u, hk, rfl, f1, f2, h1, h2, h3⟩ := means_kept [] b hg hno objs root hr objs List.prefix_rfl (runFrom_closed (by simp [Closed]) hr) hn fuel hf' order ho rep hc
  refine ⟨f, fun x => f (objOf Ls [] x), fun P den => ?_⟩
  obtain ⟨a1, a2, a3⟩ := h3 P den (initial objs)
  refine ⟨oneModel_solution hs rfl a1, fun x name shape v hx => ?_, fun x name shape w y shape' v hx hl hy hlast => ?_⟩
  · obtain ⟨i1, i2, i3, _⟩ := u.input_obj (.here _) hx
    refine (a2 [] x (u.one_model_given hs hcn i1 (by rw [i2]; decide))).trans ?_
    exact u.input_wins hk f2 (.here _) hx (.refl _) fun p _ => hnt p
  · obtain ⟨d1, _⟩ := u.declare_obj (.here _) hx
    have hgv := u.one_model_given hs hcn hl (by rw [d1]; decide)
    refine (a2 [] x hgv).trans ?_
    obtain ⟨v', dv, e⟩ := u.defaults hk f2 hgv
    refine e.trans ?_
    cases dv with
    | input hb hz hsv _ =>
      have := (u.one_model_same hs hcn hsv).1
      rw [d1, (u.input_obj hb hz).2.1] at this
      cases this
    | @declare path' b' y' name' sh' v' hb hz hsv hla _ _ =>
      obtain ⟨rfl, rfl⟩ := oneModel_at hs hb
      have hnm := (u.one_model_same hs hcn hsv).2 d1
      obtain ⟨sl, hsl, rfl⟩ := u.hier.ofBody [] _ (.here _)
      obtain ⟨m, hm, c⟩ := u.hier.model hsl
      obtain ⟨o1, _, e1, e2⟩ := c.declare_mem hx
      obtain ⟨o2, _, e3, e4⟩ := c.declare_mem hz
      rw [u.hier.objOf' hsl e1, u.hier.objOf' hsl e3, e2, e4] at hnm
      subst hnm
      obtain rfl : y = y' := Nat.le_antisymm (hla y _ _ hy) (hlast y' _ _ hz)
      rw [← (u.declare_obj (.here _) hz).2.2, ← (u.declare_obj (.here _) hy).2.2]

/-! ### Examples -/

/-- `x = create_input('x', val=2); d = declare_variable('d', val=3); e = declare_variable('d'); y = x * d; register_output('y', y)` -/
def exD : Body ℚ Unit :=
  .stmt (.input "x".toList [1] fun _ => 2) (.stmt (.declare "d".toList [1] (some fun _ => 3)) (.stmt (.declare "d".toList [1] none) (.stmt (.expr (.mul 0 1)) (.stmt (.register "y".toList 3) .done))))

theorem exD_good : GoodNames exD := by
  constructor
  all_goals
    intro path b' h
    obtain ⟨_, rfl⟩ := oneModel_at rfl h
    decide

theorem exD_run : ∃ objs root rep, runProgram exD = .ok (objs, root) ∧ objs.length = 5 ∧ compile (objects objs) 20 id root = .ok rep := by
  obtain ⟨⟨objs, root⟩, h1, h⟩ := ok_of_check (x := runProgram exD) (P := fun q => decide (q.1.length = 5) && okCheck (compile (objects q.1) 20 id q.2) fun _ => true) (by decide +kernel)
  rw [Bool.and_eq_true] at h
  obtain ⟨rep, h2, _⟩ := ok_of_check h.2
  exact ⟨objs, root, rep, h1, of_decide_eq_true h.1, h2⟩

/-- **C86, a later declaration wins.** `declare_variable('d', val=3)` followed by `declare_variable('d')`: the value 3 is lost, in the results `d` is 1; `x` is 2 and `y = x * d` is 2. -/
theorem C86_later_declaration_wins : ∃ objs root rep, runProgram exD = .ok (objs, root) ∧ compile (objects objs) 20 id root = .ok rep ∧
    ∃ (f node : Nat → Nat), ∀ (P : Power ℚ) (den : Unit → List (Val ℚ) → Nat → Val ℚ),
      let value := fun x => execAll rep.graph ⟨fun i => decide ((objects objs i).kind = .op), fun i => (objects objs i).deps.map f, opMeaning P den objs⟩ (initial objs) rep.sorted (node x)
      value 0 = (fun _ => 2) ∧ value 1 = (fun _ => 1) ∧ value 3 = fun _ => 2 := by
  obtain ⟨objs, root, rep, hr, hl, hc⟩ := exD_run
  obtain ⟨f, node, h⟩ := C86_one_model exD rfl rfl exD_good objs root hr (by rw [hl]; decide) 20 (by rw [hl]; decide) id (fun _ _ => Iff.rfl) rep hc
  refine ⟨objs, root, rep, hr, hc, f, node, fun P den => ?_⟩
  obtain ⟨sol, h0, h1⟩ := h P den
  have l3 : exD.Live 3 := .output (name := "y".toList) (by decide)
  have l1 : exD.Live 1 := .operand (n := 3) (s := .expr (.mul 0 1)) l3 (by simp [Body.Has, exD, Body.stmts, Stmt.count]) (by decide) (by decide) (by decide)
  have e0 := h0 0 "x".toList [1] (fun _ => 2) (by simp [Body.Has, exD, Body.stmts, Stmt.count])
  have e1 := h1 1 "d".toList [1] (some fun _ => 3) 2 [1] none (by simp [Body.Has, exD, Body.stmts, Stmt.count]) l1 (by simp [Body.Has, exD, Body.stmts, Stmt.count]) (by
    intro y' sh v hy
    simp only [Body.Has, exD, Body.stmts, Stmt.count, List.mem_cons, Prod.mk.injEq, List.not_mem_nil, or_false, reduceCtorEq, and_false, false_or] at hy
    omega)
  refine ⟨e0, e1, ?_⟩
  have e3 := sol.expr [] exD (.here _) 3 (.mul 0 1) (by simp [Body.Has, exD, Body.stmts, Stmt.count]) l3
  refine e3.trans ?_
  simp only at e0 e1
  funext e
  simp [Instr.meaning, List.range_succ, e0, e1]

/-- `x = create_input('x', val=2); z = create_input('z', val=7); connect('x', 'z'); y = z * 2; register_output('y', y)` -/
def exZ : Body ℚ Unit :=
  .stmt (.input "x".toList [1] fun _ => 2) (.stmt (.input "z".toList [1] fun _ => 7) (.stmt (.connect "x".toList "z".toList) (.stmt (.expr (.mulc 1 (.num 2))) (.stmt (.register "y".toList 2) .done))))

theorem exZ_good : GoodNames exZ := by
  constructor
  all_goals
    intro path b' h
    obtain ⟨_, rfl⟩ := oneModel_at rfl h
    decide

theorem exZ_run : ∃ objs root rep, runProgram exZ = .ok (objs, root) ∧ objs.length = 4 ∧ compile (objects objs) 20 id root = .ok rep := by
  obtain ⟨⟨objs, root⟩, h1, h⟩ := ok_of_check (x := runProgram exZ) (P := fun q => decide (q.1.length = 4) && okCheck (compile (objects q.1) 20 id q.2) fun _ => true) (by decide +kernel)
  rw [Bool.and_eq_true] at h
  obtain ⟨rep, h2, _⟩ := ok_of_check h.2
  exact ⟨objs, root, rep, h1, of_decide_eq_true h.1, h2⟩

theorem exZ_promoted {path : List Name} {k : VarKind} {v : VarInfo} {p : Name} (h : PromotedAs exZ.toModel path k v p) : path = [] ∧ v.name = p :=
  ⟨(oneModel_promoted (l := exZ.locals) h).1, (oneModel_promoted (l := exZ.locals) h).2.2⟩

theorem exZ_denotes {n p : Name} (h : Denotes exZ.toModel n p) : n = p := by
  cases h with
  | promoted _ => rfl
  | full h =>
    obtain ⟨rfl, rfl⟩ := exZ_promoted h
    rfl

theorem exZ_names {path : List Name} {x : Nat} {p : Name} (h : HasName exZ path x p) : path = [] ∧ exZ.Named x p := by
  obtain ⟨b', n, k, w, h1, _, h3, h4, h5⟩ := h
  obtain ⟨rfl, rfl⟩ := oneModel_at (b := exZ) rfl h1
  obtain ⟨_, rfl⟩ := exZ_promoted h4
  subst h5
  exact ⟨rfl, h3⟩

theorem exZ_named {x : Nat} {p : Name} (h : exZ.Named x p) : (x = 0 ∧ p = "x".toList) ∨ (x = 1 ∧ p = "z".toList) ∨ (x = 2 ∧ p = "y".toList) := by
  rcases h with ⟨s, h | h⟩ | h
  · simp only [exZ, Body.stmts, Stmt.count, List.filterMap, inputOf, List.mem_cons, Prod.mk.injEq, List.not_mem_nil, or_false] at h
    rcases h with ⟨rfl, rfl, _⟩ | ⟨rfl, rfl, _⟩ <;> simp
  · simp [exZ, Body.stmts, Stmt.count, List.filterMap, declaredOf] at h
  · simp only [exZ, Body.stmts, Stmt.count, List.filterMap, outputOf, List.mem_cons, Prod.mk.injEq, List.not_mem_nil, or_false] at h
    exact Or.inr (Or.inr h)

theorem exZ_same {q r : List Name × Nat} (h : Relation.EqvGen (Same exZ) q r) : q.2 = 2 ↔ r.2 = 2 := by
  induction h with
  | rel q r h =>
    cases h with
    | name p h1 h2 =>
      rcases exZ_named (exZ_names h1).2 with ⟨rfl, rfl⟩ | ⟨rfl, rfl⟩ | ⟨rfl, rfl⟩ <;> rcases exZ_named (exZ_names h2).2 with ⟨rfl, h⟩ | ⟨rfl, h⟩ | ⟨rfl, h⟩ <;>
        first | (exact Iff.rfl) | (exact absurd h (by decide))
    | connection path b' s t p q hb hst hp hq h1 h2 =>
      obtain ⟨rfl, rfl⟩ := oneModel_at (b := exZ) rfl hb
      have hst : (s, t) ∈ [("x".toList, "z".toList)] := hst
      rw [List.mem_singleton, Prod.mk.injEq] at hst
      obtain ⟨rfl, rfl⟩ := hst
      obtain rfl := exZ_denotes hp
      obtain rfl := exZ_denotes hq
      rcases exZ_named (exZ_names h1).2 with ⟨rfl, h⟩ | ⟨rfl, h⟩ | ⟨rfl, h⟩ <;> rcases exZ_named (exZ_names h2).2 with ⟨rfl, h'⟩ | ⟨rfl, h'⟩ | ⟨rfl, h'⟩ <;>
        first | (exact absurd h (by decide)) | (exact absurd h' (by decide)) | simp
    | «alias» b' hb _ _ ha =>
      obtain ⟨rfl, rfl⟩ := oneModel_at (b := exZ) rfl hb
      rw [alias_eq (by intro y hy; simp only [exZ, Body.stmts, Stmt.count, List.mem_cons, List.not_mem_nil, or_false] at hy; rcases hy with rfl | rfl | rfl | rfl | rfl <;> simp) ha]
  | refl => exact Iff.rfl
  | symm _ _ _ ih => exact ih.symm
  | trans _ _ _ _ _ ih1 ih2 => exact ih1.trans ih2

theorem exZ_noChain : NoChain exZ.toModel := by
  have hiss : issuedPost Local.connections exZ.toModel = [([], "x".toList, "z".toList)] := by decide
  constructor
  · intro i hi p h1 h2
    rw [hiss, List.mem_singleton] at hi
    subst hi
    have e1 := exZ_denotes h1
    have e2 := exZ_denotes h2
    rw [← e2] at e1
    exact absurd e1 (by decide)
  · rw [hiss]; exact List.pairwise_singleton _ _

theorem exZ_given : GivenVar exZ [] 1 := by
  refine ⟨⟨exZ, .here _, .input (x := 1) (name := "z".toList) (s := [1]) (by simp [exZ, Body.stmts, Stmt.count, inputOf])⟩, ?_⟩
  intro path' b' n t y hb ht hc h1 h2 _ hs
  obtain ⟨rfl, rfl⟩ := oneModel_at (b := exZ) rfl hb
  simp only [Body.Has, exZ, Body.stmts, Stmt.count, List.mem_cons, Prod.mk.injEq, List.not_mem_nil, or_false] at ht
  have := exZ_same hs
  rcases ht with ⟨rfl, rfl⟩ | ⟨rfl, rfl⟩ | ⟨rfl, rfl⟩ | ⟨rfl, rfl⟩ | ⟨rfl, rfl⟩ <;> first | exact hc.elim | skip
  simp only [Stmt.count] at h2
  simp at this
  omega

theorem exZ_default {v : Option (Val ℚ)} (h : DefaultOf exZ [] 1 v) : v = some fun _ => 2 := by
  cases h with
  | input hb hy hs hno =>
    obtain ⟨rfl, rfl⟩ := oneModel_at (b := exZ) rfl hb
    have hy' := hy
    simp only [Body.Has, exZ, Body.stmts, Stmt.count, List.mem_cons, Prod.mk.injEq, List.not_mem_nil, or_false, Stmt.input.injEq, reduceCtorEq, and_false, false_or] at hy
    rcases hy with ⟨rfl, rfl, rfl, rfl⟩ | ⟨rfl, rfl, rfl, rfl⟩
    · rfl
    · have hp : PromotedAs exZ.toModel [] .source ⟨"z".toList, [1]⟩ "z".toList := .here (v := ⟨"z".toList, [1]⟩) (by decide)
      refine absurd ⟨[], exZ.locals, .nil, "x".toList, "z".toList, .here _, by decide, .promoted hp⟩ (hno "z".toList ?_)
      exact ⟨exZ, "z".toList, .source, ⟨"z".toList, [1]⟩, .here _, .input (mem_inputOf.2 ⟨_, hy'⟩), Or.inl ⟨[1], Or.inl (mem_inputOf.2 ⟨_, hy'⟩)⟩, hp, rfl⟩
  | declare hb hy _ _ _ _ =>
    obtain ⟨rfl, rfl⟩ := oneModel_at (b := exZ) rfl hb
    simp [Body.Has, exZ, Body.stmts, Stmt.count] at hy

/-- **C86, connected inputs.** `x = create_input('x', val=2); z = create_input('z', val=7); connect('x', 'z')` is accepted, and the value 7 is lost: in the results `z` is 2. -/
theorem C86_connected_input_loses_its_value : ∃ objs root rep, runProgram exZ = .ok (objs, root) ∧ compile (objects objs) 20 id root = .ok rep ∧
    ∃ (f : Nat → Nat) (node : List Name → Nat → Nat), ∀ (P : Power ℚ) (den : Unit → List (Val ℚ) → Nat → Val ℚ),
      execAll rep.graph ⟨fun i => decide ((objects objs i).kind = .op), fun i => (objects objs i).deps.map f, opMeaning P den objs⟩ (initial objs) rep.sorted (node [] 1) = fun _ => 2 := by
  obtain ⟨objs, root, rep, hr, hl, hc⟩ := exZ_run
  have hf : ∀ path b', BAt exZ path b' → (b'.locals.outputs ++ b'.locals.declared).length + objs.length ≤ 20 := by
    intro path b' h
    obtain ⟨_, rfl⟩ := oneModel_at (b := exZ) rfl h
    rw [hl]; decide
  obtain ⟨f, node, _, h⟩ := C86_default_values exZ exZ_good exZ_noChain objs root hr (by rw [hl]; decide) 20 hf id (fun _ _ => Iff.rfl) rep hc
  refine ⟨objs, root, rep, hr, hc, f, node, fun P den => ?_⟩
  obtain ⟨_, h2, _⟩ := h P den
  obtain ⟨v, d, e⟩ := h2 [] 1 exZ_given
  rw [exZ_default d] at e
  exact e

/-- `def define(self): a = declare_variable('a', val=5); q = a * 3; register_output('q', q)` -/
def exQ : Body ℚ Unit := .stmt (.declare "a".toList [1] (some fun _ => 5)) (.stmt (.expr (.mulc 0 (.num 3))) (.stmt (.register "q".toList 1) .done))

/-- `def define(self): a = declare_variable('a'); p = a * 2; register_output('p', p); add(sub, 'm')` -/
def exM : Body ℚ Unit := .stmt (.declare "a".toList [1] none) (.stmt (.expr (.mulc 0 (.num 2))) (.stmt (.register "p".toList 1) (.add false "m".toList none exQ .done)))

theorem exM_at {path : List Name} {b' : Body ℚ Unit} (h : BAt exM path b') : (path = [] ∧ b' = exM) ∨ (path = ["m".toList] ∧ b' = exQ) := by
  cases h with
  | here => exact Or.inl ⟨rfl, rfl⟩
  | down h1 h2 =>
    simp only [exM, Body.subs, List.mem_singleton, Prod.mk.injEq] at h1
    obtain ⟨rfl, rfl, rfl⟩ := h1
    cases h2 with
    | here => exact Or.inr ⟨rfl, rfl⟩
    | down h3 _ => simp [exQ, Body.subs] at h3

theorem exM_good : GoodNames exM := by
  constructor
  all_goals
    intro path b' h
    rcases exM_at h with ⟨_, rfl⟩ | ⟨_, rfl⟩ <;> decide

theorem exM_run : ∃ objs root rep, runProgram exM = .ok (objs, root) ∧ objs.length = 7 ∧ compile (objects objs) 20 id root = .ok rep := by
  obtain ⟨⟨objs, root⟩, h1, h⟩ := ok_of_check (x := runProgram exM) (P := fun q => decide (q.1.length = 7) && okCheck (compile (objects q.1) 20 id q.2) fun _ => true) (by decide +kernel)
  rw [Bool.and_eq_true] at h
  obtain ⟨rep, h2, _⟩ := ok_of_check h.2
  exact ⟨objs, root, rep, h1, of_decide_eq_true h.1, h2⟩

theorem exM_promoted {path : List Name} {k : VarKind} {v : VarInfo} {p : Name} (h : PromotedAs exM.toModel path k v p) : v.name = p := by
  generalize hm : exM.toModel = m at h
  have hm' : m = .mk exM.locals (.cons "m".toList none (.mk exQ.locals .nil) .nil) := hm.symm
  clear hm
  subst hm'
  cases h with
  | here => rfl
  | up hs h _ =>
    obtain rfl := List.mem_singleton.1 hs
    exact (oneModel_promoted h).2.2
  | stay hs h' h =>
    obtain rfl := List.mem_singleton.1 hs
    obtain ⟨_, hv, rfl⟩ := oneModel_promoted h'
    refine absurd ?_ h
    cases k
    · have hv : v ∈ [(⟨"q".toList, [1]⟩ : VarInfo)] := hv
      obtain rfl := List.mem_singleton.1 hv
      simp [IsPromoted]
    · have hv : v ∈ [(⟨"a".toList, [1]⟩ : VarInfo)] := hv
      obtain rfl := List.mem_singleton.1 hv
      simp [IsPromoted]

theorem exM_names {path : List Name} {x : Nat} {p : Name} (h : HasName exM path x p) : x = 0 ↔ p = "a".toList := by
  obtain ⟨b', n, k, w, h1, _, h3, h4, h5⟩ := h
  rw [exM_promoted h4] at h5
  subst h5
  rcases exM_at h1 with ⟨rfl, rfl⟩ | ⟨rfl, rfl⟩
  all_goals
    rcases h3 with ⟨s, h | h⟩ | h
    · simp [exM, exQ, Body.stmts, Stmt.count, List.filterMap, inputOf] at h
    · simp only [exM, exQ, Body.stmts, Stmt.count, List.filterMap, declaredOf, List.mem_cons, Prod.mk.injEq, List.not_mem_nil, or_false] at h
      obtain ⟨rfl, rfl, _⟩ := h
      exact ⟨fun _ => rfl, fun _ => rfl⟩
    · simp only [exM, exQ, Body.stmts, Stmt.count, List.filterMap, outputOf, List.mem_cons, Prod.mk.injEq, List.not_mem_nil, or_false] at h
      obtain ⟨rfl, rfl⟩ := h
      exact ⟨fun h => absurd h (by decide), fun h => absurd h (by decide)⟩

theorem exM_same {q r : List Name × Nat} (h : Relation.EqvGen (Same exM) q r) : q.2 = 0 ↔ r.2 = 0 := by
  induction h with
  | rel q r h =>
    cases h with
    | name p h1 h2 => exact (exM_names h1).trans (exM_names h2).symm
    | connection path b' s t p q hb hst hp hq h1 h2 =>
      exfalso
      rcases exM_at hb with ⟨rfl, rfl⟩ | ⟨rfl, rfl⟩
      · have hst : (s, t) ∈ ([] : List (Name × Name)) := hst
        cases hst
      · have hst : (s, t) ∈ ([] : List (Name × Name)) := hst
        cases hst
    | «alias» b' hb _ _ ha =>
      rcases exM_at hb with ⟨rfl, rfl⟩ | ⟨rfl, rfl⟩ <;>
      rw [alias_eq (by intro y hy; simp only [exM, exQ, Body.stmts, Stmt.count, List.mem_cons, List.not_mem_nil, or_false] at hy; rcases hy with rfl | rfl | rfl <;> simp) ha]
  | refl => exact Iff.rfl
  | symm _ _ _ ih => exact ih.symm
  | trans _ _ _ _ _ ih1 ih2 => exact ih1.trans ih2

theorem exM_live {path : List Name} {b' : Body ℚ Unit} (h : BAt exM path b') : b'.Live 0 := by
  rcases exM_at h with ⟨_, rfl⟩ | ⟨_, rfl⟩
  · exact .operand (y := 1) (n := 1) (s := .expr (.mulc 0 (.num 2))) (.output (name := "p".toList) (by decide)) (by simp [Body.Has, exM, Body.stmts, Stmt.count]) (by decide) (by decide) (by decide)
  · exact .operand (y := 1) (n := 1) (s := .expr (.mulc 0 (.num 3))) (.output (name := "q".toList) (by decide)) (by simp [Body.Has, exQ, Body.stmts, Stmt.count]) (by decide) (by decide) (by decide)

theorem exM_given : GivenVar exM [] 0 := by
  refine ⟨⟨exM, .here _, exM_live (.here _)⟩, ?_⟩
  intro path' b' n t y hb ht hc h1 h2 _ hs
  have := (exM_same hs).1 rfl
  simp only at this
  subst this
  rcases exM_at hb with ⟨rfl, rfl⟩ | ⟨rfl, rfl⟩
  all_goals
    simp only [Body.Has, exM, exQ, Body.stmts, Stmt.count, List.mem_cons, Prod.mk.injEq, List.not_mem_nil, or_false] at ht
    rcases ht with ⟨rfl, rfl⟩ | ⟨rfl, rfl⟩ | ⟨rfl, rfl⟩ <;> first | exact hc.elim | omega

theorem exM_atM : BAt exM ["m".toList] exQ := .down (p := none) (by simp [exM, Body.subs]) (.here _)

theorem exM_shared : SameVar exM [] 0 ["m".toList] 0 := by
  refine .rel _ _ (.name "a".toList ⟨exM, "a".toList, .target, ⟨"a".toList, [1]⟩, .here _, exM_live (.here _), Or.inl ⟨[1], Or.inr (by decide)⟩, .here (v := ⟨"a".toList, [1]⟩) (by decide), rfl⟩
    ⟨exQ, "a".toList, .target, ⟨"a".toList, [1]⟩, exM_atM, exM_live exM_atM, Or.inl ⟨[1], Or.inr (by decide)⟩, ?_, rfl⟩)
  exact .up (s := ⟨"m".toList, none, exQ.toModel⟩) (List.mem_singleton.2 rfl) (.here (v := ⟨"a".toList, [1]⟩) (by decide)) (by simp [IsPromoted])

theorem exM_default {v : Option (Val ℚ)} (h : DefaultOf exM [] 0 v) : v = some fun _ => 5 := by
  cases h with
  | input hb hy hs hno => rcases exM_at hb with ⟨rfl, rfl⟩ | ⟨rfl, rfl⟩ <;> simp [Body.Has, exM, exQ, Body.stmts, Stmt.count] at hy
  | declare hb hy _ _ _ hbest =>
    rcases exM_at hb with ⟨rfl, rfl⟩ | ⟨rfl, rfl⟩
    · simp only [Body.Has, exM, Body.stmts, Stmt.count, List.mem_cons, Prod.mk.injEq, List.not_mem_nil, or_false, Stmt.declare.injEq, reduceCtorEq, and_false] at hy
      obtain ⟨rfl, rfl, rfl, rfl⟩ := hy
      have := (hbest ["m".toList] exQ 0 "a".toList [1] (some fun _ => 5) exM_atM (by simp [Body.Has, exQ, Body.stmts, Stmt.count]) exM_shared).2.1 rfl ?_ rfl
      · cases this
      · intro y' sh v hy
        simp only [Body.Has, exQ, Body.stmts, Stmt.count, List.mem_cons, Prod.mk.injEq, List.not_mem_nil, or_false, reduceCtorEq, and_false] at hy
        omega
    · simp only [Body.Has, exQ, Body.stmts, Stmt.count, List.mem_cons, Prod.mk.injEq, List.not_mem_nil, or_false, Stmt.declare.injEq, reduceCtorEq, and_false] at hy
      obtain ⟨rfl, rfl, rfl, rfl⟩ := hy
      rfl

/-- **C86, values of submodels.** The main model declares `a` without a value, its submodel, which promotes it, with value 5: in the results `a` is 5, also in the main model. -/
theorem C86_value_of_submodel : ∃ objs root rep, runProgram exM = .ok (objs, root) ∧ compile (objects objs) 20 id root = .ok rep ∧
    ∃ (f : Nat → Nat) (node : List Name → Nat → Nat), ∀ (P : Power ℚ) (den : Unit → List (Val ℚ) → Nat → Val ℚ),
      execAll rep.graph ⟨fun i => decide ((objects objs i).kind = .op), fun i => (objects objs i).deps.map f, opMeaning P den objs⟩ (initial objs) rep.sorted (node [] 0) = fun _ => 5 := by
  obtain ⟨objs, root, rep, hr, hl, hc⟩ := exM_run
  have hf : ∀ path b', BAt exM path b' → (b'.locals.outputs ++ b'.locals.declared).length + objs.length ≤ 20 := by
    intro path b' h
    rw [hl]
    rcases exM_at h with ⟨_, rfl⟩ | ⟨_, rfl⟩ <;> decide
  have hno : NoChain exM.toModel := by
    have hiss : issuedPost Local.connections exM.toModel = [] := by decide
    constructor
    · rw [hiss]; intro i hi; cases hi
    · rw [hiss]; exact List.Pairwise.nil
  obtain ⟨f, node, _, h⟩ := C86_default_values exM exM_good hno objs root hr (by rw [hl]; decide) 20 hf id (fun _ _ => Iff.rfl) rep hc
  refine ⟨objs, root, rep, hr, hc, f, node, fun P den => ?_⟩
  obtain ⟨_, h2, _⟩ := h P den
  obtain ⟨v, d, e⟩ := h2 [] 0 exM_given
  rw [exM_default d] at e
  exact e

end Csdl.Prog
