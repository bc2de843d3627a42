import Verif.Spec.Given
import Verif.Props.ExactFull
import Verif.Props.Defaults
import Verif.Props.DefaultsSame
import Verif.Proofs.Refactor2
import Verif.Proofs.DefaultsSame
import Verif.Proofs.Print2
/-
C109: which values must be given.
-/
namespace Csdl.Prog
open Csdl Csdl.Arith
variable {K F : Type} [Field K] [DecidableEq K]

/-- a connection from `p` to `q` (promoted names) -/
def Linked (b : Body K F) (p q : Name) : Prop := ∃ path c s t, BAt b path c ∧ (s, t) ∈ c.locals.connections ∧ Denotes b.toModel (fullName path s) p ∧ Denotes b.toModel (fullName path t) q

/-- what is used about a valid program -/
structure Ready (b : Body K F) : Prop where
  valid : ValidProgram b
  facts : ∀ path c, BAt b path c → MethodFacts c
  dotFree : DotFree b.toModel
  denotes : ∀ {key p q}, Denotes b.toModel key p → Denotes b.toModel key q → p = q
  defaults : ∀ path x, GivenVar b path x → ∃ v, DefaultOf b path x v

theorem ready {b : Body K F} (hv : ValidProgram b) (hs : b.maxObjects ≤ 63 ^ 4) : Ready b := by
  obtain ⟨objs, root, h1, h2⟩ := C74_valid_programs_accepted b hv fun _ => hs
  have hn : objs.length ≤ 63 ^ 4 := by
    have := runFrom_length h1
    simp only [List.length_nil, Nat.zero_add] at this
    omega
  obtain ⟨Ls, hh, _⟩ := runFrom_hier h1 (all := objs) List.prefix_rfl
  have hf : ∃ fuel, ∀ path b', BAt b path b' → (b'.locals.outputs ++ b'.locals.declared).length + objs.length ≤ fuel := by
    refine ⟨(Ls.map fun x => (x.2.body.locals.outputs ++ x.2.body.locals.declared).length).sum + objs.length, fun path b' hb => ?_⟩
    obtain ⟨s, hs, rfl⟩ := hh.ofBody path b' hb
    have hm : (s.body.locals.outputs ++ s.body.locals.declared).length ∈ Ls.map fun x => (x.2.body.locals.outputs ++ x.2.body.locals.declared).length := List.mem_map.2 ⟨_, hs, rfl⟩
    have := List.le_sum_of_mem hm
    omega
  obtain ⟨fuel, hf⟩ := hf
  obtain ⟨rep, hc⟩ := h2 hn fuel hf id fun _ _ => Iff.rfl
  obtain ⟨r, hr, _⟩ := compile_p2u hc
  rw [hh.names] at hr
  have hd : DotFree b.toModel := dotFree_body hv.methods hv.names
  obtain ⟨_, _, _, u, hk, _, _, f2, _⟩ := means_kept [] b hv.names hv.noChain objs root h1 objs List.prefix_rfl (runFrom_closed (by simp [Closed]) h1) hn fuel hf id (fun _ _ => Iff.rfl) rep hc
  exact ⟨hv, fun path c hc => methodFacts hv.namesValid h1 hc, hd, fun h h' => denotes_unique hd hr h h', fun path x hg => (u.defaults hk f2 hg).imp fun _ h => h.1⟩

variable {b : Body K F}

theorem Ready.sameName (R : Ready b) {path : List Name} {c : Body K F} (hc : BAt b path c) {x y : Nat} {p q : Name} (ha : Alias (c.stmts 0) x y) (hx : HasName b path x p) (hy : HasName b path y q) : p = q := by
  obtain ⟨d, n1, k, w, g1, g2, g3, g4, g5⟩ := hx
  obtain ⟨d', n2, k', w', g1', g2', g3', g4', g5'⟩ := hy
  obtain rfl := R.valid.batOne hc g1
  obtain rfl := R.valid.batOne hc g1'
  obtain rfl := (R.facts _ _ hc).unique _ _ _ _ g3 g3' ha
  exact promoted_det _ R.dotFree g4 g4' (g5.trans g5'.symm)

/-- the variable has, perhaps as an alias, a name that is reached from `p0` through connections -/
def Reaches (b : Body K F) (p0 : Name) (e : List Name × Nat) : Prop :=
  ∃ d v p, BAt b e.1 d ∧ Alias (d.stmts 0) e.2 v ∧ HasName b e.1 v p ∧ Relation.ReflTransGen (Linked b) p0 p

theorem Ready.reaches_name (R : Ready b) {p0 p : Name} {e : List Name × Nat} (hn : HasName b e.1 e.2 p) : Reaches b p0 e ↔ Relation.ReflTransGen (Linked b) p0 p := by
  constructor
  · rintro ⟨d, v, p', h1, h2, h3, h4⟩
    exact R.sameName h1 h2 hn h3 ▸ h4
  · intro h
    obtain ⟨d, _, _, _, g1, _⟩ := id hn
    exact ⟨d, e.2, p, g1, .refl _, hn, h⟩

theorem Ready.linked_back (R : Ready b) {p p' q : Name} (h : Linked b p q) (h' : Linked b p' q) : p = p' := by
  obtain ⟨path, c, s, t, h1, h2, h3, h4⟩ := h
  obtain ⟨path', c', s', t', h1', h2', h3', h4'⟩ := h'
  have m : ∀ {path c s t}, BAt b path c → (s, t) ∈ c.locals.connections → (path, s, t) ∈ issuedPost Local.connections b.toModel :=
    fun {path c s t} a1 a2 => (mem_issuedPost _ _ _).2 ⟨c.locals, c.toSubs, at_of_bat a1, a2⟩
  by_cases he : (path, s, t) = (path', s', t')
  · cases he
    exact R.denotes h3 h3'
  · have sym : Std.Symm (fun i j : List Name × Name × Name => ∀ q, Denotes b.toModel (fullName i.1 i.2.2) q → ¬ Denotes b.toModel (fullName j.1 j.2.2) q) := ⟨fun i j hij q h1 h2 => hij q h2 h1⟩
    have := R.valid.oneConnection.forall (m h1 h2) (m h1' h2') he
    exact absurd h4' (this q h4)

theorem Ready.reaches_same (R : Ready b) {p0 : Name} (h0 : ¬ TargetName b.toModel p0) {e f : List Name × Nat} (h : Relation.EqvGen (Same b) e f) : Reaches b p0 e ↔ Reaches b p0 f := by
  induction h with
  | rel _ _ h =>
    cases h with
    | name p h1 h2 => rw [R.reaches_name h1, R.reaches_name h2]
    | connection path d s t p q hd hst hp hq h1 h2 =>
      rw [R.reaches_name h1, R.reaches_name h2]
      have hl : Linked b p q := ⟨path, d, s, t, hd, hst, hp, hq⟩
      refine ⟨fun h => h.tail hl, fun h => ?_⟩
      cases h with
      | refl => exact absurd (target_iff.2 ⟨path, d, s, t, hd, hst, hq⟩) h0
      | tail h1 h2 => rw [R.linked_back hl h2]; exact h1
    | @«alias» path x y d hd hx hy ha =>
      constructor
      · rintro ⟨d', v, p, g1, g2, g3, g4⟩
        obtain rfl := R.valid.batOne hd g1
        exact ⟨d, v, p, hd, .trans (.symm ha) g2, g3, g4⟩
      · rintro ⟨d', v, p, g1, g2, g3, g4⟩
        obtain rfl := R.valid.batOne hd g1
        exact ⟨d, v, p, hd, .trans ha g2, g3, g4⟩
  | refl => rfl
  | symm _ _ _ ih => exact ih.symm
  | trans _ _ _ _ _ ih1 ih2 => exact ih1.trans ih2

/-- the names of an input -/
theorem Ready.inputName (R : Ready b) {path : List Name} {c : Body K F} (hc : BAt b path c) {y : Nat} {name : Name} {shape : Shape} {v : Val K} (hy : c.Has y (.input name shape v)) :
    ∃ p, HasName b path y p ∧ PromotedAs b.toModel path .source ⟨name, shape⟩ p := by
  have hm : (⟨name, shape⟩ : VarInfo) ∈ c.locals.vars .source := by
    simp only [Local.vars, Local.sources, Body.locals]
    exact List.mem_append_left _ (List.mem_map.2 ⟨_, mem_inputOf.2 ⟨_, hy⟩, rfl⟩)
  obtain ⟨p, hp⟩ := promoted_total (at_of_bat hc) hm
  exact ⟨p, ⟨c, name, _, _, hc, .input (mem_inputOf.2 ⟨_, hy⟩), Or.inl ⟨shape, Or.inl (mem_inputOf.2 ⟨_, hy⟩)⟩, hp, rfl⟩, hp⟩

/-- the promoted name of a registered output -/
theorem Ready.outputName (R : Ready b) {path : List Name} {c : Body K F} (hc : BAt b path c) {y : Nat} {name : Name} (hy : (y, name) ∈ (c.stmts 0).filterMap outputOf) {p : Name} (hp : HasName b path y p) :
    ∃ w ∈ c.locals.outputs, w.name = name ∧ PromotedAs b.toModel path .source w p := by
  have hw : (⟨name, c.shapes.getD y []⟩ : VarInfo) ∈ c.locals.outputs := List.mem_map.2 ⟨_, hy, rfl⟩
  obtain ⟨q, hq⟩ := promoted_total (k := .source) (at_of_bat hc) (List.mem_append_right _ hw)
  have hl : c.Live y := .output hy
  have : HasName b path y q := ⟨c, name, _, _, hc, hl, Or.inr hy, hq, rfl⟩
  obtain rfl := R.sameName hc (.refl _) hp this
  exact ⟨_, hw, rfl, hq⟩

/-- in a model, sources with the same promoted name have the same name -/
theorem Ready.localName (R : Ready b) {path : List Name} {k k' : VarKind} {v v' : VarInfo} {p : Name} (h : PromotedAs b.toModel path k v p) (h' : PromotedAs b.toModel path k' v' p) : v.name = v'.name := by
  obtain ⟨qs, g1, g2⟩ := promoted_form R.dotFree h
  obtain ⟨qs', g1', g2'⟩ := promoted_form R.dotFree h'
  have e1 := splitDot_fullName g1 (promoted_good _ R.dotFree h).2
  have e2 := splitDot_fullName g1' (promoted_good _ R.dotFree h').2
  rw [← g2] at e1
  rw [← g2', e1] at e2
  exact List.singleton_inj.1 (List.append_inj_right' e2 rfl)

theorem Ready.free_given (R : Ready b) {path : List Name} {y : Nat} (h : FreeInput b path y) : GivenVar b path y := by
  obtain ⟨c, name, shape, v, hc, hy, ht⟩ := h
  obtain ⟨p, hp, hps⟩ := R.inputName hc hy
  refine ⟨⟨c, hc, .input (mem_inputOf.2 ⟨_, hy⟩)⟩, fun path' d n s z hd hs hcs h1 h2 hz hsame => ?_⟩
  have hr : Reaches b p (path', z) := (R.reaches_same (ht p hp) hsame).1 ((R.reaches_name hp).2 .refl)
  obtain ⟨d', u, q, g1, g2, g3, g4⟩ := hr
  obtain rfl := R.valid.batOne hd g1
  obtain ⟨d2, nm, k, w, k1, k2, k3, k4, k5⟩ := id g3
  obtain rfl := R.valid.batOne hd k1
  have ho := named_output (R.valid.methods _ _ hd) hs hcs h1 h2 g2 k3
  obtain ⟨w', w1, w2, w3⟩ := R.outputName hd ho g3
  cases g4 with
  | refl =>
    obtain rfl := R.valid.oneSource [] b (.here _) p path _ path' _ hps w3
    obtain rfl := R.valid.batOne hc hd
    have en := R.localName hps w3
    have hnd := R.valid.names.sources _ _ hc
    rw [Local.sources, List.map_append, List.nodup_append] at hnd
    refine hnd.2.2 name ?_ w'.name (List.mem_map.2 ⟨_, w1, rfl⟩) en
    simp only [Body.locals, List.map_map]
    exact List.mem_map.2 ⟨_, mem_inputOf.2 ⟨_, hy⟩, rfl⟩
  | tail _ hl =>
    obtain ⟨path2, c2, s2, t2, l1, l2, l3, l4⟩ := hl
    obtain ⟨p1, q1, _, o2, _, _, o5, _⟩ := R.valid.connections _ _ _ _ l1 l2
    obtain rfl := R.denotes o2 l4
    exact o5 _ _ _ hd w1 w3

theorem given_same {b : Body K F} {e f : List Name × Nat} (h : Relation.EqvGen (Same b) e f) (hg : GivenVar b e.1 e.2) : GivenVar b f.1 f.2 :=
  ⟨(LiveAt_same h).1 hg.1, fun path d n s z h1 h2 h3 h4 h5 h6 h7 => hg.2 path d n s z h1 h2 h3 h4 h5 h6 (Relation.EqvGen.trans _ _ _ h h7)⟩

/-- variables that are the same are aliases in one method, or the first is an alias of one with a name -/
theorem Ready.alias_or_named (R : Ready b) {e f : List Name × Nat} (h : Relation.EqvGen (Same b) e f) :
    (∀ d, BAt b e.1 d → (e.1 = f.1 ∧ Alias (d.stmts 0) e.2 f.2) ∨ ∃ v p, Alias (d.stmts 0) e.2 v ∧ d.Live v ∧ HasName b e.1 v p ∧ Relation.EqvGen (Same b) (e.1, v) f) ∧
    ∀ d, BAt b f.1 d → (e.1 = f.1 ∧ Alias (d.stmts 0) f.2 e.2) ∨ ∃ v p, Alias (d.stmts 0) f.2 v ∧ d.Live v ∧ HasName b f.1 v p ∧ Relation.EqvGen (Same b) (f.1, v) e := by
  induction h with
  | rel e f h =>
    have hs : Relation.EqvGen (Same b) e f := .rel _ _ h
    have nm : ∀ {e : List Name × Nat} {p d}, HasName b e.1 e.2 p → BAt b e.1 d → d.Live e.2 := by
      rintro e p d ⟨d', _, _, _, g1, g2, _⟩ hd
      obtain rfl := R.valid.batOne hd g1
      exact g2
    cases h with
    | name p h1 h2 => exact ⟨fun d hd => Or.inr ⟨_, p, .refl _, nm (e := (_, _)) h1 hd, h1, hs⟩, fun d hd => Or.inr ⟨_, p, .refl _, nm (e := (_, _)) h2 hd, h2, hs.symm⟩⟩
    | connection path d s t p q hd hst hp hq h1 h2 => exact ⟨fun d hd => Or.inr ⟨_, p, .refl _, nm (e := (_, _)) h1 hd, h1, hs⟩, fun d hd => Or.inr ⟨_, q, .refl _, nm (e := (_, _)) h2 hd, h2, hs.symm⟩⟩
    | @«alias» path x y d hd hx hy ha =>
      refine ⟨fun d' hd' => ?_, fun d' hd' => ?_⟩
      · obtain rfl := R.valid.batOne hd hd'
        exact Or.inl ⟨rfl, ha⟩
      · obtain rfl := R.valid.batOne hd hd'
        exact Or.inl ⟨rfl, .symm ha⟩
  | refl e => exact ⟨fun d _ => Or.inl ⟨rfl, .refl _⟩, fun d _ => Or.inl ⟨rfl, .refl _⟩⟩
  | symm e f _ ih =>
    exact ⟨fun d hd => (ih.2 d hd).imp (fun h => ⟨h.1.symm, h.2⟩) id, fun d hd => (ih.1 d hd).imp (fun h => ⟨h.1.symm, h.2⟩) id⟩
  | trans e f g h1 h2 ih1 ih2 =>
    constructor
    · intro d hd
      rcases ih1.1 d hd with ⟨a1, a2⟩ | ⟨v, p, a1, a2, a3, a4⟩
      · rcases ih2.1 d (a1 ▸ hd) with ⟨c1, c2⟩ | ⟨v, p, c1, c2, c3, c4⟩
        · exact Or.inl ⟨a1.trans c1, .trans a2 c2⟩
        · exact Or.inr ⟨v, p, .trans a2 c1, c2, a1 ▸ c3, a1 ▸ c4⟩
      · exact Or.inr ⟨v, p, a1, a2, a3, a4.trans _ _ _ h2⟩
    · intro d hd
      rcases ih2.2 d hd with ⟨a1, a2⟩ | ⟨v, p, a1, a2, a3, a4⟩
      · rcases ih1.2 d (a1 ▸ hd) with ⟨c1, c2⟩ | ⟨v, p, c1, c2, c3, c4⟩
        · exact Or.inl ⟨c1.trans a1, .trans a2 c2⟩
        · exact Or.inr ⟨v, p, .trans a2 c1, c2, a1 ▸ c3, a1 ▸ c4⟩
      · exact Or.inr ⟨v, p, a1, a2, a3, a4.trans _ _ _ h1.symm⟩

/-- **C109.** In a valid program, the value of a variable that matters must be given exactly if it is the same variable as an input that is not the target of a connection, or as a declared variable and no input or output. -/
theorem C109_given_iff (b : Body K F) (hv : ValidProgram b) (hs : b.maxObjects ≤ 63 ^ 4) (path : List Name) (c : Body K F) (hc : BAt b path c) (x : Nat) (hx : c.Live x) :
    GivenVar b path x ↔ (∃ path' y, SameVar b path x path' y ∧ FreeInput b path' y) ∨
      ((∃ path' y, SameVar b path x path' y ∧ DeclaredVar b path' y) ∧ ∀ path' y, SameVar b path x path' y → ¬ SourceVar b path' y) := by
  have R := ready hv hs
  constructor
  · intro hg
    obtain ⟨v, hd⟩ := R.defaults _ _ hg
    cases hd with
    | @input path' d y name shape w h1 h2 h3 h4 => exact Or.inl ⟨path', y, h3, d, name, shape, w, h1, h2, h4⟩
    | @declare path' d y name shape w h1 h2 h3 h4 h5 h6 =>
      refine Or.inr ⟨⟨path', y, h3, d, name, shape, _, h1, h2⟩, ?_⟩
      rintro path2 y2 g1 ⟨d2, nm, g2, ⟨sh, w2, g3⟩ | g3⟩
      · exact h5 _ _ _ _ _ _ g2 g3 g1
      · obtain ⟨n0, s0, y0, j1, j2, j3, j4, j5⟩ := output_computed (hv.methods _ _ g2) g3
        have hl2 : d2.Live y2 := .output g3
        have hl0 := (R.facts _ _ g2).first _ _ _ _ j1 j2 j3 j4 hl2 j5
        exact hg.2 path2 d2 n0 s0 y0 g2 j1 j2 j3 j4 hl0 (Relation.EqvGen.trans _ _ _ g1 (.rel _ _ (.alias d2 g2 hl2 hl0 j5)))
  · rintro (⟨path', y, h1, h2⟩ | ⟨⟨path', y, h1, d, name, shape, v, h2, h3⟩, hn⟩)
    · exact given_same (e := (path', y)) (f := (path, x)) h1.symm (R.free_given h2)
    · refine ⟨⟨c, hc, hx⟩, fun path2 d2 n s z k1 k2 k3 k4 k5 k6 k7 => ?_⟩
      have hdn : d.Named y name := Or.inl ⟨shape, Or.inr (mem_declaredOf.2 ⟨_, h3⟩)⟩
      have hzy : Relation.EqvGen (Same b) (path2, z) (path', y) := Relation.EqvGen.trans _ _ _ k7.symm h1
      rcases (R.alias_or_named hzy).1 d2 k1 with ⟨a1, a2⟩ | ⟨u, p, a1, a2, a3, a4⟩
      · dsimp only at a1 a2
        subst a1
        obtain rfl := hv.batOne h2 k1
        have ho := named_output (hv.methods _ _ k1) k2 k3 k4 k5 a2 hdn
        exact hn path2 y h1 ⟨d, name, h2, Or.inr ho⟩
      · obtain ⟨d3, nm, kk, w, j1, j2, j3, _⟩ := a3
        obtain rfl := hv.batOne k1 j1
        have ho := named_output (hv.methods _ _ k1) k2 k3 k4 k5 a1 j3
        exact hn path2 u (Relation.EqvGen.trans _ _ _ h1 a4.symm) ⟨d2, nm, k1, Or.inr ho⟩

/-- **C109.** Inputs that are not targets of connections are independent of each other: two of them are never the same variable. -/
theorem C109_free_inputs_apart (b : Body K F) (hv : ValidProgram b) (hs : b.maxObjects ≤ 63 ^ 4) (path path' : List Name) (x y : Nat) (hx : FreeInput b path x) (hy : FreeInput b path' y) (h : SameVar b path x path' y) :
    path = path' ∧ x = y := by
  have R := ready hv hs
  obtain ⟨c, name, shape, v, hc, hx, ht⟩ := hx
  obtain ⟨c', name', shape', v', hc', hy, ht'⟩ := hy
  obtain ⟨p, hp, hps⟩ := R.inputName hc hx
  obtain ⟨p', hp', hps'⟩ := R.inputName hc' hy
  have hr := (R.reaches_name (e := (path', y)) hp').1 ((R.reaches_same (ht p hp) h).1 ((R.reaches_name (e := (path, x)) hp).2 .refl))
  cases hr with
  | refl =>
    obtain rfl := hv.oneSource [] b (.here _) p path _ path' _ hps hps'
    obtain rfl := hv.batOne hc hc'
    obtain rfl : name = name' := R.localName hps hps'
    have hnd := hv.names.sources _ _ hc
    rw [Local.sources, List.map_append, List.nodup_append] at hnd
    have h1 := hnd.1
    simp only [Body.locals, List.map_map] at h1
    have := List.inj_on_of_nodup_map h1 (mem_inputOf.2 ⟨_, hx⟩) (mem_inputOf.2 ⟨_, hy⟩) rfl
    exact ⟨rfl, by injection this⟩
  | tail _ hl =>
    obtain ⟨path2, c2, s2, t2, l1, l2, _, l4⟩ := hl
    exact absurd (target_iff.2 ⟨path2, c2, s2, t2, l1, l2, l4⟩) (ht' p' hp')

/-- **C109.** The given values can be chosen freely: let a program be valid and let `w` choose a value for each variable whose value must be given, the same for variables that are the same.  Then csdl accepts the program, and there are values of the
nodes from which executing the representation gives a solution of the program with the chosen values, the only one with them. -/
theorem C109_any_values (b : Body K F) (hv : ValidProgram b) (hs : b.maxObjects ≤ 63 ^ 4) : ∃ objs root, runProgram b = .ok (objs, root) ∧
    ∀ order : List Nat → List Nat, (∀ l x, x ∈ order l ↔ x ∈ l) → ∀ fuel, (∀ path b', BAt b path b' → (b'.locals.outputs ++ b'.locals.declared).length + objs.length ≤ fuel) →
      ∃ rep, compile (objects objs) fuel order root = .ok rep ∧ ∃ (f : Nat → Nat) (node : List Name → Nat → Nat), ∀ (P : Power K) (den : F → List (Val K) → Nat → Val K) (w : List Name → Nat → Val K),
        (∀ path x path' y, GivenVar b path x → GivenVar b path' y → SameVar b path x path' y → w path x = w path' y) →
        ∃ σ0 : Env (Val K), let value := fun path x => execAll rep.graph ⟨fun i => decide ((objects objs i).kind = .op), fun i => (objects objs i).deps.map f, opMeaning P den objs⟩ σ0 rep.sorted (node path x)
          Solution P den b value ∧ (∀ path x, GivenVar b path x → value path x = w path x) ∧
          ∀ ρ, Solution P den b ρ → (∀ path x, GivenVar b path x → ρ path x = w path x) → ∀ path b', BAt b path b' → ∀ x, b'.Live x → ρ path x = value path x := by
  classical
  obtain ⟨objs, root, h1, h2⟩ := C74_valid_programs_accepted b hv fun _ => hs
  have hn : objs.length ≤ 63 ^ 4 := by
    have := runFrom_length h1
    simp only [List.length_nil, Nat.zero_add] at this
    omega
  refine ⟨objs, root, h1, fun order ho fuel hf => ?_⟩
  obtain ⟨rep, hc⟩ := h2 hn fuel hf order ho
  obtain ⟨_, f, node, u, _, _, _, _, _, hsame, h3⟩ := means_kept [] b hv.names hv.noChain objs root h1 objs List.prefix_rfl (runFrom_closed (by simp [Closed]) h1) hn fuel hf order ho rep hc
  refine ⟨rep, hc, f, node, fun P den w hw => ?_⟩
  let σ0 : Env (Val K) := fun i => if h : ∃ e : List Name × Nat, GivenVar b e.1 e.2 ∧ node e.1 e.2 = i then w h.choose.1 h.choose.2 else 0
  have hσ : ∀ path x, GivenVar b path x → σ0 (node path x) = w path x := by
    intro path x hx
    have h : ∃ e : List Name × Nat, GivenVar b e.1 e.2 ∧ node e.1 e.2 = node path x := ⟨(path, x), hx, rfl⟩
    have e : σ0 (node path x) = w h.choose.1 h.choose.2 := dif_pos h
    obtain ⟨k1, k2⟩ := h.choose_spec
    obtain ⟨⟨d, hd, hl⟩, _⟩ := id k1
    obtain ⟨⟨d', hd', hl'⟩, _⟩ := id hx
    rw [e]
    exact hw _ _ _ _ k1 hx ((hsame _ _ _ _ hd hd' _ _ hl hl').1 k2)
  obtain ⟨a1, a2, a3⟩ := h3 P den σ0
  exact ⟨σ0, a1, fun path x hx => (a2 path x hx).trans (hσ path x hx), fun ρ r1 r2 => a3 ρ r1 fun path x hx => (r2 path x hx).trans (hσ path x hx).symm⟩

/-- **C109.** A valid program has, for any values of its inputs that are not targets of connections, a solution in which they have these values. -/
theorem C109_inputs_are_free (b : Body K F) (hv : ValidProgram b) (hs : b.maxObjects ≤ 63 ^ 4) (P : Power K) (den : F → List (Val K) → Nat → Val K) (w : List Name → Nat → Val K) :
    ∃ value, Solution P den b value ∧ ∀ path y, FreeInput b path y → value path y = w path y := by
  classical
  have R := ready hv hs
  obtain ⟨objs, root, h1, h2⟩ := C109_any_values b hv hs
  obtain ⟨Ls, hh, _⟩ := runFrom_hier h1 (all := objs) List.prefix_rfl
  have hf : ∃ fuel, ∀ path b', BAt b path b' → (b'.locals.outputs ++ b'.locals.declared).length + objs.length ≤ fuel := by
    refine ⟨(Ls.map fun x => (x.2.body.locals.outputs ++ x.2.body.locals.declared).length).sum + objs.length, fun path b' hb => ?_⟩
    obtain ⟨s, hs, rfl⟩ := hh.ofBody path b' hb
    have hm : (s.body.locals.outputs ++ s.body.locals.declared).length ∈ Ls.map fun x => (x.2.body.locals.outputs ++ x.2.body.locals.declared).length := List.mem_map.2 ⟨_, hs, rfl⟩
    have := List.le_sum_of_mem hm
    omega
  obtain ⟨fuel, hf⟩ := hf
  obtain ⟨rep, _, f, node, h3⟩ := h2 id (fun _ _ => Iff.rfl) fuel hf
  let v : List Name → Nat → Val K := fun path x => if h : ∃ e : List Name × Nat, FreeInput b e.1 e.2 ∧ SameVar b path x e.1 e.2 then w h.choose.1 h.choose.2 else 0
  have hw : ∀ path x path' y, SameVar b path x path' y → v path x = v path' y := by
    intro path x path' y hs
    have : (fun e : List Name × Nat => FreeInput b e.1 e.2 ∧ SameVar b path x e.1 e.2) = fun e : List Name × Nat => FreeInput b e.1 e.2 ∧ SameVar b path' y e.1 e.2 :=
      funext fun e => propext ⟨fun h => ⟨h.1, Relation.EqvGen.trans _ _ _ hs.symm h.2⟩, fun h => ⟨h.1, Relation.EqvGen.trans _ _ _ hs h.2⟩⟩
    simp only [v, this]
  obtain ⟨σ0, a1, a2, _⟩ := h3 P den v fun path x path' y _ _ => hw path x path' y
  refine ⟨_, a1, fun path y hy => ?_⟩
  refine (a2 path y (R.free_given hy)).trans ?_
  have h : ∃ e : List Name × Nat, FreeInput b e.1 e.2 ∧ SameVar b path y e.1 e.2 := ⟨(path, y), hy, .refl _⟩
  have e : v path y = w h.choose.1 h.choose.2 := dif_pos h
  obtain ⟨k1, k2⟩ := h.choose_spec
  obtain ⟨e1, e2⟩ := C109_free_inputs_apart b hv hs _ _ _ _ hy k1 k2
  rw [e, ← e1, ← e2]

/-! ### Example: the program of C73 -/

theorem exMain_small : exMain.maxObjects ≤ 63 ^ 4 := by decide

theorem exMain_free : FreeInput exMain [] 0 := by
  have R := ready exMain_valid exMain_small
  refine ⟨exMain, "x".toList, [1], fun _ => 1, .here _, by simp [Body.Has, exMain_stmts], fun p hp ht => ?_⟩
  obtain ⟨path, c, a, d, h1, h2, h3⟩ := target_iff.1 ht
  rcases exMain_at h1 with ⟨rfl, rfl⟩ | ⟨rfl, rfl⟩
  · have : exMain.locals.connections = [("s".toList, "m.a".toList)] := by decide
    rw [this, List.mem_singleton, Prod.mk.injEq] at h2
    obtain ⟨rfl, rfl⟩ := h2
    obtain rfl : p = "m.a".toList := R.denotes h3 (Denotes.promoted exMain_vars.2.1)
    obtain ⟨_, _, k, w, g1, _, _, g2, _⟩ := hp
    cases g1
    rcases exMain_promoted g2 with ⟨e, _, _, q⟩ | ⟨e, _, _, q⟩ | ⟨e, _, _, q⟩ | ⟨e, _, _, q⟩ | ⟨e, _, _, q⟩ | ⟨e, _, _, q⟩ <;> first | (cases e; done) | exact absurd q (by decide)
  · have : exSub.locals.connections = [] := by decide
    rw [this] at h2; cases h2

/-- so `x` must be given, and can be given any value -/
example : GivenVar exMain [] 0 := (C109_given_iff exMain exMain_valid exMain_small [] exMain (.here _) 0
  (.input (name := "x".toList) (s := [1]) (by decide))).2 (Or.inl ⟨[], 0, .refl _, exMain_free⟩)

example (P : Power ℚ) (den : Unit → List (Val ℚ) → Nat → Val ℚ) (v : Val ℚ) : ∃ value, Solution P den exMain value ∧ value [] 0 = v := by
  obtain ⟨value, h1, h2⟩ := C109_inputs_are_free exMain exMain_valid exMain_small P den fun _ _ => v
  exact ⟨value, h1, h2 _ _ exMain_free⟩

end Csdl.Prog
