import Verif.Spec.ExactProgram
import Verif.Props.Optimise
import Verif.Props.Rotations
import Verif.Props.Exact
import Verif.Props.OneModel
/-
C111: variables that are merged have equal numbers of elements.
-/
namespace Csdl.Prog
open Csdl Csdl.Arith Csdl.Elem
variable {K F G I : Type} [Field K] [DecidableEq K]

omit [Field K] [DecidableEq K] in
/-- the shape of the variable that a statement creates first -/
theorem shape_step {b : Body K F} {n : Nat} {s : Stmt K F} (h : b.Has n s) : ∃ L1 L2, b.stmts 0 = L1 ++ (n, s) :: L2 ∧ n = numVars L1 ∧ ∀ sh, stepShapes (shapesOf L1) s = shapesOf L1 ++ [sh] → b.shapes.getD n [] = sh := by
  obtain ⟨L1, L2, hL⟩ := List.append_of_mem h
  have hn := stmts_number b 0 L1 n _ L2 hL
  rw [Nat.zero_add] at hn
  refine ⟨L1, L2, hL, hn, fun sh hs => ?_⟩
  have hL' : b.stmts 0 = (L1 ++ [(n, s)]) ++ L2 := by rw [hL]; simp
  have e : shapesOf (L1 ++ [(n, s)]) = shapesOf L1 ++ [sh] := by
    rw [← hs]; simp [shapesOf]
  have hlen := shapes_length (L1 ++ [(n, s)])
  rw [e] at hlen
  simp only [List.length_append, List.length_singleton, shapes_length] at hlen
  rw [← shape_later hL' (by omega), e, List.getD_eq_getElem?_getD, List.getElem?_append_right (by rw [shapes_length]; omega), shapes_length, hn]
  simp

omit [Field K] [DecidableEq K] in
theorem shape_input {b : Body K F} {n : Nat} {name : Name} {s : Shape} {v : Val K} (h : b.Has n (.input name s v)) : b.shapes.getD n [] = s := by
  obtain ⟨_, _, _, _, h1⟩ := shape_step h
  exact h1 _ rfl

omit [Field K] [DecidableEq K] in
theorem shape_declare {b : Body K F} {n : Nat} {name : Name} {s : Shape} {v : Option (Val K)} (h : b.Has n (.declare name s v)) : b.shapes.getD n [] = s := by
  obtain ⟨_, _, _, _, h1⟩ := shape_step h
  exact h1 _ rfl

omit [DecidableEq K] in
/-- a part of a variable has the shape of the part -/
theorem shape_part {b : Body K F} (hm : MethodOk b) {n x : Nat} {key : Key} (h : b.Has n (.index x key)) : b.shapes.getD n [] = partShape (b.shapes.getD x []) key := by
  obtain ⟨L1, L2, hL, hn, h1⟩ := shape_step h
  rw [h1 _ rfl, shape_later hL (hm.stmts _ _ _ hL).1]

omit [DecidableEq K] in
/-- aliases have the same shape -/
theorem shape_alias {b : Body K F} (hm : MethodOk b) {x y : Nat} (h : Alias (b.stmts 0) x y) : b.shapes.getD x [] = b.shapes.getD y [] := by
  induction h with
  | refl => rfl
  | symm _ ih => exact ih.symm
  | trans _ _ ih1 ih2 => exact ih1.trans ih2
  | plus h => exact (shape_expr hm h _ (by simp [Instr.first])).symm
  | part h1 h2 _ h3 ih =>
    rw [shape_part hm h1, shape_part hm h2]
    unfold partShape
    have h3' : normalizeKey (b.shapes.getD _ []) _ = normalizeKey (b.shapes.getD _ []) _ := h3
    rw [h3', ih]

omit [DecidableEq K] in
/-- two variables of a method with the same name have equal numbers of elements -/
theorem local_sizes {b c : Body K F} {path : List Name} (hg : GoodNames b) (hd : ConsistentDeclarations b) (hc : BAt b path c) {k k' : VarKind} {w w' : VarInfo} (hw : w ∈ c.locals.vars k) (hw' : w' ∈ c.locals.vars k') (h : w.name = w'.name) :
    w.shape.size = w'.shape.size := by
  cases k <;> cases k'
  · rw [List.inj_on_of_nodup_map (hg.sources path c hc) hw hw' h]
  · exact absurd (List.mem_map.2 ⟨w, hw, h⟩) (hg.declared path c hc w' hw').2
  · exact absurd (List.mem_map.2 ⟨w', hw', h.symm⟩) (hg.declared path c hc w hw).2
  · exact hd path c hc w hw w' hw' h

omit [Field K] [DecidableEq K] in
/-- the name of a variable is recorded with its shape -/
theorem named_shape {c : Body K F} {x : Nat} {name : Name} (hn : c.Named x name) : ∃ k, (⟨name, c.shapes.getD x []⟩ : VarInfo) ∈ c.locals.vars k := by
  rcases hn with ⟨sh, h | h⟩ | h
  · obtain ⟨v, h1⟩ := mem_inputOf.1 h
    refine ⟨.source, ?_⟩
    simp only [Local.vars, Local.sources, Body.locals]
    exact List.mem_append_left _ (List.mem_map.2 ⟨_, h, by rw [shape_input h1]⟩)
  · obtain ⟨v, h1⟩ := mem_declaredOf.1 h
    exact ⟨.target, List.mem_map.2 ⟨_, h, by rw [shape_declare h1]⟩⟩
  · exact ⟨.source, List.mem_append_right _ (List.mem_map.2 ⟨_, h, rfl⟩)⟩

theorem Ready.name_size {b c : Body K F} (R : Ready b) {path : List Name} {x : Nat} {p : Name} (h : HasName b path x p) (hc : BAt b path c) :
    ∃ k name, PromotedAs b.toModel path k ⟨name, c.shapes.getD x []⟩ p := by
  obtain ⟨c', name, k, w, h1, _, h2, h3, rfl⟩ := h
  obtain rfl := R.valid.batOne hc h1
  obtain ⟨k', h4⟩ := named_shape h2
  obtain ⟨p', hp'⟩ := promoted_total (at_of_bat hc) h4
  exact ⟨k', w.name, promoted_det _ R.dotFree hp' h3 rfl ▸ hp'⟩

theorem Ready.name_sizes {b : Body K F} (R : Ready b) (hd : ConsistentDeclarations b) {path path' : List Name} {k k' : VarKind} {w w' : VarInfo} {p : Name} (h : PromotedAs b.toModel path k w p) (h' : PromotedAs b.toModel path' k' w' p) :
    w.shape.size = w'.shape.size := by
  by_cases hp : path = path'
  · subst hp
    obtain ⟨l, subs, h1, h2⟩ := promoted_at h
    obtain ⟨l', subs', h1', h2'⟩ := promoted_at h'
    obtain ⟨c, hc, e⟩ := BAt.locals h1
    obtain ⟨c', hc', e'⟩ := BAt.locals h1'
    obtain rfl := R.valid.batOne hc hc'
    unfold Body.toModel at e e'
    cases e
    cases e'
    exact local_sizes R.valid.names hd hc h2 h2' (R.localName h h')
  · exact R.valid.sizes [] b (.here b) p k path w k' path' w' h h' hp

theorem Ready.same_size {b : Body K F} (R : Ready b) (hd : ConsistentDeclarations b) {e f : List Name × Nat} (h : Relation.EqvGen (Same b) e f) :
    (∀ c, BAt b e.1 c → ∃ d, BAt b f.1 d ∧ (c.shapes.getD e.2 []).size = (d.shapes.getD f.2 []).size) ∧
    ∀ d, BAt b f.1 d → ∃ c, BAt b e.1 c ∧ (c.shapes.getD e.2 []).size = (d.shapes.getD f.2 []).size := by
  induction h with
  | rel e f h =>
    have : ∃ c d, BAt b e.1 c ∧ BAt b f.1 d ∧ (c.shapes.getD e.2 []).size = (d.shapes.getD f.2 []).size := by
      cases h with
      | name p h1 h2 =>
        have h1' := h1
        have h2' := h2
        obtain ⟨c, _, _, _, hc, _⟩ := h1'
        obtain ⟨d, _, _, _, hd', _⟩ := h2'
        obtain ⟨_, _, g1⟩ := R.name_size h1 hc
        obtain ⟨_, _, g2⟩ := R.name_size h2 hd'
        exact ⟨c, d, hc, hd', R.name_sizes hd g1 g2⟩
      | connection path m s t p q hm hst hp hq h1 h2 =>
        have h1' := h1
        have h2' := h2
        obtain ⟨c, _, _, _, hc, _⟩ := h1'
        obtain ⟨d, _, _, _, hd', _⟩ := h2'
        obtain ⟨_, _, g1⟩ := R.name_size h1 hc
        obtain ⟨_, _, g2⟩ := R.name_size h2 hd'
        obtain ⟨p', q', k1, k2, _, _, _, k3⟩ := R.valid.connections path m s t hm hst
        obtain rfl := R.denotes hp k1
        obtain rfl := R.denotes hq k2
        exact ⟨c, d, hc, hd', k3 _ _ _ _ _ _ g1 g2⟩
      | «alias» m hm _ _ ha => exact ⟨m, m, hm, hm, by rw [shape_alias (R.valid.methods _ _ hm) ha]⟩
    obtain ⟨c, d, hc, hd', hs⟩ := this
    refine ⟨fun c' hc' => ⟨d, hd', ?_⟩, fun d' hd'' => ⟨c, hc, ?_⟩⟩
    · rw [R.valid.batOne hc' hc]; exact hs
    · rw [R.valid.batOne hd'' hd']; exact hs
  | refl e => exact ⟨fun c hc => ⟨c, hc, rfl⟩, fun c hc => ⟨c, hc, rfl⟩⟩
  | symm e f _ ih =>
    refine ⟨fun c hc => ?_, fun d hd' => ?_⟩
    · obtain ⟨d, h1, h2⟩ := ih.2 c hc
      exact ⟨d, h1, h2.symm⟩
    · obtain ⟨c, h1, h2⟩ := ih.1 d hd'
      exact ⟨c, h1, h2.symm⟩
  | trans e f g _ _ ih1 ih2 =>
    refine ⟨fun c hc => ?_, fun d hd' => ?_⟩
    · obtain ⟨d, h1, h2⟩ := ih1.1 c hc
      obtain ⟨d', h3, h4⟩ := ih2.1 d h1
      exact ⟨d', h3, h2.trans h4⟩
    · obtain ⟨c, h1, h2⟩ := ih2.2 d hd'
      obtain ⟨c', h3, h4⟩ := ih1.2 c h1
      exact ⟨c', h3, h4.trans h2⟩

/-- **C111.** In a valid program in which a name declared more than once in a method is declared with the same number of elements, variables that are the same, through names, promotions, connections and aliases, directly or indirectly, have equal numbers of elements: merging
variables never gives a statement operands of other sizes than those it was written, and its shapes were checked, for. -/
theorem C111_merged_sizes (b : Body K F) (hv : ValidProgram b) (hs : b.maxObjects ≤ 63 ^ 4) (hd : ConsistentDeclarations b) (path path' : List Name) (c c' : Body K F) (hc : BAt b path c) (hc' : BAt b path' c') (x y : Nat)
    (h : SameVar b path x path' y) : (c.shapes.getD x []).size = (c'.shapes.getD y []).size := by
  obtain ⟨d, h1, h2⟩ := ((ready hv hs).same_size hd h).1 c hc
  obtain rfl := hv.batOne hc' h1
  exact h2

variable {objs : List (PObj K F)} {b : Body K F} {root : OModel} {Ls : List (List Name × Slot K F)}

theorem Setup.obj_shape (u : Setup objs b root Ls) {path : List Name} {x o : Nat} (h : Prog.Rep Ls path x o) {c : Body K F} (hc : BAt b path c) : (objects objs o).shape = c.shapes.getD x [] := by
  obtain ⟨s, hs, ho, _⟩ := h
  obtain ⟨m, _, k⟩ := u.hier.model hs
  obtain rfl := u.hier.bat_unique hc k.at_
  rw [prefix_objects k.pre (k.envHas ho).1.2, Body.shapes, ← k.inv.shapes, List.getD_eq_getElem?_getD, List.getElem?_map, ho]
  rfl

theorem Setup.node_size (u : Setup objs b root Ls) (R : Ready b) (hd : ConsistentDeclarations b) {f : Nat → Nat} {maps : NodeMaps} {done : Dict Nat Nat} (hk : Kept (objects objs) root maps done f)
    {path : List Name} {m : OModel} (hm : OAt (objects objs) root path m) {x : Nat} (hx : (objects objs x).kind = .var) (hu : m.Uses (objects objs) x) : (objects objs (f x)).shape.size = (objects objs x).shape.size := by
  obtain ⟨path', m', h1, h2, h3, h4⟩ := hk.used path m hm x hx hu
  have alone : ∀ {path m x}, OAt (objects objs) root path m → (objects objs x).kind = .var → m.Uses (objects objs) x → (∃ y, Prog.Rep Ls path y x) ∨ ∀ p, ¬ NamedVar (objects objs) root x p := by
    intro path m x hm hx hu
    rcases u.uses_cases hm hx hu with h | ⟨s, i, d, hs, c, rfl, hh, _, hcp⟩
    · exact Or.inl h
    · refine Or.inr fun p hp => ?_
      obtain ⟨path2, y, ⟨s2, hs2, hy, _⟩, _⟩ := u.hasName_of_named hp
      obtain ⟨m2, _, c2⟩ := u.hier.model hs2
      obtain ⟨_, rfl⟩ := u.hier.slot_unique hs hs2 hh (c2.envHas hy).1
      exact hcp.hidden (List.mem_of_getElem? hy)
  rcases alone hm hx hu with ⟨y, hy⟩ | h
  · rcases alone h1 h2 h3 with ⟨z, hz⟩ | h
    · have hs := u.joined_same' h4
      have hs' := Relation.EqvGen.trans _ _ _ (Relation.EqvGen.symm _ _ (u.pick_same hy)) (Relation.EqvGen.trans _ _ _ hs (u.pick_same hz))
      obtain ⟨s, hs1, _⟩ := id hy
      obtain ⟨_, _, c1⟩ := u.hier.model hs1
      obtain ⟨d, hd1, hd2⟩ := (R.same_size hd hs').1 _ c1.at_
      rw [u.obj_shape hy c1.at_, u.obj_shape hz hd1]
      exact hd2.symm
    · rw [joined_alone h (Relation.EqvGen.symm _ _ h4)]
  · rw [← joined_alone h h4]


/-- **C111, in the representation.** As in `C111_merged_sizes`; the representation is built in a session in which other objects may exist.  The node that represents a variable has the number of elements of the variable, and the nodes an operation of any model takes its arguments from
and stores its results in have the numbers of elements of the arguments and results it was made for. -/
theorem C111_nodes_have_sizes (pre : List (PObj K F)) (b : Body K F) (hv : ValidProgram b) (hs : b.maxObjects ≤ 63 ^ 4) (hd : ConsistentDeclarations b) (done : List (PObj K F)) (root : OModel) (hr : runFrom pre b = .ok (done, root))
    (objs : List (PObj K F)) (hpre : done <+: objs) (hcl : Closed objs) (hn : objs.length ≤ 63 ^ 4) (fuel : Nat) (hf : ∀ path b', BAt b path b' → (b'.locals.outputs ++ b'.locals.declared).length + objs.length ≤ fuel)
    (order : List Nat → List Nat) (ho : ∀ l x, x ∈ order l ↔ x ∈ l) (rep : Csdl.Rep) (hc : compile (objects objs) fuel order root = .ok rep) :
    ∃ (f : Nat → Nat) (node : List Name → Nat → Nat),
      (∀ path c, BAt b path c → ∀ x, c.Live x → node path x ∈ rep.graph.nodes ∧ (objects objs (node path x)).kind = .var ∧ (objects objs (node path x)).shape.size = (c.shapes.getD x []).size) ∧
      (∀ path m, OAt (objects objs) root path m → ∀ i, m.Needs (objects objs) i → (objects objs i).kind = .op → ∀ a ∈ (objects objs i).deps ++ (objects objs i).outs,
        f a ∈ rep.graph.nodes ∧ (objects objs (f a)).kind = .var ∧ (objects objs (f a)).shape.size = (objects objs a).shape.size) ∧
      ∀ (P : Power K) (den : F → List (Val K) → Nat → Val K) (σ0 : Env (Val K)), Prog.Solution P den b fun path x =>
        execAll rep.graph ⟨fun i => decide ((objects objs i).kind = .op), fun i => (objects objs i).deps.map f, opMeaning P den objs⟩ σ0 rep.sorted (node path x) := by
  have R := ready hv hs
  obtain ⟨Ls, f, node, u, hk, rfl, f1, _, h1, _, h3⟩ := means_kept pre b hv.names hv.noChain done root hr objs hpre hcl hn fuel hf order ho rep hc
  refine ⟨f, _, fun path c hb x hl => ?_, fun path m hm i hi hop a ha => ?_, fun P den σ0 => (h3 P den σ0).1⟩
  · obtain ⟨g1, g2⟩ := h1 path c hb x hl
    obtain ⟨r, m, k1, k2, k3⟩ := u.rep hb hl
    refine ⟨g1, g2, ?_⟩
    show (objects objs (f (objOf Ls path x))).shape.size = _
    rw [u.node_size R hd hk k1 k3 k2, u.obj_shape r hb]
  · have hmod := u.ok.models path m hm
    have hvar : (objects objs a).kind = .var := by
      rcases List.mem_append.1 ha with h | h
      · exact (hmod.opDeps i hi hop).1 a h
      · exact ((hmod.opDeps i hi hop).2 a h).1
    have hu : m.Uses (objects objs) a := by
      rcases List.mem_append.1 ha with h | h
      · refine Linked.uses ⟨.dep _ a hi h, i, hi, Or.inr (Or.inl h)⟩
      · exact Linked.uses (linked_out hi hop h)
    obtain ⟨g1, g2⟩ := f1 path m hm a hvar hu
    exact ⟨g1, g2, u.node_size R hd hk hm hvar hu⟩

/-! ### A program in which merged variables have different shapes -/

/-- `x = declare_variable('x', shape=(6,)); y = x * 3; register_output('y', y)` -/
def exFlatSub : Body ℚ Unit := .stmt (.declare "x".toList [6] none) (.stmt (.expr (.mulc 0 (.num 3))) (.stmt (.register "y".toList 1) .done))

/-- `x = create_input('x', shape=(2, 3)); add(sub, 'm')` -/
def exFlat : Body ℚ Unit := .stmt (.input "x".toList [2, 3] fun _ => 2) (.add false "m".toList none exFlatSub .done)

theorem exFlat_at {path : List Name} {b' : Body ℚ Unit} (h : BAt exFlat path b') : (path = [] ∧ b' = exFlat) ∨ (path = ["m".toList] ∧ b' = exFlatSub) := by
  cases h with
  | here => exact Or.inl ⟨rfl, rfl⟩
  | down h1 h2 =>
    simp only [exFlat, Body.subs, List.mem_singleton, Prod.mk.injEq] at h1
    obtain ⟨rfl, rfl, rfl⟩ := h1
    cases h2 with
    | here => exact Or.inr ⟨rfl, rfl⟩
    | down h3 _ => simp [exFlatSub, Body.subs] at h3

theorem exFlat_good : GoodNames exFlat := by
  constructor
  all_goals
    intro path b' h
    rcases exFlat_at h with ⟨_, rfl⟩ | ⟨_, rfl⟩ <;> decide

theorem exFlat_consistent : ConsistentDeclarations exFlat := by
  intro path b' hb
  rcases exFlat_at hb with ⟨_, rfl⟩ | ⟨_, rfl⟩ <;> decide

theorem exFlat_acceptable : NoChain exFlat.toModel ∧ AcceptableProgram exFlat := by
  refine acceptable_of_check exFlat exFlat_good (by decide) (by decide) exFlat_consistent ?_ (by decide +kernel)
  intro path b' hb
  rcases exFlat_at hb with ⟨_, rfl⟩ | ⟨_, rfl⟩ <;> decide

theorem exFlat_sizes {path : List Name} {c : Body ℚ Unit} (hc : BAt exFlat path c) {q : List Name} {k : VarKind} {v : VarInfo} {p : Name} (h : PromotedAs c.toModel q k v p) : v.shape.size = 6 := by
  obtain ⟨l, subs, h1, h2⟩ := promoted_at h
  obtain ⟨d, h3, e⟩ := BAt.locals h1
  rw [Body.toModel] at e
  cases e
  have key : ∀ c : Body ℚ Unit, (c = exFlat ∨ c = exFlatSub) → ∀ v ∈ c.locals.vars k, v.shape.size = 6 := by
    rintro c (rfl | rfl) <;> cases k <;> decide
  rcases exFlat_at hc with ⟨_, rfl⟩ | ⟨_, rfl⟩
  · rcases exFlat_at h3 with ⟨_, rfl⟩ | ⟨_, rfl⟩
    · exact key _ (Or.inl rfl) v h2
    · exact key _ (Or.inr rfl) v h2
  · cases h3 with
    | here => exact key _ (Or.inr rfl) v h2
    | down h4 _ => simp [exFlatSub, Body.subs] at h4

theorem exFlat_valid : ValidProgram exFlat where
  methods := exFlat_acceptable.2.methods
  names := exFlat_good
  oneSource := exFlat_acceptable.2.oneSource
  sizes := fun path c hc p k1 path1 v1 k2 path2 v2 h1 h2 _ => by rw [exFlat_sizes hc h1, exFlat_sizes hc h2]
  promotes := by
    intro path c hc n q sub hs
    rcases exFlat_at hc with ⟨_, rfl⟩ | ⟨_, rfl⟩ <;> simp [exFlat, exFlatSub, Body.subs] at hs
  connections := by
    intro path c a d hc h
    rcases exFlat_at hc with ⟨_, rfl⟩ | ⟨_, rfl⟩ <;> simp [Body.locals, exFlat, exFlatSub, Body.stmts, Stmt.count, stepConnections] at h
  oneConnection := exFlat_acceptable.2.oneConnection
  noChain := exFlat_acceptable.1
  acyclic := exFlat_acceptable.2.acyclic

/-- **C111, sizes but not shapes.** The input `x` of shape `(2, 3)` and the variable `x` of shape `(6,)` declared in a submodel are the same variable of a valid program: they have 6 elements each (`C111_merged_sizes`), but different shapes, and there is one node, of shape `(2, 3)`, which is an argument of the
operation that was made for an argument of shape `(6,)`. -/
theorem C111_shapes_may_differ : ValidProgram exFlat ∧ ConsistentDeclarations exFlat ∧ SameVar exFlat [] 0 ["m".toList] 0 ∧ exFlat.shapes.getD 0 [] = [2, 3] ∧ exFlatSub.shapes.getD 0 [] = [6] ∧
    ∃ objs root rep, runProgram exFlat = .ok (objs, root) ∧ compile (objects objs) 20 id root = .ok rep ∧ ∃ x i a, rep.graph.Edge x i ∧ (objects objs i).kind = .op ∧ (objects objs i).deps = [a] ∧
      (objects objs x).shape = [2, 3] ∧ (objects objs a).shape = [6] := by
  refine ⟨exFlat_valid, exFlat_consistent, ?_, by decide, by decide, ?_⟩
  · have hb : BAt exFlat ["m".toList] exFlatSub := .down (p := none) (by simp [exFlat, Body.subs]) (.here _)
    have hl : exFlatSub.Live 0 := .operand (y := 1) (n := 1) (s := .expr (.mulc 0 (.num 3))) (.output (name := "y".toList) (by decide)) (by simp [Body.Has, exFlatSub, Body.stmts, Stmt.count]) (by decide) (by decide) (by decide)
    refine .rel _ _ (.name "x".toList ⟨exFlat, "x".toList, .source, ⟨"x".toList, [2, 3]⟩, .here _, .input (name := "x".toList) (s := [2, 3]) (by decide), Or.inl ⟨[2, 3], Or.inl (by decide)⟩, .here (v := ⟨"x".toList, [2, 3]⟩) (by decide), rfl⟩
      ⟨exFlatSub, "x".toList, .target, ⟨"x".toList, [6]⟩, hb, hl, Or.inl ⟨[6], Or.inr (by decide)⟩, ?_, rfl⟩)
    exact .up (s := ⟨"m".toList, none, exFlatSub.toModel⟩) (List.mem_singleton.2 rfl) (.here (v := ⟨"x".toList, [6]⟩) (by decide)) (by simp [IsPromoted])
  · obtain ⟨⟨objs, root⟩, h1, h⟩ := ok_of_check (x := runProgram exFlat) (P := fun q => okCheck (compile (objects q.1) 20 id q.2) fun rep => rep.graph.edges.any fun e =>
      decide ((objects q.1 e.2).kind = .op) && (objects q.1 e.2).deps.any fun a => decide ((objects q.1 e.2).deps = [a]) && decide ((objects q.1 e.1).shape = [2, 3]) && decide ((objects q.1 a).shape = [6])) (by decide +kernel)
    obtain ⟨rep, h2, h3⟩ := ok_of_check h
    obtain ⟨⟨x, i⟩, h4, h5⟩ := List.any_eq_true.1 h3
    rw [Bool.and_eq_true] at h5
    obtain ⟨a, _, h6⟩ := List.any_eq_true.1 h5.2
    simp only [Bool.and_eq_true, decide_eq_true_eq] at h6
    exact ⟨objs, root, rep, h1, h2, x, i, a, h4, of_decide_eq_true h5.1, h6.1.1, h6.1.2, h6.2⟩

/-! ### Without the last hypothesis -/

/-- `x = declare_variable('x', shape=(2,)); y = x * 2; register_output('y', y); x2 = declare_variable('x', shape=(3,)); z = x2 * 3; register_output('z', z)` -/
def exResized : Body ℚ Unit :=
  .stmt (.declare "x".toList [2] none) (.stmt (.expr (.mulc 0 (.num 2))) (.stmt (.register "y".toList 1) (.stmt (.declare "x".toList [3] none) (.stmt (.expr (.mulc 2 (.num 3))) (.stmt (.register "z".toList 3) .done)))))

theorem exResized_valid : ValidProgram exResized := by
  have hg : GoodNames exResized := by
    constructor
    all_goals
      intro path b' h
      obtain ⟨_, rfl⟩ := oneModel_at rfl h
      decide
  have hp : ¬ exResized.Assigns := by
    rintro ⟨path, b', n, z, key, x, hb, h⟩
    obtain ⟨_, rfl⟩ := oneModel_at rfl hb
    simp [Body.Has, exResized, Body.stmts, Stmt.count] at h
  obtain ⟨⟨objs, root⟩, h1, _⟩ := ok_of_check (x := runProgram exResized) (P := fun _ => true) (by decide +kernel)
  refine C84_one_model_valid _ ⟨rfl, by decide, fun i j n m s z v a key h _ h2 => ?_⟩ ((C74_programs_run_iff exResized fun h => absurd h hp).1 ⟨objs, root, h1⟩ [] _ (.here _)) hg
  have := List.mem_of_getElem? h2
  simp [exResized, Body.stmts, Stmt.count] at this

/-- **C111, a name declared twice with different sizes.** In this valid program of one model, `x` is declared with shape `(2,)`, doubled, then declared with shape `(3,)` and tripled.  csdl keeps the last declaration only: in the representation the operation that was made for an argument with 2 elements takes
it from a node with 3 elements. -/
theorem C111_redeclared_size : ValidProgram exResized ∧ SameVar exResized [] 0 [] 2 ∧ (exResized.shapes.getD 0 []).size = 2 ∧ (exResized.shapes.getD 2 []).size = 3 ∧
    ∃ objs root rep, runProgram exResized = .ok (objs, root) ∧ compile (objects objs) 20 id root = .ok rep ∧ ∃ x i a, rep.graph.Edge x i ∧ (objects objs i).kind = .op ∧ (objects objs i).deps = [a] ∧
      (objects objs x).shape = [3] ∧ (objects objs a).shape = [2] := by
  refine ⟨exResized_valid, ?_, by decide, by decide, ?_⟩
  · have l0 : exResized.Live 0 := .operand (y := 1) (n := 1) (s := .expr (.mulc 0 (.num 2))) (.output (name := "y".toList) (by decide)) (by simp [Body.Has, exResized, Body.stmts, Stmt.count]) (by decide) (by decide) (by decide)
    have l2 : exResized.Live 2 := .operand (y := 3) (n := 3) (s := .expr (.mulc 2 (.num 3))) (.output (name := "z".toList) (by decide)) (by simp [Body.Has, exResized, Body.stmts, Stmt.count]) (by decide) (by decide) (by decide)
    exact .rel _ _ (.name "x".toList ⟨_, "x".toList, .target, ⟨"x".toList, [2]⟩, .here _, l0, Or.inl ⟨[2], Or.inr (by decide)⟩, .here (v := ⟨"x".toList, [2]⟩) (by decide), rfl⟩
      ⟨_, "x".toList, .target, ⟨"x".toList, [3]⟩, .here _, l2, Or.inl ⟨[3], Or.inr (by decide)⟩, .here (v := ⟨"x".toList, [3]⟩) (by decide), rfl⟩)
  · obtain ⟨⟨objs, root⟩, h1, h⟩ := ok_of_check (x := runProgram exResized) (P := fun q => okCheck (compile (objects q.1) 20 id q.2) fun rep => rep.graph.edges.any fun e =>
      decide ((objects q.1 e.2).kind = .op) && (objects q.1 e.2).deps.any fun a => decide ((objects q.1 e.2).deps = [a]) && decide ((objects q.1 e.1).shape = [3]) && decide ((objects q.1 a).shape = [2])) (by decide +kernel)
    obtain ⟨rep, h2, h3⟩ := ok_of_check h
    obtain ⟨⟨x, i⟩, h4, h5⟩ := List.any_eq_true.1 h3
    rw [Bool.and_eq_true] at h5
    obtain ⟨a, _, h6⟩ := List.any_eq_true.1 h5.2
    simp only [Bool.and_eq_true, decide_eq_true_eq] at h6
    exact ⟨objs, root, rep, h1, h2, x, i, a, h4, of_decide_eq_true h5.1, h6.1.1, h6.1.2, h6.2⟩

end Csdl.Prog
