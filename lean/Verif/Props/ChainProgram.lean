import Verif.Proofs.ChainProgram
import Verif.Props.Reorder
/-!
# C95 for programs
-/
namespace Csdl.Prog
open Csdl Csdl.Arith
variable {K F : Type} [Field K] [DecidableEq K]
variable {objs : List (PObj K F)} {b : Body K F} {root : OModel} {Ls : List (List Name × Slot K F)}
variable {P : Power K} {den : F → List (Val K) → Nat → Val K}

theorem SameOwn.of_rep (u : Setup objs b root Ls) {path path' : List Name} {x y o : Nat} (h1 : Rep Ls path x o) (h2 : Rep Ls path' y o) : SameOwn b (path, x) (path', y) := by
  obtain ⟨s, hs, hx, hl⟩ := h1
  obtain ⟨s', hs', hy, hl'⟩ := h2
  obtain ⟨m, hm, c⟩ := u.hier.model hs
  obtain ⟨m', hm', c'⟩ := u.hier.model hs'
  obtain ⟨rfl, rfl⟩ := u.hier.slot_unique hs hs' (c.envHas hx).1 (c'.envHas hy).1
  exact .alias s.body c.at_ hl hl' ((c.alias_iff (lt_of_some hx)).2 (hx.trans hy.symm))

/-- **C95, for programs.** Connections may form chains, cycles or several connections to one target: no condition on them.  Let a program (a hierarchy of `define` methods with good names) run without error, create no more objects than there are short
automatic names, and let the representation of its main model be built without error.  Then every variable `x` that matters has a node `own x` with its own value and a node `reads x` whose value the statements using `x` get, and for every
meaning `den` of the functions and all initial values `σ0`, executing the nodes of the graph in the order of the representation gives values of which the program is true: results of statements are computed from what is read, and what is
read of a variable named `p` is the value of the variable to which the walk through all connections, in the order in which they are collected, leads from `p`.  Variables that no statement computes keep their initial values, and the solution is the only one
with these values. -/
theorem C95_programs (b : Body K F) (hg : GoodNames b) (objs : List (PObj K F)) (root : OModel) (hr : runProgram b = .ok (objs, root)) (hn : objs.length ≤ 63 ^ 4)
    (fuel : Nat) (hf : ∀ path b', BAt b path b' → (b'.locals.outputs ++ b'.locals.declared).length + objs.length ≤ fuel)
    (order : List Nat → List Nat) (ho : ∀ l x, x ∈ order l ↔ x ∈ l) (rep : Csdl.Rep) (hc : compile (objects objs) fuel order root = .ok rep) :
    ∃ (f : Nat → Nat) (own reads : List Name → Nat → Nat),
      (∀ path b', BAt b path b' → ∀ x, b'.Live x → reads path x ∈ rep.graph.nodes ∧ (objects objs (reads path x)).kind = .var) ∧
      ∀ (P : Power K) (den : F → List (Val K) → Nat → Val K) (σ0 : Env (Val K)),
        ChainSolution P den b
          (fun path x => execAll rep.graph ⟨fun i => decide ((objects objs i).kind = .op), fun i => (objects objs i).deps.map f, opMeaning P den objs⟩ σ0 rep.sorted (own path x))
          (fun path x => execAll rep.graph ⟨fun i => decide ((objects objs i).kind = .op), fun i => (objects objs i).deps.map f, opMeaning P den objs⟩ σ0 rep.sorted (reads path x)) ∧
        (∀ path x, GivenOwn b path x →
          execAll rep.graph ⟨fun i => decide ((objects objs i).kind = .op), fun i => (objects objs i).deps.map f, opMeaning P den objs⟩ σ0 rep.sorted (own path x) = σ0 (own path x)) ∧
        ∀ τ ρ, ChainSolution P den b τ ρ → (∀ path x, GivenOwn b path x → τ path x = σ0 (own path x)) → ∀ path b', BAt b path b' → ∀ x, b'.Live x →
          τ path x = execAll rep.graph ⟨fun i => decide ((objects objs i).kind = .op), fun i => (objects objs i).deps.map f, opMeaning P den objs⟩ σ0 rep.sorted (own path x) ∧
          ρ path x = execAll rep.graph ⟨fun i => decide ((objects objs i).kind = .op), fun i => (objects objs i).deps.map f, opMeaning P den objs⟩ σ0 rep.sorted (reads path x) := by
  obtain ⟨Ls, hh, _⟩ := runFrom_hier hr (all := objs) List.prefix_rfl
  have hcl : Closed objs := runFrom_closed (by simp [Closed]) hr
  have u : Setup objs b root Ls := ⟨hh, hg, hcl, hn⟩
  have hf' : ∀ path m, OAt (objects objs) root path m → (m.outputs ++ m.declared).length + objs.length ≤ fuel := by
    intro path m hm
    obtain ⟨s, hs, c⟩ := hh.ctx hm
    have := hf path s.body c.at_
    have e1 : s.body.locals.outputs.length = m.outputs.length := by
      rw [c.mat.outputs, c.inv.outputs.length_eq]
      simp [Body.locals]
    have e2 : s.body.locals.declared.length = m.declared.length := by
      rw [c.mat.declared, c.inv.declared.length_eq]
      simp [Body.locals]
    simp only [List.length_append] at this ⊢
    omega
  obtain ⟨own, f, f1, f2, f3, f4, f5, f6⟩ := C95_objects_chains (objects objs) objs.length fuel root u.ok hf' order ho rep hc
  -- the results of operations have edges to their nodes
  have hout : ∀ path m i v, OAt (objects objs) root path m → m.Needs (objects objs) i → (objects objs i).kind = .op → v ∈ (objects objs i).outs → (objects objs v).kind = .var → m.Uses (objects objs) v →
      ∃ j, rep.graph.Edge j (own v) := by
    intro path m i v hm hi hk hv hkv hu
    by_contra hno
    push Not at hno
    obtain ⟨s1, s2, _⟩ := f6 Bool (fun _ _ _ => true) (fun _ => false)
    have e1 := s1.ops path m hm i hi hk v hv
    have e2 := s2 path m hm v hkv hu hno
    rw [e1] at e2
    cases e2
  have hrep : ∀ {path b' x}, BAt b path b' → b'.Live x → Rep Ls path x (objOf Ls path x) := fun hb hl => (u.rep hb hl).1
  have hown : ∀ {q r : List Name × Nat}, Relation.EqvGen (SameOwn b) q r → own (objOf Ls q.1 q.2) = own (objOf Ls r.1 r.2) := by
    intro q r hqr
    induction hqr with
    | rel q r h =>
      cases h with
      | name p h1 h2 => exact f3 _ _ p (u.rep_of_hasName h1).2 (u.rep_of_hasName h2).2
      | @«alias» path x y b' hb hl hl' hx =>
        obtain ⟨sl, hs, rfl⟩ := u.hier.ofBody path b' hb
        obtain ⟨m, hm, c⟩ := u.hier.model hs
        obtain ⟨o, ho, _⟩ := c.uses_of_live (u.ok.models path m hm) hl
        rw [u.hier.objOf' hs ho, u.hier.objOf' hs (((c.alias_iff (lt_of_some ho)).1 hx).symm.trans ho)]
    | refl q => rfl
    | symm q r _ ih => exact ih.symm
    | trans q r t _ _ ih1 ih2 => exact ih1.trans ih2
  have hgiven : ∀ path b' x, BAt b path b' → b'.Live x → (∀ i, ¬ rep.graph.Edge i (own (objOf Ls path x))) → GivenOwn b path x := by
    intro path b' x hb hl hno
    refine ⟨⟨b', hb, hl⟩, fun path' b'' n t y hb' ht hcm h1 h2 hl' hs => ?_⟩
    obtain ⟨m, i, hm, hi, hk, hv⟩ := u.computed_op hb' ht hcm h1 h2 hl'
    obtain ⟨_, m2, g1, g2, g3⟩ := u.rep hb' hl'
    obtain ⟨s, hs', c⟩ := hh.ctx hm
    obtain ⟨j, hj⟩ := hout path' m i _ hm hi hk hv g3 (Linked.uses (linked_out hi hk hv))
    rw [← hown hs] at hj
    exact hno j hj
  have hgiven' : ∀ path x, GivenOwn b path x → ∀ i, ¬ rep.graph.Edge i (own (objOf Ls path x)) := by
    rintro path x ⟨⟨b', hb, hl⟩, hnc⟩ i hi
    obtain ⟨r1, m1, g1, g2, g3⟩ := u.rep hb hl
    -- the node of `x` is the object of a variable that is the same
    have hcase : (∃ path2 z, Rep Ls path2 z (own (objOf Ls path x)) ∧ Relation.EqvGen (SameOwn b) (path, x) (path2, z)) := by
      by_cases hnm : ∃ p, NamedVar (objects objs) root (objOf Ls path x) p
      · obtain ⟨p, hp⟩ := hnm
        obtain ⟨path1, y, ry, ny⟩ := u.hasName_of_named hp
        obtain ⟨path2, z, rz, nz⟩ := u.hasName_of_named (f2 _ p hp).1
        exact ⟨path2, z, rz, .trans _ _ _ (.rel _ _ (SameOwn.of_rep u r1 ry)) (.rel _ _ (.name p ny nz))⟩
      · push Not at hnm
        rw [(f4 path m1 g1 _ g3 g2 hnm).1]
        exact ⟨path, x, r1, .refl _⟩
    obtain ⟨path2, z, rz, hz⟩ := hcase
    obtain ⟨s2, hs2, hz2, hlz⟩ := id rz
    obtain ⟨m2, hm2, c2⟩ := u.hier.model hs2
    obtain ⟨path3, m3, hm3, hni, hk, hv⟩ := (f5 i _ (c2.envHas hz2).2).1 hi
    obtain ⟨s3, hs3, c3⟩ := hh.ctx hm3
    have hvh := (c3.op (c3.needs hni).1 hk).2.1 _ hv
    obtain ⟨rfl, rfl⟩ := u.hier.slot_unique hs2 hs3 (c2.envHas hz2).1 hvh.1
    obtain ⟨_, _, ⟨n, t, j, h1, h2, h4, h5, h6⟩ | ⟨z', name, shape, val, es, g⟩⟩ := c2.computed hz2 (i := i) (by rw [hvh.2.2.2]; simp)
    · have hlj := h6 hlz
      obtain ⟨_, _, _, _, hl3, _⟩ := c2.opOf h1 h2
      refine hnc path2 s2.body n t (n + j) c2.at_ h1 (lowered_facts hl3).2.2.2 (by omega) (by omega) hlj ?_
      exact .trans _ _ _ hz (.rel _ _ (SameOwn.of_rep u rz ⟨s2, hs2, h5, hlj⟩))
    · refine hnc path2 s2.body z' _ z' c2.at_ g.stmt trivial (Nat.le_refl _) (by simp [Stmt.count]) g.live ?_
      exact .trans _ _ _ hz (.rel _ _ (SameOwn.of_rep u rz ⟨s2, hs2, g.var, g.live⟩))
  refine ⟨f, fun path x => own (objOf Ls path x), fun path x => f (objOf Ls path x), ?_, ?_⟩
  · intro path b' hb x hl
    obtain ⟨_, m, h1, h2, h3⟩ := u.rep hb hl
    exact f1 path m h1 _ h3 h2
  · intro P den σ0
    obtain ⟨s1, s2, s3⟩ := f6 (Val K) (opMeaning P den objs) σ0
    refine ⟨u.chain_sound s1, ?_, ?_⟩
    · intro path x hgv
      obtain ⟨⟨b', hb, hl⟩, _⟩ := id hgv
      obtain ⟨_, m, h1, h2, h3⟩ := u.rep hb hl
      exact s2 path m h1 _ h3 h2 (hgiven' path x hgv)
    · intro τ ρ hρ hρ0 path b' hb x hl
      obtain ⟨r1, m, h1, h2, h3⟩ := u.rep hb hl
      rw [← u.ownValues_rep hρ r1, ← u.readValues_rep hρ r1]
      refine s3 _ _ (u.chain_complete hρ) ?_ path m h1 _ h3 h2
      intro path2 m2 hm2 o hk huo hne
      rcases u.uses_cases hm2 hk huo with ⟨y, r⟩ | ⟨s2, i, d, hs2, c2, rfl, hh2, hni, hcp⟩
      · rw [u.ownValues_rep hρ r]
        obtain ⟨s2, hs2, hy, hly⟩ := id r
        have e := r.objOf u
        rw [hρ0 path2 y (hgiven path2 s2.body y (hh.toBody _ hs2) hly (by rw [e]; exact hne))]
        show σ0 (own (objOf Ls path2 y)) = σ0 (own o)
        rw [e]
      · obtain ⟨a1, a2, a3, a4, _⟩ := c2.copyOp hcp
        obtain ⟨j, hj⟩ := hout path2 m2 i (i + 1) hm2 hni a1 (by rw [a4]; simp) hk huo
        exact absurd hj (hne j)

/-! ### Example: `connect('x', 'y')` and then `connect('y', 'z')` -/

theorem exChainB_at {path : List Name} {b' : Body ℚ Unit} (h : BAt exChainB path b') : path = [] ∧ b' = exChainB := by
  cases h with
  | here => exact ⟨rfl, rfl⟩
  | down h1 h2 => simp [exChainB, Body.subs] at h1

theorem exChainB_good : GoodNames exChainB := by
  constructor <;>
  · intro path b' h
    obtain ⟨_, rfl⟩ := exChainB_at h
    decide

theorem exChainB_vars : PromotedAs exChainB.toModel [] .source ⟨"x".toList, [1]⟩ "x".toList ∧ PromotedAs exChainB.toModel [] .source ⟨"y".toList, [1]⟩ "y".toList ∧
    PromotedAs exChainB.toModel [] .target ⟨"z".toList, [1]⟩ "z".toList :=
  ⟨.here (v := ⟨"x".toList, [1]⟩) (by decide), .here (v := ⟨"y".toList, [1]⟩) (by decide), .here (v := ⟨"z".toList, [1]⟩) (by decide)⟩

theorem exChainB_live : exChainB.Live 2 ∧ exChainB.Live 3 := by
  have h3 : exChainB.Live 3 := .output (name := "r".toList) (by decide)
  exact ⟨.operand (n := 3) (s := .expr (.mulc 2 (.num 2))) h3 (by simp [Body.Has, exChainB, Body.stmts, Stmt.count]) (by decide) (by decide) (by decide), h3⟩

theorem exChainB_names : HasName exChainB [] 0 "x".toList ∧ HasName exChainB [] 1 "y".toList ∧ HasName exChainB [] 2 "z".toList := by
  obtain ⟨h1, h2, h3⟩ := exChainB_vars
  exact ⟨⟨exChainB, "x".toList, _, _, .here _, .input (name := "x".toList) (s := [1]) (by decide), Or.inl ⟨[1], Or.inl (by decide)⟩, h1, rfl⟩,
    ⟨exChainB, "y".toList, _, _, .here _, .input (name := "y".toList) (s := [1]) (by decide), Or.inl ⟨[1], Or.inl (by decide)⟩, h2, rfl⟩,
    ⟨exChainB, "z".toList, _, _, .here _, exChainB_live.1, Or.inl ⟨[1], Or.inr (by decide)⟩, h3, rfl⟩⟩

/-- `z` is read as `y`, and `y` as `x` -/
theorem exChainB_reads : ReadsAs exChainB.toModel "z".toList "y".toList ∧ ReadsAs exChainB.toModel "y".toList "x".toList := by
  obtain ⟨r, hr, _⟩ := ok_of_check (x := resolve exChainB.toModel none) (P := fun _ => true) (by decide)
  obtain ⟨h1, h2, h3⟩ := exChainB_vars
  have hiss : issuedPost Local.connections exChainB.toModel = [([], "x".toList, "y".toList), ([], "y".toList, "z".toList)] := by decide
  have hu := C09_denotation_unique exChainB.toModel (dotFree_of (by decide)) r hr
  unfold ReadsAs
  rw [hiss]
  constructor
  · refine .other (fun h => ?_) (.target (.promoted h3) (.promoted h2) (.stop _))
    have := hu _ _ _ h (Denotes.promoted h2)
    exact absurd this (by decide)
  · refine .target (.promoted h2) (.promoted h1) (.other (fun h => ?_) (.stop _))
    have := hu _ _ _ h (Denotes.promoted h3)
    exact absurd this (by decide)

/-- all hypotheses of C95 hold of the example, whose connections form a chain; by C95, `r` is `2 * z` computed with the value of `y` itself, although the statements that use `y` would get the value of `x` -/
example : ∃ objs root rep, GoodNames exChainB ∧ runProgram exChainB = .ok (objs, root) ∧ objs.length ≤ 63 ^ 4 ∧
    (∀ path b', BAt exChainB path b' → (b'.locals.outputs ++ b'.locals.declared).length + objs.length ≤ 20) ∧ compile (objects objs) 20 id root = .ok rep ∧
    ∃ (f : Nat → Nat) (own reads : List Name → Nat → Nat), ∀ (P : Power ℚ) (den : Unit → List (Val ℚ) → Nat → Val ℚ) (σ0 : Env (Val ℚ)) (e : List Nat),
      execAll rep.graph ⟨fun i => decide ((objects objs i).kind = .op), fun i => (objects objs i).deps.map f, opMeaning P den objs⟩ σ0 rep.sorted (own [] 3) e =
        execAll rep.graph ⟨fun i => decide ((objects objs i).kind = .op), fun i => (objects objs i).deps.map f, opMeaning P den objs⟩ σ0 rep.sorted (own [] 1) e * 2 ∧
      execAll rep.graph ⟨fun i => decide ((objects objs i).kind = .op), fun i => (objects objs i).deps.map f, opMeaning P den objs⟩ σ0 rep.sorted (reads [] 1) =
        execAll rep.graph ⟨fun i => decide ((objects objs i).kind = .op), fun i => (objects objs i).deps.map f, opMeaning P den objs⟩ σ0 rep.sorted (own [] 0) := by
  obtain ⟨⟨objs, root⟩, hr, h⟩ := ok_of_check (x := runProgram exChainB) (P := fun q => decide (q.1.length = 5) && okCheck (compile (objects q.1) 20 id q.2) fun _ => true) (by decide +kernel)
  rw [Bool.and_eq_true] at h
  obtain ⟨rep, hc, _⟩ := ok_of_check h.2
  have hl : objs.length = 5 := of_decide_eq_true h.1
  have hf : ∀ path b', BAt exChainB path b' → (b'.locals.outputs ++ b'.locals.declared).length + objs.length ≤ 20 := by
    intro path b' h
    rw [hl]
    obtain ⟨_, rfl⟩ := exChainB_at h
    decide
  obtain ⟨f, own, reads, _, h3⟩ := C95_programs exChainB exChainB_good objs root hr (by rw [hl]; decide) 20 hf id (fun _ _ => Iff.rfl) rep hc
  refine ⟨objs, root, rep, exChainB_good, hr, by rw [hl]; decide, hf, hc, f, own, reads, fun P den σ0 e => ?_⟩
  obtain ⟨sol, _, _⟩ := h3 P den σ0
  have e3 := sol.expr [] exChainB (.here _) 3 (.mulc 2 (.num 2)) (by simp [Body.Has, exChainB, Body.stmts, Stmt.count]) exChainB_live.2 (by simp)
  have ez := sol.reads [] 2 [] 1 _ _ exChainB_names.2.2 exChainB_reads.1 exChainB_names.2.1
  have ey := sol.reads [] 1 [] 0 _ _ exChainB_names.2.1 exChainB_reads.2 exChainB_names.1
  refine ⟨?_, ey⟩
  rw [show _ = _ from congrFun e3 e, ← ez]
  rfl

end Csdl.Prog
