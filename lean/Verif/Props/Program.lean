import Verif.Proofs.Program9
import Verif.Props.Compile
/-
C73: programs mean what they say.
-/
namespace Csdl.Prog
open Csdl Csdl.Arith
variable {K F : Type} [Field K] [DecidableEq K]
variable {objs : List (PObj K F)} {b : Body K F} {root : OModel} {Ls : List (List Name × Slot K F)}

/-- a variable without a promoted name is the same only as itself -/
theorem joined_alone {H : Objs} {root : OModel} {v w : Nat} (hv : ∀ p, ¬ NamedVar H root v p) (h : Relation.EqvGen (Joined H root) v w) : v = w := by
  have key : ∀ a c, Relation.EqvGen (Joined H root) a c → (a = v ↔ c = v) := by
    intro a c h
    induction h with
    | rel a c h =>
      cases h with
      | name p h1 h2 => exact ⟨fun e => absurd (e ▸ h1) (hv p), fun e => absurd (e ▸ h2) (hv p)⟩
      | connection path m s t p q hm hst hp hq h1 h2 => exact ⟨fun e => absurd (e ▸ h1) (hv p), fun e => absurd (e ▸ h2) (hv q)⟩
    | refl a => exact Iff.rfl
    | symm a c _ ih => exact ih.symm
    | trans a c d _ _ ih1 ih2 => exact ih1.trans ih2
  exact ((key v w h).1 rfl).symm

/-- variables in use: variables of the program that matter, or results of copies -/
theorem Setup.uses_cases (u : Setup objs b root Ls) {path : List Name} {m : OModel} (hm : OAt (objects objs) root path m) {o : Nat} (hk : (objects objs o).kind = .var) (hu : m.Uses (objects objs) o) :
    (∃ x, Rep Ls path x o) ∨ ∃ s i d, (path, s) ∈ Ls ∧ Ctx objs b path s m ∧ o = i + 1 ∧ s.Has (i + 1) ∧ m.Needs (objects objs) i ∧ CopyOp s.st.objs s.st.env i d := by
  obtain ⟨s, hs, c⟩ := u.hier.ctx hm
  by_cases hi : o ∈ m.inputs
  · obtain ⟨x, h1, _, h2, _⟩ := c.var_named (o := o) (by simp [OModel.vars, hi])
    obtain ⟨nm, sh, h3⟩ := h2 hi
    exact Or.inl ⟨x, s, hs, h1, .input h3⟩
  · have hn : m.Needs (objects objs) o := hu.resolve_left hi |>.1
    cases c.live hn with
    | declared hd =>
      obtain ⟨x, h1, h2, _⟩ := c.var_named (o := o) (by simp [OModel.vars, hd])
      exact Or.inl ⟨x, s, hs, h1, c.live_declared (u.ok.models path m hm) u.good u.size hd hu h2⟩
    | var x h1 hl => exact Or.inl ⟨x, s, hs, h1, hl⟩
    | copy i d x h1 hc h2 hl =>
      subst h1
      refine Or.inr ⟨s, i, d, hs, c, rfl, (c.needs hn).1, ?_, hc⟩
      exact .dep (i + 1) i hn (by show i ∈ (objects objs (i + 1)).deps; rw [(c.copyOp hc).2.2.2.2.1]; simp)
    | op n t x h1 h2 h3 h4 hl =>
      obtain ⟨k, base, a1, _⟩ := c.opOf h1 h2
      rw [a1] at hk; cases hk
    | copyOp d x hc h1 hl =>
      rw [(c.copyOp hc).1] at hk; cases hk
    | asm y v name shape val es g => rw [g.op] at hk; cases hk

/-- a variable that a statement computes is a result of an operation of the model -/
theorem Setup.computed_op (u : Setup objs b root Ls) {path : List Name} {b' : Body K F} (hb : BAt b path b') {n : Nat} {t : Stmt K F} (ht : b'.Has n t) (hc : t.Computes) {y : Nat} (h1 : n ≤ y)
    (h2 : y < n + t.count) (hl : b'.Live y) : ∃ m i, OAt (objects objs) root path m ∧ m.Needs (objects objs) i ∧ (objects objs i).kind = .op ∧ objOf Ls path y ∈ (objects objs i).outs := by
  obtain ⟨s, hs, rfl⟩ := u.hier.ofBody path b' hb
  obtain ⟨m, hm, c⟩ := u.hier.model hs
  cases c.inv.stmts n t ht with
  | input => exact hc.elim
  | declare => exact hc.elim
  | register => exact hc.elim
  | connect => exact hc.elim
  | assign => exact hc.elim
  | output =>
    obtain ⟨i, v, es, g⟩ := c.asm_of_output ht
    obtain rfl : y = n := by simp only [Stmt.count] at h2; omega
    refine ⟨m, i, hm, g.needs c, g.op, ?_⟩
    rw [u.hier.objOf' hs g.var, g.outs]
    simp
  | «alias» a1 =>
    obtain ⟨x, rfl⟩ := lower_none a1
    exact hc.elim
  | op i hi =>
    obtain ⟨k, base, a1, a2, a3, a4, a5, a6, a7, a8⟩ := c.opOf ht hi
    have hj : y - n < t.count := by omega
    obtain ⟨v, v1, he⟩ := a5 (y - n) hj
    rw [show n + (y - n) = y by omega] at he
    have hmem := List.mem_of_getElem? v1
    obtain ⟨o, e1, e2⟩ := c.uses_of_live (u.ok.models path m hm) hl
    rw [he] at e1
    cases e1
    have hres := (c.op (c.opOf_has hi hj) a1).2.1 _ hmem
    have hv := c.uses_needs e2 (by rw [hres.2.2.1]; decide)
    refine ⟨m, i, hm, .dep _ i hv (by show i ∈ (objects objs _).deps; rw [hres.2.2.2]; simp), a1, ?_⟩
    rw [u.hier.objOf' hs he]
    exact hmem

/-- `means_in_session`, and which objects represent variables -/
theorem means_kept (pre : List (PObj K F)) (b : Body K F) (hg : GoodNames b) (hno : NoChain b.toModel) (done : List (PObj K F)) (root : OModel) (hr : runFrom pre b = .ok (done, root))
    (objs : List (PObj K F)) (hpre : done <+: objs) (hcl : Closed objs) (hn : objs.length ≤ 63 ^ 4) (fuel : Nat) (hf : ∀ path b', BAt b path b' → (b'.locals.outputs ++ b'.locals.declared).length + objs.length ≤ fuel)
    (order : List Nat → List Nat) (ho : ∀ l x, x ∈ order l ↔ x ∈ l) (rep : Csdl.Rep) (hc : compile (objects objs) fuel order root = .ok rep) :
    ∃ (Ls : List (List Name × Slot K F)) (f : Nat → Nat) (node : List Name → Nat → Nat), Setup objs b root Ls ∧ Kept (objects objs) root rep.maps rep.done f ∧ node = (fun path x => f (objOf Ls path x)) ∧
      (∀ path m, OAt (objects objs) root path m → ∀ x, (objects objs x).kind = .var → m.Uses (objects objs) x → f x ∈ rep.graph.nodes ∧ (objects objs (f x)).kind = .var) ∧
      (∀ path m path' m', OAt (objects objs) root path m → OAt (objects objs) root path' m' → ∀ x y, (objects objs x).kind = .var → m.Uses (objects objs) x → (objects objs y).kind = .var → m'.Uses (objects objs) y →
        (f x = f y ↔ Relation.EqvGen (Joined (objects objs) root) x y)) ∧
      (∀ path b', BAt b path b' → ∀ x, b'.Live x → node path x ∈ rep.graph.nodes ∧ (objects objs (node path x)).kind = .var) ∧
      (∀ path b' path' b'', BAt b path b' → BAt b path' b'' → ∀ x y, b'.Live x → b''.Live y → (node path x = node path' y ↔ Relation.EqvGen (Same b) (path, x) (path', y))) ∧
      ∀ (P : Power K) (den : F → List (Val K) → Nat → Val K) (σ0 : Env (Val K)),
        Solution P den b (fun path x =>
          execAll rep.graph ⟨fun i => decide ((objects objs i).kind = .op), fun i => (objects objs i).deps.map f, opMeaning P den objs⟩ σ0 rep.sorted (node path x)) ∧
        (∀ path x, GivenVar b path x →
          execAll rep.graph ⟨fun i => decide ((objects objs i).kind = .op), fun i => (objects objs i).deps.map f, opMeaning P den objs⟩ σ0 rep.sorted (node path x) = σ0 (node path x)) ∧
        ∀ ρ, Solution P den b ρ → (∀ path x, GivenVar b path x → ρ path x = σ0 (node path x)) → ∀ path b', BAt b path b' → ∀ x, b'.Live x →
          ρ path x = execAll rep.graph ⟨fun i => decide ((objects objs i).kind = .op), fun i => (objects objs i).deps.map f, opMeaning P den objs⟩ σ0 rep.sorted (node path x) := by
  obtain ⟨Ls, hh, _⟩ := runFrom_hier hr hpre
  have u : Setup objs b root Ls := ⟨hh, hg, hcl, hn⟩
  have hf' : ∀ path m, OAt (objects objs) root path m → (m.outputs ++ m.declared).length + objs.length ≤ fuel := by
    intro path m hm
    obtain ⟨s, hs, c⟩ := hh.ctx hm
    have := hf path s.body c.at_
    have e1 : s.body.locals.outputs.length = m.outputs.length := by
      rw [c.mat.outputs, c.inv.outputs.length_eq]
      simp [Body.locals]
    have e2 : s.body.locals.declared.length = m.declared.length := by
      rw [c.mat.declared, c.inv.declared.length_eq]
      simp [Body.locals]
    simp only [List.length_append] at this ⊢
    omega
  obtain ⟨f, hk, f1, f2, f3, f4⟩ := objects_to_values (objects objs) objs.length fuel root u.ok hf' order ho (by rw [hh.names]; exact hno) rep hc
  -- variables the program computes
  have hedge : ∀ path b' n t y, BAt b path b' → b'.Has n t → t.Computes → n ≤ y → y < n + t.count → b'.Live y → ∃ i, rep.graph.Edge i (f (objOf Ls path y)) := by
    intro path b' n t y hb ht hcm h1 h2 hl
    obtain ⟨m, i, hm, hi, hk, hv⟩ := u.computed_op hb ht hcm h1 h2 hl
    obtain ⟨_, m2, g1, g2, g3⟩ := u.rep hb hl
    exact ⟨i, (f3 i _ (f1 path m2 g1 _ g3 g2).2).2 ⟨path, m, hm, hi, hk, _, hv, rfl⟩⟩
  have hgiven : ∀ path b' x, BAt b path b' → b'.Live x → (∀ i, ¬ rep.graph.Edge i (f (objOf Ls path x))) → GivenVar b path x := by
    intro path b' x hb hl hno
    refine ⟨⟨b', hb, hl⟩, fun path' b'' n t y hb' ht hcm h1 h2 hl' hs => ?_⟩
    obtain ⟨i, hi⟩ := hedge path' b'' n t y hb' ht hcm h1 h2 hl'
    obtain ⟨_, m1, g1, g2, g3⟩ := u.rep hb hl
    obtain ⟨_, m2, k1, k2, k3⟩ := u.rep hb' hl'
    rw [← (f2 path m1 path' m2 g1 k1 _ _ g3 g2 k3 k2).2 (u.same_joined hs)] at hi
    exact hno i hi
  have hgiven' : ∀ path x, GivenVar b path x → ∀ i, ¬ rep.graph.Edge i (f (objOf Ls path x)) := by
    rintro path x ⟨⟨b', hb, hl⟩, hnc⟩ i hi
    obtain ⟨r1, m1, g1, g2, g3⟩ := u.rep hb hl
    obtain ⟨path2, m2, hm2, hni, hk, v, hv, hfv⟩ := (f3 i _ (f1 path m1 g1 _ g3 g2).2).1 hi
    obtain ⟨s, hs, c⟩ := hh.ctx hm2
    have hvh := (c.op (c.needs hni).1 hk).2.1 v hv
    have huv : m2.Uses (objects objs) v := Linked.uses (linked_out hni hk hv)
    have hj := (f2 path2 m2 path m1 hm2 g1 v _ hvh.2.1 huv g3 g2).1 hfv
    rcases u.uses_cases hm2 hvh.2.1 huv with ⟨y, s2, hs2, hy, hly⟩ | ⟨s2, o, d, hs2, c2, rfl, hh2, _, hcp⟩
    · obtain ⟨m3, hm3, c3⟩ := hh.model hs2
      obtain ⟨_, _, ⟨n, t, j, h1, h2, h4, h5, h6⟩ | ⟨z, name, shape, val, es, g⟩⟩ := c3.computed hy (i := i) (by rw [hvh.2.2.2]; simp)
      · have hlj := h6 hly
        obtain ⟨_, _, _, _, hl3, _⟩ := c3.opOf h1 h2
        refine hnc path2 s2.body n t (n + j) c3.at_ h1 (lowered_facts hl3).2.2.2 (by omega) (by omega) hlj ?_
        exact .symm _ _ (.trans _ _ _ (.symm _ _ (u.pick_same ⟨s2, hs2, h5, hlj⟩)) (.trans _ _ _ (u.joined_same' hj) (u.pick_same r1)))
      · refine hnc path2 s2.body z _ z c3.at_ g.stmt trivial (Nat.le_refl _) (by simp [Stmt.count]) g.live ?_
        exact .symm _ _ (.trans _ _ _ (.symm _ _ (u.pick_same ⟨s2, hs2, g.var, g.live⟩)) (.trans _ _ _ (u.joined_same' hj) (u.pick_same r1)))
    · have hnn : ∀ p, ¬ NamedVar (objects objs) root (o + 1) p := by
        intro p hp
        obtain ⟨path3, z, hz, _⟩ := u.hasName_of_named hp
        exact u.copy_hidden c2 hs2 hh2 hcp (path3, z) hz
      have e := joined_alone hnn hj
      rw [← e] at r1
      exact u.copy_hidden c2 hs2 hh2 hcp (path, x) r1
  refine ⟨Ls, f, fun path x => f (objOf Ls path x), u, hk, rfl, f1, f2, ?_, ?_, ?_⟩
  · intro path b' hb x hl
    obtain ⟨_, m, h1, h2, h3⟩ := u.rep hb hl
    exact f1 path m h1 _ h3 h2
  · intro path b' path' b'' hb hb' x y hl hl'
    obtain ⟨r1, m, h1, h2, h3⟩ := u.rep hb hl
    obtain ⟨r2, m', k1, k2, k3⟩ := u.rep hb' hl'
    rw [f2 path m path' m' h1 k1 _ _ h3 h2 k3 k2]
    exact ⟨fun h => .trans _ _ _ (.symm _ _ (u.pick_same r1)) (.trans _ _ _ (u.joined_same' h) (u.pick_same r2)), fun h => u.same_joined h⟩
  · intro P den σ0
    obtain ⟨s1, s2, s3⟩ := f4 (Val K) (opMeaning P den objs) σ0
    refine ⟨u.sound s1, ?_, ?_⟩
    · intro path x hgv
      obtain ⟨⟨b', hb, hl⟩, _⟩ := id hgv
      obtain ⟨_, m, h1, h2, h3⟩ := u.rep hb hl
      exact s2 path m h1 _ h3 h2 (hgiven' path x hgv)
    · intro ρ hρ hρ0 path b' hb x hl
      obtain ⟨r1, m, h1, h2, h3⟩ := u.rep hb hl
      rw [← u.objValues_rep hρ r1]
      refine s3 _ (u.complete hρ) ?_ path m h1 _ h3 h2
      intro path2 m2 hm2 o hk huo hne
      rcases u.uses_cases hm2 hk huo with ⟨y, r⟩ | ⟨s2, i, d, hs2, c2, rfl, hh2, hni, hcp⟩
      · rw [u.objValues_rep hρ r]
        obtain ⟨s2, hs2, hy, hly⟩ := id r
        have e := r.objOf u
        rw [hρ0 path2 y (hgiven path2 s2.body y (hh.toBody _ hs2) hly (by rw [e]; exact hne))]; show σ0 (f (objOf Ls path2 y)) = σ0 (f o); rw [e]
      · obtain ⟨a1, a2, a3, a4, _⟩ := c2.copyOp hcp
        exact absurd ((f3 i _ (f1 path2 m2 hm2 _ hk huo).2).2 ⟨path2, m2, hm2, hni, a1, i + 1, by rw [a4]; simp, rfl⟩) (hne i)

/-- C73 for a program that runs in a session in which other objects exist: `pre` were created before it, `done` are all objects when it has run, `objs` all objects when the representation is built.  Let a program (a hierarchy of `define` methods with good names) run without error, create no more objects than there are short automatic names, and let the representation of its main model
be built without error, with no connection starting at the target of an earlier one.  Then every variable of the program that matters is represented by a variable node of the graph, two variables by
the same node exactly if promoted names, connections, unary pluses and equal parts (`x[0:2]`, `x[:2]`) make them the same; and for every meaning `den` of the functions and all initial values `σ0`, executing the nodes of the graph in
the order of the representation gives values that solve the program: every statement that matters holds as an equation (assignments to parts of outputs: between elements), variables with the same promoted name are equal, and so are the ends of
connections.  Variables whose values must be given keep their initial values, and the solution is the only one with these values of the given variables. -/
theorem means_in_session (pre : List (PObj K F)) (b : Body K F) (hg : GoodNames b) (hno : NoChain b.toModel) (done : List (PObj K F)) (root : OModel) (hr : runFrom pre b = .ok (done, root))
    (objs : List (PObj K F)) (hpre : done <+: objs) (hcl : Closed objs) (hn : objs.length ≤ 63 ^ 4) (fuel : Nat) (hf : ∀ path b', BAt b path b' → (b'.locals.outputs ++ b'.locals.declared).length + objs.length ≤ fuel)
    (order : List Nat → List Nat) (ho : ∀ l x, x ∈ order l ↔ x ∈ l) (rep : Csdl.Rep) (hc : compile (objects objs) fuel order root = .ok rep) :
    ∃ (f : Nat → Nat) (node : List Name → Nat → Nat),
      (∀ path b', BAt b path b' → ∀ x, b'.Live x → node path x ∈ rep.graph.nodes ∧ (objects objs (node path x)).kind = .var) ∧
      (∀ path b' path' b'', BAt b path b' → BAt b path' b'' → ∀ x y, b'.Live x → b''.Live y → (node path x = node path' y ↔ Relation.EqvGen (Same b) (path, x) (path', y))) ∧
      ∀ (P : Power K) (den : F → List (Val K) → Nat → Val K) (σ0 : Env (Val K)),
        Solution P den b (fun path x =>
          execAll rep.graph ⟨fun i => decide ((objects objs i).kind = .op), fun i => (objects objs i).deps.map f, opMeaning P den objs⟩ σ0 rep.sorted (node path x)) ∧
        (∀ path x, GivenVar b path x →
          execAll rep.graph ⟨fun i => decide ((objects objs i).kind = .op), fun i => (objects objs i).deps.map f, opMeaning P den objs⟩ σ0 rep.sorted (node path x) = σ0 (node path x)) ∧
        ∀ ρ, Solution P den b ρ → (∀ path x, GivenVar b path x → ρ path x = σ0 (node path x)) → ∀ path b', BAt b path b' → ∀ x, b'.Live x →
          ρ path x = execAll rep.graph ⟨fun i => decide ((objects objs i).kind = .op), fun i => (objects objs i).deps.map f, opMeaning P den objs⟩ σ0 rep.sorted (node path x) := by
  obtain ⟨_, f, node, _, _, _, _, _, h⟩ := means_kept pre b hg hno done root hr objs hpre hcl hn fuel hf order ho rep hc
  exact ⟨f, node, h⟩

/-- **C73.** Let a program (a hierarchy of `define` methods with good names) run without error, create no more objects than there are short automatic names, and let the representation of its main model
be built without error, with no connection starting at the target of an earlier one.  Then every variable of the program that matters is represented by a variable node of the graph, two variables by
the same node exactly if promoted names, connections, unary pluses and equal parts (`x[0:2]`, `x[:2]`) make them the same; and for every meaning `den` of the functions and all initial values `σ0`, executing the nodes of the graph in
the order of the representation gives values that solve the program: every statement that matters holds as an equation (assignments to parts of outputs: between elements), variables with the same promoted name are equal, and so are the ends of
connections.  Variables whose values must be given keep their initial values, and the solution is the only one with these values of the given variables. -/
theorem C73_programs_mean_what_they_say (b : Body K F) (hg : GoodNames b) (hno : NoChain b.toModel) (objs : List (PObj K F)) (root : OModel) (hr : runProgram b = .ok (objs, root))
    (hn : objs.length ≤ 63 ^ 4) (fuel : Nat) (hf : ∀ path b', BAt b path b' → (b'.locals.outputs ++ b'.locals.declared).length + objs.length ≤ fuel)
    (order : List Nat → List Nat) (ho : ∀ l x, x ∈ order l ↔ x ∈ l) (rep : Csdl.Rep) (hc : compile (objects objs) fuel order root = .ok rep) :
    ∃ (f : Nat → Nat) (node : List Name → Nat → Nat),
      (∀ path b', BAt b path b' → ∀ x, b'.Live x → node path x ∈ rep.graph.nodes ∧ (objects objs (node path x)).kind = .var) ∧
      (∀ path b' path' b'', BAt b path b' → BAt b path' b'' → ∀ x y, b'.Live x → b''.Live y → (node path x = node path' y ↔ Relation.EqvGen (Same b) (path, x) (path', y))) ∧
      ∀ (P : Power K) (den : F → List (Val K) → Nat → Val K) (σ0 : Env (Val K)),
        Solution P den b (fun path x =>
          execAll rep.graph ⟨fun i => decide ((objects objs i).kind = .op), fun i => (objects objs i).deps.map f, opMeaning P den objs⟩ σ0 rep.sorted (node path x)) ∧
        (∀ path x, GivenVar b path x →
          execAll rep.graph ⟨fun i => decide ((objects objs i).kind = .op), fun i => (objects objs i).deps.map f, opMeaning P den objs⟩ σ0 rep.sorted (node path x) = σ0 (node path x)) ∧
        ∀ ρ, Solution P den b ρ → (∀ path x, GivenVar b path x → ρ path x = σ0 (node path x)) → ∀ path b', BAt b path b' → ∀ x, b'.Live x →
          ρ path x = execAll rep.graph ⟨fun i => decide ((objects objs i).kind = .op), fun i => (objects objs i).deps.map f, opMeaning P den objs⟩ σ0 rep.sorted (node path x) :=
  means_in_session [] b hg hno objs root hr objs List.prefix_rfl (runFrom_closed (by simp [Closed]) hr) hn fuel hf order ho rep hc

/-! ### Example

A main model with an input `x`, the square of `x` (a repeated argument), a unary plus, an output `s` connected to the declared variable `a` of the submodel `m`, whose output `c` is promoted and used by the
main model. -/

/-- `def define(self): a = declare_variable('a'); r = f(a); register_output('c', r)` -/
def exSub : Body ℚ Unit := .stmt (.declare "a".toList [1] none) (.stmt (.call () [0] [[1]]) (.stmt (.register "c".toList 1) .done))

/-- `def define(self): x = create_input('x'); q = x * x; p = +q; register_output('s', p); connect('s', 'm.a'); add(sub, 'm', promotes=['c']); c = declare_variable('c'); t = c + x; register_output('t', t)` -/
def exMain : Body ℚ Unit :=
  .stmt (.input "x".toList [1] (fun _ => 1)) (.stmt (.expr (.mul 0 0)) (.stmt (.expr (.pos 1)) (.stmt (.register "s".toList 2) (.stmt (.connect "s".toList "m.a".toList)
    (.add false "m".toList (some ["c".toList]) exSub (.stmt (.declare "c".toList [1] none) (.stmt (.expr (.add 3 0)) (.stmt (.register "t".toList 4) .done))))))))

theorem exMain_at {path : List Name} {b' : Body ℚ Unit} (h : BAt exMain path b') : (path = [] ∧ b' = exMain) ∨ (path = ["m".toList] ∧ b' = exSub) := by
  cases h with
  | here => exact Or.inl ⟨rfl, rfl⟩
  | down h1 h2 =>
    simp only [exMain, Body.subs, List.mem_singleton, Prod.mk.injEq] at h1
    obtain ⟨rfl, rfl, rfl⟩ := h1
    cases h2 with
    | here => exact Or.inr ⟨rfl, rfl⟩
    | down h3 _ => simp [exSub, Body.subs] at h3

instance : DecidablePred AutoLike := fun _ => inferInstanceAs (Decidable (_ ∧ _))

theorem exMain_good : GoodNames exMain := by
  constructor
  · intro path b' h
    rcases exMain_at h with ⟨_, rfl⟩ | ⟨_, rfl⟩ <;> decide
  · intro path b' h
    rcases exMain_at h with ⟨_, rfl⟩ | ⟨_, rfl⟩ <;> decide
  · intro path b' h
    rcases exMain_at h with ⟨_, rfl⟩ | ⟨_, rfl⟩ <;> decide
  · intro path b' h
    rcases exMain_at h with ⟨_, rfl⟩ | ⟨_, rfl⟩ <;> decide

theorem exMain_run : ∃ objs root rep, runProgram exMain = .ok (objs, root) ∧ objs.length = 12 ∧ compile (objects objs) 20 id root = .ok rep ∧ rep.sorted.length = 9 := by
  obtain ⟨⟨objs, root⟩, h1, h⟩ := ok_of_check (x := runProgram exMain) (P := fun q => decide (q.1.length = 12) && okCheck (compile (objects q.1) 20 id q.2) fun rep => decide (rep.sorted.length = 9))
    (by decide +kernel)
  rw [Bool.and_eq_true] at h
  obtain ⟨rep, h2, h3⟩ := ok_of_check h.2
  exact ⟨objs, root, rep, h1, of_decide_eq_true h.1, h2, of_decide_eq_true h3⟩

theorem exMain_vars : PromotedAs exMain.toModel [] .source ⟨"s".toList, [1]⟩ "s".toList ∧ PromotedAs exMain.toModel ["m".toList] .target ⟨"a".toList, [1]⟩ "m.a".toList ∧
    PromotedAs exMain.toModel ["m".toList] .source ⟨"c".toList, [1]⟩ "c".toList ∧ PromotedAs exMain.toModel [] .target ⟨"c".toList, [1]⟩ "c".toList := by
  refine ⟨.here (v := ⟨"s".toList, [1]⟩) ?_, ?_, ?_, .here (v := ⟨"c".toList, [1]⟩) ?_⟩
  · decide
  · have h : PromotedAs exMain.toModel ["m".toList] .target ⟨"a".toList, [1]⟩ (prependNamespace "m".toList "a".toList) :=
      .stay (s := ⟨"m".toList, some ["c".toList], exSub.toModel⟩) (List.mem_singleton.2 rfl) (.here (v := ⟨"a".toList, [1]⟩) (by decide)) (by simp [IsPromoted])
    exact h
  · exact .up (s := ⟨"m".toList, some ["c".toList], exSub.toModel⟩) (List.mem_singleton.2 rfl) (.here (v := ⟨"c".toList, [1]⟩) (by decide)) (by simp [IsPromoted])
  · decide

theorem exMain_noChain : NoChain exMain.toModel := by
  obtain ⟨r, hr, _⟩ := ok_of_check (x := resolve exMain.toModel none) (P := fun _ => true) (by decide)
  have hiss : issuedPost Local.connections exMain.toModel = [([], "s".toList, "m.a".toList)] := by decide
  constructor
  · intro i hi p h1 h2
    rw [hiss, List.mem_singleton] at hi
    subst hi
    have e1 := C09_denotation_unique exMain.toModel (dotFree_of (by decide)) r hr _ _ _ h1 (Denotes.promoted exMain_vars.1)
    have e2 := C09_denotation_unique exMain.toModel (dotFree_of (by decide)) r hr _ _ _ h2 (Denotes.promoted exMain_vars.2.1)
    rw [e1] at e2
    exact absurd e2 (by decide)
  · rw [hiss]; exact List.pairwise_singleton _ _

/-- all hypotheses of C73 hold of the example, and by C73 the value of `t` is `f(x * x) + x` -/
example : ∃ objs root rep, GoodNames exMain ∧ NoChain exMain.toModel ∧ runProgram exMain = .ok (objs, root) ∧ objs.length ≤ 63 ^ 4 ∧
    (∀ path b', BAt exMain path b' → (b'.locals.outputs ++ b'.locals.declared).length + objs.length ≤ 20) ∧ compile (objects objs) 20 id root = .ok rep ∧
    ∃ (f : Nat → Nat) (node : List Name → Nat → Nat), ∀ (P : Power ℚ) (den : Unit → List (Val ℚ) → Nat → Val ℚ) (σ0 : Env (Val ℚ)) (e : List Nat),
      execAll rep.graph ⟨fun i => decide ((objects objs i).kind = .op), fun i => (objects objs i).deps.map f, opMeaning P den objs⟩ σ0 rep.sorted (node [] 4) e =
        den () [fun e => execAll rep.graph ⟨fun i => decide ((objects objs i).kind = .op), fun i => (objects objs i).deps.map f, opMeaning P den objs⟩ σ0 rep.sorted (node [] 0) e *
          execAll rep.graph ⟨fun i => decide ((objects objs i).kind = .op), fun i => (objects objs i).deps.map f, opMeaning P den objs⟩ σ0 rep.sorted (node [] 0) e] 0 e +
        execAll rep.graph ⟨fun i => decide ((objects objs i).kind = .op), fun i => (objects objs i).deps.map f, opMeaning P den objs⟩ σ0 rep.sorted (node [] 0) e := by
  obtain ⟨objs, root, rep, hr, hl, hc, _⟩ := exMain_run
  have hf : ∀ path b', BAt exMain path b' → (b'.locals.outputs ++ b'.locals.declared).length + objs.length ≤ 20 := by
    intro path b' h
    rw [hl]
    rcases exMain_at h with ⟨_, rfl⟩ | ⟨_, rfl⟩ <;> decide
  obtain ⟨f, node, _, _, h3⟩ := C73_programs_mean_what_they_say exMain exMain_good exMain_noChain objs root hr (by rw [hl]; decide) 20 hf id (fun _ _ => Iff.rfl) rep hc
  refine ⟨objs, root, rep, exMain_good, exMain_noChain, hr, by rw [hl]; decide, hf, hc, f, node, fun P den σ0 e => ?_⟩
  obtain ⟨sol, _, _⟩ := h3 P den σ0
  have atM : BAt exMain ["m".toList] exSub := .down (p := some ["c".toList]) (by simp [exMain, Body.subs]) (.here _)
  have l4 : exMain.Live 4 := .output (name := "t".toList) (by decide)
  have l2 : exMain.Live 2 := .output (name := "s".toList) (by decide)
  have l1 : exMain.Live 1 := .operand (n := 2) (s := .expr (.pos 1)) l2 (by simp [Body.Has, exMain, Body.stmts, Stmt.count]) (by decide) (by decide) (by decide)
  have l3 : exMain.Live 3 := .operand (n := 4) (s := .expr (.add 3 0)) l4 (by simp [Body.Has, exMain, Body.stmts, Stmt.count]) (by decide) (by decide) (by decide)
  have k1 : exSub.Live 1 := .output (name := "c".toList) (by decide)
  have k0 : exSub.Live 0 := .operand (n := 1) (s := .call () [0] [[1]]) k1 (by simp [Body.Has, exSub, Body.stmts, Stmt.count]) (by decide) (by decide) (by decide)
  have e4 := sol.expr [] exMain (.here _) 4 (.add 3 0) (by simp [Body.Has, exMain, Body.stmts, Stmt.count]) l4
  have e2 := sol.expr [] exMain (.here _) 2 (.pos 1) (by simp [Body.Has, exMain, Body.stmts, Stmt.count]) l2
  have e1 := sol.expr [] exMain (.here _) 1 (.mul 0 0) (by simp [Body.Has, exMain, Body.stmts, Stmt.count]) l1
  have em := sol.call ["m".toList] exSub atM 1 () [0] [[1]] (by simp [Body.Has, exSub, Body.stmts, Stmt.count]) 0 (by decide) k1
  have es := sol.shared [] 3 ["m".toList] 1 "c".toList ⟨exMain, "c".toList, .target, ⟨"c".toList, [1]⟩, .here _, l3, Or.inl ⟨[1], Or.inr (by decide)⟩, exMain_vars.2.2.2, rfl⟩
    ⟨exSub, "c".toList, .source, ⟨"c".toList, [1]⟩, atM, k1, Or.inr (by decide), exMain_vars.2.2.1, rfl⟩
  have ec := sol.connected [] exMain (.here _) "s".toList "m.a".toList _ _ (by decide) (Denotes.promoted exMain_vars.1) (Denotes.promoted exMain_vars.2.1) [] 2 ["m".toList] 0
    ⟨exMain, "s".toList, .source, ⟨"s".toList, [1]⟩, .here _, l2, Or.inr (by decide), exMain_vars.1, rfl⟩
    ⟨exSub, "a".toList, .target, ⟨"a".toList, [1]⟩, atM, k0, Or.inl ⟨[1], Or.inr (by decide)⟩, exMain_vars.2.1, rfl⟩
  clear sol
  revert e4 e2 e1 em es ec
  generalize execAll rep.graph ⟨fun i => decide ((objects objs i).kind = .op), fun i => (objects objs i).deps.map f, opMeaning P den objs⟩ σ0 rep.sorted = σ
  intro e4 e2 e1 em es ec
  have e4' : σ (node [] 4) = fun e => σ (node [] 3) e + σ (node [] 0) e := e4
  have e2' : σ (node [] 2) = fun e => σ (node [] 1) e := e2
  have e1' : σ (node [] 1) = fun e => σ (node [] 0) e * σ (node [] 0) e := e1
  have em' : σ (node ["m".toList] 1) = den () [σ (node ["m".toList] 0)] 0 := em
  rw [e4', es, em', ← ec, e2', e1']

end Csdl.Prog
