import Verif.Proofs.Program6
import Verif.Proofs.ProgramAlias
import Mathlib.Logic.Relation
import Mathlib.Tactic.Ring
/-
Variables of the program and objects: which matter, which have names, which are the same.
-/
namespace Csdl.Prog
open Csdl Csdl.Arith
variable {K F : Type} [Field K] [DecidableEq K]
variable {objs : List (PObj K F)} {b : Body K F} {root : OModel} {Ls : List (List Name × Slot K F)}
variable {path : List Name} {s : Slot K F} {m : OModel}

theorem Ctx.alias_iff (c : Ctx objs b path s m) {x y : Nat} (hx : x < s.st.env.length) : Alias (s.body.stmts 0) x y ↔ s.st.env[x]? = s.st.env[y]? := c.inv.alias_iff hx

/-- statements that create new objects -/
theorem Ctx.fresh_eq (c : Ctx objs b path s m) {n n' x y o : Nat} {t t' : Stmt K F} (ht : s.body.Has n t) (ht' : s.body.Has n' t') (h1 : n ≤ x) (h2 : x < n + t.count) (h3 : n' ≤ y) (h4 : y < n' + t'.count)
    (hx : s.st.env[x]? = some o) (hy : s.st.env[y]? = some o) (ha : ¬ t.IsAlias) (ha' : ¬ t'.IsAlias) : x = y := by
  rcases c.inv.fresh n t ht with h | h
  · exact absurd h ha
  rcases c.inv.fresh n' t' ht' with h' | h'
  · exact absurd h' ha'
  rcases Nat.lt_trichotomy x y with hlt | hlt | hlt
  · exact absurd hx (h' y o h3 h4 hy x hlt)
  · exact hlt
  · exact absurd hy (h x o h1 h2 hx y hlt)

/-- two statements with a common result have the same operation -/
theorem OpOf.same {objs : List (PObj K F)} {env : List Nat} {n n' x y o i i' : Nat} {t t' : Stmt K F} (h : OpOf objs env n t i) (h' : OpOf objs env n' t' i') (h1 : n ≤ x) (h2 : x < n + t.count)
    (h3 : n' ≤ y) (h4 : y < n' + t'.count) (hx : env[x]? = some o) (hy : env[y]? = some o) : i = i' ∧ IsResult objs o i := by
  obtain ⟨p, k, as, m, base, a1, a2, a3, a4, a5, a6, a7, a8⟩ := h
  obtain ⟨p', k', as', m', base', b1, b2, b3, b4, b5, b6, b7, b8⟩ := h'
  obtain ⟨rfl, rfl, _, _⟩ := lowered_facts a3
  obtain ⟨rfl, rfl, _, _⟩ := lowered_facts b3
  obtain ⟨v, _, v1, v2⟩ := a6 (x - n) (by omega)
  obtain ⟨w, _, w1, w2⟩ := b6 (y - n') (by omega)
  rw [show n + (x - n) = x by omega, hx] at v1
  rw [show n' + (y - n') = y by omega, hy] at w1
  cases v1
  cases w1
  refine ⟨?_, v2⟩
  obtain ⟨q, c1, _, _, c4, _⟩ := v2
  obtain ⟨q', d1, _, _, d4, _⟩ := w2
  rw [c1] at d1
  cases d1
  rw [c4] at d4
  simpa using d4

/-- only indexing statements share an operation -/
theorem Ctx.shared_op (c : Ctx objs b path s m) {n n' i : Nat} {t t' : Stmt K F} (ht : s.body.Has n t) (ht' : s.body.Has n' t') (h : OpOf s.st.objs s.st.env n t i)
    (h' : OpOf s.st.objs s.st.env n' t' i) : (¬ t.IsAlias ∧ ¬ t'.IsAlias) ∨ ∃ u k v l, t = .index u k ∧ t' = .index v l ∧ Alias (s.body.stmts 0) u v := by
  have h0 := h
  have h0' := h'
  obtain ⟨p, k, as, m, base, a1, a2, a3, a4, a5, a6, a7, a8⟩ := h
  obtain ⟨p', k', as', m', base', b1, b2, b3, b4, b5, b6, b7, b8⟩ := h'
  rw [a1] at b1
  cases b1
  rw [a4] at b4
  cases b4
  by_cases hk : k.IsPart
  · obtain ⟨u, key, e, es, rfl, _⟩ := lowered_part a3 hk
    obtain ⟨v, l, e', es', rfl, _⟩ := lowered_part b3 hk
    refine Or.inr ⟨u, key, v, l, rfl, rfl, ?_⟩
    obtain ⟨_, _, p1, _, _, _, _, d, r1, _, _, r4, r5, _⟩ := c.inv.indexOp ht h0
    obtain ⟨_, _, p2, _, _, _, _, d', q1, _, _, q4, q5, _⟩ := c.inv.indexOp ht' h0'
    rw [r1] at q1
    cases q1
    rw [r4] at q4
    cases q4
    exact (c.alias_iff (lt_of_some r5)).2 (r5.trans q5.symm)
  · refine Or.inl ⟨?_, ?_⟩
    · rintro (h | ⟨u, key, rfl⟩)
      · exact (lowered_facts a3).2.2.1 h
      · cases a3 with
        | index => exact hk ⟨_, _, rfl⟩
    · rintro (h | ⟨u, key, rfl⟩)
      · exact (lowered_facts b3).2.2.1 h
      · cases b3 with
        | index => exact hk ⟨_, _, rfl⟩

/-- a variable that is an output without operation was made by `create_output` -/
theorem Inv.concat_made {objs0 : Foreign K F} {L : List (Nat × Stmt K F)} {S : List (Name × Option (List Name))} {st : St K F} (h : Inv objs0 L S st) {o : Nat} {p : PObj K F} (hp : st.objs[o]? = some p)
    (hr : p.obj.role = .output) (hd : p.obj.deps = []) {x : Nat} (hx : st.env[x]? = some o) : ∃ y nm sh val, (y, Stmt.output nm sh val) ∈ L ∧ st.env[y]? = some o := by
  induction x using Nat.strong_induction_on with
  | _ x ih =>
    obtain ⟨n, t, g1, g2, g3⟩ := h.cover x (lt_of_some hx)
    cases h.stmts n t g1 with
    | register => simp [Stmt.count] at g3; omega
    | connect => simp [Stmt.count] at g3; omega
    | assign => simp [Stmt.count] at g3; omega
    | «alias» a1 a2 a3 a4 =>
      obtain rfl : x = n := by simp [Stmt.count] at g3; omega
      rw [hx] at a4
      cases a4
      exact ih _ a2 a3
    | output nm sh val =>
      obtain rfl : x = n := by simp [Stmt.count] at g3; omega
      exact ⟨x, nm, sh, val, g1, hx⟩
    | op i hi =>
      obtain ⟨_, q, q1, _, _, q4, _⟩ := hi.same hi g2 g3 g2 g3 hx hx
      rw [hp] at q1
      cases q1
      rw [hd] at q4
      cases q4
    | input nm sh =>
      obtain rfl : x = n := by simp [Stmt.count] at g3; omega
      obtain ⟨o', ho', h1⟩ := forall₂_mem_right h.inputs (List.mem_filterMap.2 ⟨_, g1, rfl⟩)
      simp only at h1
      rw [hx] at h1
      cases h1.1
      obtain ⟨_, q, p1, p2, p3⟩ := h.inputRole o ho'
      rw [hp] at p1; cases p1
      rw [hr] at p3; cases p3
    | declare nm sh e =>
      obtain rfl : x = n := by simp [Stmt.count] at g3; omega
      obtain ⟨o', ho', h1⟩ := forall₂_mem_right h.declared (List.mem_filterMap.2 ⟨_, g1, rfl⟩)
      simp only at h1
      rw [hx] at h1
      cases h1.1
      obtain ⟨_, q, p1, p2, p3⟩ := h.declaredRole o ho'
      rw [hp] at p1; cases p1
      rw [hr] at p3; cases p3

/-- The object `i` is the operation of the output `v`, which the statement `y = self.create_output(name, ...)` creates. -/
structure AsmOp (objs : List (PObj K F)) (s : Slot K F) (i y v : Nat) (name : Name) (shape : Shape) (val : Val K) (es : List (Shape × List Int)) : Prop where
  stmt : s.body.Has y (.output name shape val)
  var : s.st.env[y]? = some v
  has : s.Has i
  op : (objects objs i).kind = .op
  kind : kindOf objs i = some (.assemble shape val es)
  outs : (objects objs i).outs = [v]
  deps : (objects objs i).deps = (assignsTo s.st.env v (s.body.stmts 0)).map fun kx => s.st.env.getD kx.2 0
  result : (objects objs v).deps = [i]
  entries : List.Forall₂ (fun (kx : Key × Nat) (e : Shape × List Int) => e.1 = shapeAt s.st.objs s.st.env kx.2 ∧ tgtIndices shape kx.1 = .ok (e.2, e.1) ∧ ∀ i ∈ e.2, i < (shape.size : Int))
    (assignsTo s.st.env v (s.body.stmts 0)) es
  disjoint : es.Pairwise fun e e' => ∀ i ∈ e.2, i ∉ e'.2
  some : es ≠ []

/-- the state of an output that is assembled -/
theorem Ctx.asm_of_concat (c : Ctx objs b path s m) {v : Nat} {cc : Concat} {val : Val K} (h : s.st.concat.get? v = some (cc, val)) :
    ∃ i y name es, AsmOp objs s i y v name cc.shape val es := by
  obtain ⟨⟨y, name, h1, h2⟩, p, es, a1, a2, a3, a4, a5, a6, a7, a8, a9⟩ := c.inv.concat v cc val h
  obtain ⟨v', c', b1, b2, b3, b4⟩ := c.inv.made y name _ _ h1
  rw [h2] at b1
  cases b1
  have hd : cc.deps.isNone = false := by
    have := List.any_eq_false.1 c.defined v b4
    rw [h] at this
    cases hcd : cc.deps with
    | none => simp [hcd] at this
    | some _ => rfl
  rcases a9 with ⟨_, _, d3⟩ | ⟨d0, _, o, q, d1, d2, d3, d4, d5, d6, d7⟩
  · rw [d3] at hd; cases hd
  · refine ⟨o, y, name, es, h1, h2, ⟨d2, lt_of_some d3⟩, by rw [c.obj d3]; exact d4, ?_, by rw [c.obj d3]; exact d5, by rw [c.obj d3]; exact d7, by rw [c.obj a1]; exact d1, a6, a7, d0⟩
    unfold kindOf
    rw [getElem?_prefix c.pre d3]
    exact d6

/-- every output that is assembled has its operation -/
theorem Ctx.asm_of_output (c : Ctx objs b path s m) {y : Nat} {name : Name} {shape : Shape} {val : Val K} (h : s.body.Has y (.output name shape val)) :
    ∃ i v es, AsmOp objs s i y v name shape val es := by
  obtain ⟨v, cc, b1, b2, rfl, b4⟩ := c.inv.made y name _ _ h
  obtain ⟨i, y', name', es, ha⟩ := c.asm_of_concat b2
  exact ⟨i, v, es, { ha with stmt := h, var := b1 }⟩

/-- every operation that assembles is that of an output -/
theorem Ctx.asm_of_op (c : Ctx objs b path s m) {i : Nat} {p : PObj K F} {k : Kind K F} (hi : s.Has i) (hp : s.st.objs[i]? = some p) (hk : p.op = some k) (ha : k.IsAsm) :
    ∃ y v name shape val es, AsmOp objs s i y v name shape val es := by
  obtain ⟨v, cc, val, q, h1, h2, h3, h4⟩ := c.inv.asms i p k hp hi.1 hk ha
  obtain ⟨i', y, name, es, g⟩ := c.asm_of_concat h2
  obtain rfl : i' = i := by
    have := g.result
    rw [c.obj h3, h4] at this
    simpa using this.symm
  exact ⟨y, v, name, cc.shape, val, es, g⟩

/-- which variables are assigned to parts of the output -/
theorem AsmOp.assigned (c : Ctx objs b path s m) {i y v : Nat} {name : Name} {shape : Shape} {val : Val K} {es : List (Shape × List Int)} (h : AsmOp objs s i y v name shape val es) {key : Key} {x : Nat} :
    (key, x) ∈ assignsTo s.st.env v (s.body.stmts 0) ↔ s.body.Assigned y key x := by
  rw [assignsTo_mem]
  constructor
  · rintro ⟨n, z, h1, h2⟩
    exact ⟨n, z, h1, (c.alias_iff (lt_of_some h2)).2 (h2.trans h.var.symm)⟩
  · rintro ⟨n, z, h1, h2⟩
    exact ⟨n, z, h1, (c.inv.env_of_alias h2).trans h.var⟩

theorem Ctx.assigned_lt (c : Ctx objs b path s m) {y x : Nat} {key : Key} (h : s.body.Assigned y key x) : x < s.st.env.length := by
  obtain ⟨n, z, h1, _⟩ := h
  exact (c.inv.assignLt h1).2

/-- the arguments of the operation -/
theorem AsmOp.dep (c : Ctx objs b path s m) {i y v : Nat} {name : Name} {shape : Shape} {val : Val K} {es : List (Shape × List Int)} (h : AsmOp objs s i y v name shape val es) {d : Nat}
    (hd : d ∈ (objects objs i).deps) : ∃ key x, s.body.Assigned y key x ∧ s.st.env[x]? = Option.some d ∧ s.body.Live x := by
  rw [h.deps] at hd
  obtain ⟨⟨key, x⟩, h1, rfl⟩ := List.mem_map.1 hd
  have h2 := (h.assigned c).1 h1
  refine ⟨key, x, h2, getD_some (c.assigned_lt h2), ?_⟩
  obtain ⟨n, z, h3, _⟩ := h2
  exact .assigned h3

/-- the operation is needed -/
theorem AsmOp.needs (c : Ctx objs b path s m) {i y v : Nat} {name : Name} {shape : Shape} {val : Val K} {es : List (Shape × List Int)} (g : AsmOp objs s i y v name shape val es) :
    m.Needs (objects objs) i := by
  refine .dep v i (.leaf v ?_) (by show i ∈ (objects objs v).deps; rw [g.result]; simp)
  obtain ⟨v', _, b1, _, _, b4⟩ := c.inv.made y name _ _ g.stmt
  rw [g.var] at b1
  cases b1
  rw [c.mat.outputs]
  exact List.mem_append_left _ b4

/-- the operation of a statement does not assemble an output -/
theorem AsmOp.not_opOf (c : Ctx objs b path s m) {i y v : Nat} {name : Name} {shape : Shape} {val : Val K} {es : List (Shape × List Int)} (h : AsmOp objs s i y v name shape val es) {n : Nat} {t : Stmt K F} :
    ¬ OpOf s.st.objs s.st.env n t i := by
  rintro ⟨p, k, as, m', base, h1, h2, h3, h4, _⟩
  have := h.kind
  unfold kindOf at this
  rw [getElem?_prefix c.pre h1] at this
  have this : p.op = _ := this
  rw [h4] at this
  cases this
  exact lowered_asm h3 ⟨_, _, _, rfl⟩

omit [Field K] [DecidableEq K] in
theorem AsmOp.live {i y v : Nat} {name : Name} {shape : Shape} {val : Val K} {es : List (Shape × List Int)} (h : AsmOp objs s i y v name shape val es) : s.body.Live y :=
  .output (List.mem_filterMap.2 ⟨_, h.stmt, rfl⟩)

/-- the variable of a statement that is not a unary plus matters if another one with the same object does -/
theorem Ctx.first' (c : Ctx objs b path s m) {n : Nat} {t : Stmt K F} (ht : s.body.Has n t) (hp : ¬ t.IsPlus) {x y o : Nat} (h1 : n ≤ y) (h2 : y < n + t.count) (hx : s.st.env[x]? = some o)
    (hy : s.st.env[y]? = some o) (hl : s.body.Live x) : s.body.Live y := by
  induction x using Nat.strong_induction_on generalizing o with
  | _ x ih =>
    obtain ⟨n', t', g1, g2, g3⟩ := c.inv.cover x (lt_of_some hx)
    have same : ¬ t.IsAlias → ¬ t'.IsAlias → s.body.Live y := fun ha ha' => c.fresh_eq g1 ht g2 g3 h1 h2 hx hy ha' ha ▸ hl
    have noAl : ∀ {t : Stmt K F}, (∀ x, t ≠ .expr (.pos x)) → (∀ x k, t ≠ .index x k) → ¬ t.IsAlias := by
      rintro t a1 a2 (⟨x, h⟩ | ⟨x, k, h⟩)
      · exact a1 x h
      · exact a2 x k h
    cases c.inv.stmts n' t' g1 with
    | register => simp [Stmt.count] at g3; omega
    | connect => simp [Stmt.count] at g3; omega
    | assign => simp [Stmt.count] at g3; omega
    | output nm sh val =>
      obtain rfl : x = n' := by simp [Stmt.count] at g3; omega
      refine same ?_ (noAl (by simp) (by simp))
      cases c.inv.stmts n t ht with
      | op i hi =>
        obtain ⟨_, hr⟩ := hi.same hi h1 h2 h1 h2 hy hy
        exact (c.inv.outputNotResult g1 hx hi hr).elim
      | «alias» a1 => exact absurd (lower_none a1 |>.imp fun _ h => by rw [h]) hp
      | _ => exact noAl (by simp) (by simp)
    | «alias» a1 a2 a3 a4 =>
      obtain rfl : x = n' := by simp [Stmt.count] at g3; omega
      rw [hx] at a4
      cases a4
      exact ih _ a2 a3 hy (.operand hl g1 (Nat.le_refl _) (by simp [Stmt.count]) (by simp [Stmt.operands]))
    | input nm sh v =>
      obtain rfl : x = n' := by simp [Stmt.count] at g3; omega
      refine same ?_ (noAl (by simp) (by simp))
      cases c.inv.stmts n t ht with
      | op i hi =>
        obtain ⟨_, hr⟩ := hi.same hi h1 h2 h1 h2 hy hy
        exact absurd rfl ((c.inv.notResult g1 hx hr).1 nm sh v)
      | «alias» a1 => exact absurd (lower_none a1 |>.imp fun _ h => by rw [h]) hp
      | _ => exact noAl (by simp) (by simp)
    | declare nm sh e =>
      obtain rfl : x = n' := by simp [Stmt.count] at g3; omega
      refine same ?_ (noAl (by simp) (by simp))
      cases c.inv.stmts n t ht with
      | op i hi =>
        obtain ⟨_, hr⟩ := hi.same hi h1 h2 h1 h2 hy hy
        exact absurd rfl ((c.inv.notResult g1 hx hr).2 nm sh e)
      | «alias» a1 => exact absurd (lower_none a1 |>.imp fun _ h => by rw [h]) hp
      | _ => exact noAl (by simp) (by simp)
    | op i hi =>
      cases c.inv.stmts n t ht with
      | input nm sh v =>
        obtain rfl : y = n := by simp [Stmt.count] at h2; omega
        exact absurd rfl ((c.inv.notResult ht hy (hi.same hi g2 g3 g2 g3 hx hx).2).1 nm sh v)
      | declare nm sh e =>
        obtain rfl : y = n := by simp [Stmt.count] at h2; omega
        exact absurd rfl ((c.inv.notResult ht hy (hi.same hi g2 g3 g2 g3 hx hx).2).2 nm sh e)
      | register => simp [Stmt.count] at h2; omega
      | connect => simp [Stmt.count] at h2; omega
      | assign => simp [Stmt.count] at h2; omega
      | output nm sh val =>
        obtain rfl : y = n := by simp [Stmt.count] at h2; omega
        exact (c.inv.outputNotResult ht hy hi (hi.same hi g2 g3 g2 g3 hx hx).2).elim
      | «alias» a1 => exact absurd (lower_none a1 |>.imp fun _ h => by rw [h]) hp
      | op i' hi' =>
        obtain ⟨rfl, _⟩ := hi.same hi' g2 g3 h1 h2 hx hy
        rcases c.shared_op g1 ht hi hi' with ⟨a1, a2⟩ | ⟨u, k, v, l, rfl, rfl, ha⟩
        · exact same a2 a1
        · obtain rfl : x = n' := by simp [Stmt.count] at g3; omega
          obtain rfl : y = n := by simp [Stmt.count] at h2; omega
          exact .part hl g1 ht ha

/-- the objects of inputs, declared variables and outputs -/
theorem Ctx.named (c : Ctx objs b path s m) {x : Nat} {nm : Name} (h : s.body.Named x nm) : ∃ o ∈ m.vars, s.st.env[x]? = some o ∧ (objects objs o).name = nm := by
  unfold OModel.vars
  rw [c.mat.inputs, c.mat.outputs, c.mat.declared]
  have hn : ∀ o, o ∈ s.st.inputs ++ s.st.outputs ++ s.st.declared → (infoOf s.st.objs o).name = (objects objs o).name := by
    intro o ho
    unfold infoOf Objs.varInfo
    rw [prefix_objects c.pre (c.inv.inputLt o ho)]
  rcases h with ⟨sh, h | h⟩ | h
  · obtain ⟨o, ho, h1⟩ := forall₂_mem_right c.inv.inputs h
    have hm : o ∈ s.st.inputs ++ s.st.outputs ++ s.st.declared := by simp [ho]
    exact ⟨o, hm, h1.1, by rw [← hn o hm, h1.2.1]⟩
  · obtain ⟨o, ho, h1⟩ := forall₂_mem_right c.inv.declared h
    have hm : o ∈ s.st.inputs ++ s.st.outputs ++ s.st.declared := by simp [ho]
    exact ⟨o, hm, h1.1, by rw [← hn o hm, h1.2]⟩
  · obtain ⟨o, ho, h1⟩ := forall₂_mem_right c.inv.outputs h
    have hm : o ∈ s.st.inputs ++ s.st.outputs ++ s.st.declared := by simp [ho]
    exact ⟨o, hm, h1.1, by rw [← hn o hm]; exact h1.2.1⟩

theorem Ctx.var_named (c : Ctx objs b path s m) {o : Nat} (h : o ∈ m.vars) : ∃ x, s.st.env[x]? = some o ∧ s.body.Named x (objects objs o).name ∧
    (o ∈ m.inputs → ∃ nm sh, (x, nm, sh) ∈ (s.body.stmts 0).filterMap inputOf) ∧ (o ∈ m.outputs → ∃ nm, (x, nm) ∈ (s.body.stmts 0).filterMap outputOf) ∧
    (o ∈ m.declared → ∃ nm sh, (x, nm, sh) ∈ (s.body.stmts 0).filterMap declaredOf) := by
  have hr := fun (h : o ∈ m.inputs) => (c.input h).2.2
  have hr2 := fun (h : o ∈ m.outputs) => (c.output h).2.2
  have hr3 := fun (h : o ∈ m.declared) => (c.decl h).2.2
  have h0 := h
  unfold OModel.vars at h
  rw [c.mat.inputs, c.mat.outputs, c.mat.declared] at h
  have hn : (infoOf s.st.objs o).name = (objects objs o).name := by
    unfold infoOf Objs.varInfo
    rw [prefix_objects c.pre (c.inv.inputLt o h)]
  simp only [List.mem_append] at h
  rcases h with (h | h) | h
  · obtain ⟨y, hy, h1⟩ := forall₂_mem_left c.inv.inputs h
    have hi : o ∈ m.inputs := by rw [c.mat.inputs]; exact h
    refine ⟨y.1, h1.1, Or.inl ⟨y.2.2, Or.inl ?_⟩, fun _ => ⟨y.2.1, y.2.2, hy⟩, fun h' => ?_, fun h' => ?_⟩
    · rw [← hn, h1.2.1]; exact hy
    · have := hr2 h'; rw [hr hi] at this; cases this
    · have := hr3 h'; rw [hr hi] at this; cases this
  · obtain ⟨y, hy, h1⟩ := forall₂_mem_left c.inv.outputs h
    have hi : o ∈ m.outputs := by rw [c.mat.outputs]; exact h
    refine ⟨y.1, h1.1, Or.inr ?_, fun h' => ?_, fun _ => ⟨y.2, hy⟩, fun h' => ?_⟩
    · rw [← hn, h1.2.1]; exact hy
    · have := hr h'; rw [hr2 hi] at this; cases this
    · have := hr3 h'; rw [hr2 hi] at this; cases this
  · obtain ⟨y, hy, h1⟩ := forall₂_mem_left c.inv.declared h
    have hi : o ∈ m.declared := by rw [c.mat.declared]; exact h
    refine ⟨y.1, h1.1, Or.inl ⟨y.2.2, Or.inr ?_⟩, fun h' => ?_, fun h' => ?_, fun _ => ⟨y.2.1, y.2.2, hy⟩⟩
    · rw [← hn, h1.2]; exact hy
    · have := hr h'; rw [hr3 hi] at this; cases this
    · have := hr2 h'; rw [hr3 hi] at this; cases this

/-- the operation of a statement, in the final objects -/
theorem Ctx.opOf (c : Ctx objs b path s m) {n : Nat} {t : Stmt K F} {o : Nat} (ht : s.body.Has n t) (h : OpOf s.st.objs s.st.env n t o) :
    ∃ k base, (objects objs o).kind = .op ∧ kindOf objs o = some k ∧ Lowered (shapeAt s.st.objs s.st.env) t k t.operands t.count base ∧ (k.IsPart ∨ base = 0 ∧ (objects objs o).outs.length = t.count) ∧
      (∀ j < t.count, ∃ v, (objects objs o).outs[base + j]? = some v ∧ s.st.env[n + j]? = some v) ∧ (∀ a ∈ t.operands, a < n ∧ ∃ d, s.st.env[a]? = some d) ∧ ¬ t.IsPlus ∧
      List.Forall₂ (ArgOk s.st.objs s.st.env) (objects objs o).deps (t.operands.map (s.st.env.getD · 0)) := by
  obtain ⟨p, k, as, m', base, h1, h2, h3, h4, h5, h6, h7, h8⟩ := h
  obtain ⟨rfl, rfl, hal, _⟩ := lowered_facts h3
  refine ⟨k, base, by rw [c.obj h1]; exact h2, ?_, h3, ?_, ?_, fun a ha => ⟨h7 a ha, ?_⟩, hal, by rw [c.obj h1]; exact h8⟩
  · unfold kindOf
    rw [getElem?_prefix c.pre h1]
    exact h4
  · rw [c.obj h1]
    by_cases hk : k.IsPart
    · exact Or.inl hk
    · exact Or.inr ⟨lowered_base h3 hk, h5.resolve_left hk⟩
  · intro j hj
    obtain ⟨v, v1, v2, _⟩ := h6 j hj
    exact ⟨v, by rw [c.obj h1]; exact v1, v2⟩
  · have := c.inv.nums n t ht
    have h9 := h7 a ha
    exact ⟨_, List.getElem?_eq_getElem (by omega)⟩

/-- the operation of a statement that has results was created by the method -/
theorem Ctx.opOf_has (c : Ctx objs b path s m) {n : Nat} {t : Stmt K F} {o : Nat} (h : OpOf s.st.objs s.st.env n t o) {j : Nat} (hj : j < t.count) : s.Has o := by
  obtain ⟨p, k, as, m', base, h1, h2, h3, h4, h5, h6, h7, h8⟩ := h
  obtain ⟨rfl, rfl, hal, _⟩ := lowered_facts h3
  obtain ⟨v, _, h9, q, g1, g2, g3, g4, _⟩ := h6 j hj
  have hm := List.mem_of_getElem? h9
  have hh : s.Has v := ⟨(c.inv.env _ hm).1, (c.inv.env _ hm).2.lt⟩
  exact ((c.var hh (by rw [c.obj g1]; exact g2)).2 o (by rw [c.obj g1, g4]; simp)).1

/-- the results of the operation of a statement -/
theorem Ctx.opOf_out (c : Ctx objs b path s m) {n : Nat} {t : Stmt K F} {o x : Nat} (ht : s.body.Has n t) (h : OpOf s.st.objs s.st.env n t o) (h1 : n ≤ x) (h2 : x < n + t.count) :
    ∃ v, s.st.env[x]? = some v ∧ v ∈ (objects objs o).outs := by
  obtain ⟨k, base, _, _, _, _, a5, _⟩ := c.opOf ht h
  obtain ⟨v, v1, v2⟩ := a5 (x - n) (by omega)
  rw [show n + (x - n) = x by omega] at v2
  exact ⟨v, v2, List.mem_of_getElem? v1⟩

/-- the operation of a copy, in the final objects -/
theorem Ctx.copyOp (c : Ctx objs b path s m) {o d : Nat} (h : CopyOp s.st.objs s.st.env o d) :
    (objects objs o).kind = .op ∧ kindOf objs o = some copyKind ∧ (objects objs o).deps = [d] ∧ (objects objs o).outs = [o + 1] ∧ (objects objs (o + 1)).deps = [o] ∧
      (objects objs (o + 1)).kind = .var ∧ (objects objs (o + 1)).role = .output ∧ o + 1 ∉ s.st.env := by
  obtain ⟨⟨p, h1, h2, h3, h4, h5⟩, ⟨q, g1, g2, g3, g4, g5⟩, h6⟩ := h
  refine ⟨by rw [c.obj h1]; exact h2, ?_, by rw [c.obj h1]; exact h4, by rw [c.obj h1]; exact h5, by rw [c.obj g1]; exact g4, by rw [c.obj g1]; exact g2, by rw [c.obj g1]; exact g3, h6⟩
  unfold kindOf
  rw [getElem?_prefix c.pre h1]
  exact h3

theorem Ctx.envHas (c : Ctx objs b path s m) {x o : Nat} (h : s.st.env[x]? = some o) : s.Has o ∧ (objects objs o).kind = .var :=
  ⟨⟨(c.inv.env o (List.mem_of_getElem? h)).1, (c.inv.env o (List.mem_of_getElem? h)).2.lt⟩, IsVar.kind c (c.inv.env o (List.mem_of_getElem? h)).2⟩

/-- a result of an operation: what it depends on, and which operation that is -/
theorem Ctx.computed (c : Ctx objs b path s m) {x o i : Nat} (h : s.st.env[x]? = some o) (hi : i ∈ (objects objs o).deps) :
    s.Has i ∧ o ∈ (objects objs i).outs ∧ ((∃ n t j, s.body.Has n t ∧ OpOf s.st.objs s.st.env n t i ∧ j < t.count ∧ s.st.env[n + j]? = some o ∧ (s.body.Live x → s.body.Live (n + j))) ∨
      ∃ y name shape val es, AsmOp objs s i y o name shape val es) := by
  obtain ⟨hh, hk⟩ := c.envHas h
  obtain ⟨h1, h2, h3⟩ := (c.var hh hk).2 i hi
  refine ⟨h1, h3, ?_⟩
  rcases (c.op h1 h2).2.2.2 with hc | ⟨d, _, hc⟩ | ⟨p, k, hp, hk', ha⟩
  · obtain ⟨n, t, y, ht, ho, g1, g2, g3⟩ := hc o h3
    obtain ⟨k, base, a1, a2, a3, a4, a5, a6, a7, a8⟩ := c.opOf ht ho
    refine Or.inl ⟨n, t, y - n, ht, ho, by omega, by rw [show n + (y - n) = y by omega]; exact g3, fun hl => ?_⟩
    rw [show n + (y - n) = y by omega]
    exact c.first' ht a7 g1 g2 h g3 hl
  · obtain ⟨_, _, _, a4, _, _, _, a8⟩ := c.copyOp hc
    rw [a4] at h3
    obtain rfl : o = i + 1 := by simpa using h3
    exact absurd (List.mem_of_getElem? h) a8
  · obtain ⟨y, v, name, shape, val, es, g⟩ := c.asm_of_op h1 hp hk' ha
    rw [g.outs] at h3
    obtain rfl : o = v := by simpa using h3
    exact Or.inr ⟨y, name, shape, val, es, g⟩

/-- all results of the operation of a statement that matters matter -/
theorem Ctx.live_out (c : Ctx objs b path s m) {n : Nat} {t : Stmt K F} {i v x : Nat} (ht : s.body.Has n t) (ho : OpOf s.st.objs s.st.env n t i) (h1 : n ≤ x) (h2 : x < n + t.count) (hl : s.body.Live x)
    (hv : v ∈ (objects objs i).outs) : ∃ y, s.st.env[y]? = some v ∧ s.body.Live y := by
  obtain ⟨k, base, a1, a2, a3, a4, a5, a6, a7, a8⟩ := c.opOf ht ho
  have hh := c.opOf_has ho (j := x - n) (by omega)
  rcases (c.op hh a1).2.2.2 with hc | ⟨d, _, hc⟩ | ⟨p, k, hp, hk', ha⟩
  · obtain ⟨n', t', y, ht', ho', g1, g2, g3⟩ := hc v hv
    refine ⟨y, g3, ?_⟩
    rcases a4 with hk | ⟨rfl, hlen⟩
    · obtain ⟨k', base', b1, b2, b3, b4, b5, b6, b7, b8⟩ := c.opOf ht' ho'
      rcases c.shared_op ht ht' ho ho' with ⟨e1, _⟩ | ⟨u, l, w, l', rfl, rfl, ha⟩
      · obtain ⟨z, key, _, _, rfl, _⟩ := lowered_part a3 hk
        exact absurd (Or.inr ⟨_, _, rfl⟩) e1
      · obtain rfl : x = n := by simp [Stmt.count] at h2; omega
        obtain rfl : y = n' := by simp [Stmt.count] at g2; omega
        exact .part hl ht ht' ha
    · obtain ⟨j, hj⟩ := List.mem_iff_getElem?.1 hv
      have hjl := lt_of_some hj
      obtain ⟨v', v1, v2⟩ := a5 j (by omega)
      rw [Nat.zero_add, hj] at v1
      cases v1
      obtain ⟨_, _, _, _, _, _, _, _, b7, _⟩ := c.opOf ht' ho'
      exact c.first' ht' b7 g1 g2 v2 g3 (.result hl ht h1 h2 (by omega) (by omega))
  · obtain ⟨_, c2, _, a4', _, _, _, a8'⟩ := c.copyOp hc
    rw [a4'] at hv
    obtain rfl : v = i + 1 := by simpa using hv
    obtain ⟨w, w1, w2⟩ := c.opOf_out ht ho h1 h2
    rw [a4'] at w2
    obtain rfl : w = i + 1 := by simpa using w2
    exact absurd (List.mem_of_getElem? w1) a8'
  · obtain ⟨y, v, name, shape, val, es, g⟩ := c.asm_of_op hh hp hk' ha
    exact absurd ho (g.not_opOf c)

theorem Ctx.uses_needs (c : Ctx objs b path s m) {o : Nat} (h : m.Uses (objects objs) o) (hr : (objects objs o).role ≠ .input) : m.Needs (objects objs) o := by
  rcases h with h | h
  · exact absurd (c.input h).2.2 hr
  · exact h.1

/-- an operation and its argument -/
theorem linked_dep {H : Objs} {m : OModel} {o d : Nat} (ho : m.Needs H o) (hd : d ∈ (H o).deps) : m.Linked H d ∧ m.Linked H o :=
  ⟨⟨.dep o d ho hd, o, ho, Or.inr (Or.inl hd)⟩, ⟨ho, d, .dep o d ho hd, Or.inl (Or.inl hd)⟩⟩

theorem linked_out {H : Objs} {m : OModel} {o v : Nat} (ho : m.Needs H o) (hk : (H o).kind = .op) (hv : v ∈ (H o).outs) : m.Linked H v :=
  ⟨.out o v ho hk hv, o, ho, Or.inl (Or.inr ⟨hk, hv⟩)⟩

theorem Linked.uses {H : Objs} {m : OModel} {o : Nat} (h : m.Linked H o) : m.Uses H o := Or.inr ⟨h.1, o, h, rfl⟩

/-- arguments of a needed operation are needed, and so are the operations of the copies -/
theorem Ctx.args_linked (c : Ctx objs b path s m) {o d a : Nat} (ho : m.Needs (objects objs) o) (hd : d ∈ (objects objs o).deps) (ha : ArgOk s.st.objs s.st.env d a) :
    m.Linked (objects objs) a ∧ (d = a ∨ ∃ o', d = o' + 1 ∧ CopyOp s.st.objs s.st.env o' a ∧ m.Needs (objects objs) o') := by
  rcases ha with rfl | ⟨o', rfl, hc⟩
  · exact ⟨(linked_dep ho hd).1, Or.inl rfl⟩
  · obtain ⟨a1, a2, a3, a4, a5, _⟩ := c.copyOp hc
    have h1 : m.Needs (objects objs) o' := .dep (o' + 1) o' (.dep o _ ho hd) (by show o' ∈ (objects objs (o' + 1)).deps; rw [a5]; simp)
    exact ⟨(linked_dep h1 (by rw [a3]; simp)).1, Or.inr ⟨o', rfl, hc, h1⟩⟩

theorem Ctx.opOf_arg (c : Ctx objs b path s m) {n : Nat} {t : Stmt K F} {o : Nat} (ht : s.body.Has n t) (h : OpOf s.st.objs s.st.env n t o) {d : Nat} (hd : d ∈ (objects objs o).deps) :
    ∃ x a, x ∈ t.operands ∧ s.st.env[x]? = some a ∧ ArgOk s.st.objs s.st.env d a := by
  obtain ⟨k, base, a1, a2, a3, a4, a5, a6, a7, a8⟩ := c.opOf ht h
  obtain ⟨a, ha, h1⟩ := forall₂_mem_left a8 hd
  obtain ⟨x, hx, rfl⟩ := List.mem_map.1 ha
  refine ⟨x, _, hx, ?_, h1⟩
  obtain ⟨d', hd'⟩ := (a6 x hx).2
  rw [hd', List.getD_eq_getElem?_getD, hd']
  rfl

/-- what needed objects are -/
inductive LiveObj (objs : List (PObj K F)) (s : Slot K F) (m : OModel) (i : Nat) : Prop
  | declared : i ∈ m.declared → LiveObj objs s m i
  | var (x : Nat) : s.st.env[x]? = some i → s.body.Live x → LiveObj objs s m i
  | copy (o d x : Nat) : i = o + 1 → CopyOp s.st.objs s.st.env o d → s.st.env[x]? = some d → s.body.Live x → LiveObj objs s m i
  | op (n : Nat) (t : Stmt K F) (x : Nat) : s.body.Has n t → OpOf s.st.objs s.st.env n t i → n ≤ x → x < n + t.count → s.body.Live x → LiveObj objs s m i
  | copyOp (d x : Nat) : CopyOp s.st.objs s.st.env i d → s.st.env[x]? = some d → s.body.Live x → LiveObj objs s m i
  | asm (y v : Nat) (name : Name) (shape : Shape) (val : Val K) (es : List (Shape × List Int)) : AsmOp objs s i y v name shape val es → LiveObj objs s m i

theorem Ctx.live (c : Ctx objs b path s m) {i : Nat} (h : m.Needs (objects objs) i) : LiveObj objs s m i := by
  unfold OModel.Needs at h
  induction h with
  | leaf i hi =>
    rcases List.mem_append.1 hi with hi | hi
    · obtain ⟨x, h1, _, _, h2, _⟩ := c.var_named (o := i) (by simp [OModel.vars, hi])
      obtain ⟨nm, h3⟩ := h2 hi
      exact .var x h1 (.output h3)
    · exact .declared hi
  | dep v u hv hu ih =>
    have hu : u ∈ (objects objs v).deps := hu
    cases ih with
    | declared hd =>
      obtain ⟨x, h1, _⟩ := c.var_named (o := v) (by simp [OModel.vars, hd])
      obtain ⟨h2, h3, _⟩ := c.computed h1 hu
      obtain ⟨_, hk, _⟩ := (c.var (c.needs hv).1 (c.decl hd).2.1).2 u hu
      have := (c.op h2 hk).2.1 v h3
      rw [(c.decl hd).2.2] at this
      cases this.2.2.1
    | var x h1 hl =>
      obtain ⟨_, _, ⟨n, t, j, h2, h3, h4, h6, h7⟩ | ⟨y, name, shape, val, es, g⟩⟩ := c.computed h1 hu
      · exact .op n t (n + j) h2 h3 (by omega) (by omega) (h7 hl)
      · exact .asm y v name shape val es g
    | copy o d x h1 hc h2 hl =>
      subst h1
      rw [(c.copyOp hc).2.2.2.2.1] at hu
      obtain rfl : u = o := by simpa using hu
      exact .copyOp d x hc h2 hl
    | op n t x h1 h2 h3 h4 hl =>
      obtain ⟨y, a, hy, ha, hd⟩ := c.opOf_arg h1 h2 hu
      have hly : s.body.Live y := .operand hl h1 h3 h4 hy
      rcases hd with rfl | ⟨o', rfl, hc⟩
      · exact .var y ha hly
      · exact .copy o' a y rfl hc ha hly
    | copyOp d x hc h1 hl =>
      rw [(c.copyOp hc).2.2.1] at hu
      obtain rfl : u = d := by simpa using hu
      exact .var x h1 hl
    | asm y w name shape val es g =>
      obtain ⟨key, x, _, g2, g3⟩ := g.dep c hu
      exact .var x g2 g3
  | out u v hu hk hv ih =>
    have hk : (objects objs u).kind = .op := hk
    have hv : v ∈ (objects objs u).outs := hv
    cases ih with
    | declared hd => rw [(c.decl hd).2.1] at hk; cases hk
    | var x h1 hl => rw [(c.envHas h1).2] at hk; cases hk
    | copy o d x h1 hc h2 hl => subst h1; rw [(c.copyOp hc).2.2.2.2.2.1] at hk; cases hk
    | op n t x h1 h2 h3 h4 hl =>
      obtain ⟨y, y1, y2⟩ := c.live_out h1 h2 h3 h4 hl hv
      exact .var y y1 y2
    | copyOp d x hc h1 hl =>
      rw [(c.copyOp hc).2.2.2.1] at hv
      exact .copy u d x (by simpa using hv) hc h1 hl
    | asm y w name shape val es g =>
      rw [g.outs] at hv
      obtain rfl : v = w := by simpa using hv
      exact .var y g.var g.live

omit [Field K] [DecidableEq K] in
theorem has_declare {b : Body K F} {x : Nat} {nm : Name} {sh : Shape} (h : (x, nm, sh) ∈ (b.stmts 0).filterMap declaredOf) : ∃ e, b.Has x (.declare nm sh e) := by
  obtain ⟨⟨n, t⟩, h1, h2⟩ := List.mem_filterMap.1 h
  cases t <;> simp [declaredOf] at h2
  obtain ⟨rfl, rfl, rfl⟩ := h2
  exact ⟨_, h1⟩

omit [Field K] [DecidableEq K] in
theorem has_input {b : Body K F} {x : Nat} {nm : Name} {sh : Shape} (h : (x, nm, sh) ∈ (b.stmts 0).filterMap inputOf) : ∃ v, b.Has x (.input nm sh v) := by
  obtain ⟨⟨n, t⟩, h1, h2⟩ := List.mem_filterMap.1 h
  cases t <;> simp [inputOf] at h2
  obtain ⟨rfl, rfl, rfl⟩ := h2
  exact ⟨_, h1⟩

/-- a declared variable in use matters -/
theorem Ctx.live_declared (c : Ctx objs b path s m) (ok : ModelOk (objects objs) objs.length m) (hg : GoodNames b) (h4 : objs.length ≤ 63 ^ 4) {x o : Nat} (hd : o ∈ m.declared)
    (hu : m.Uses (objects objs) o) (hn : s.body.Named x (objects objs o).name) : s.body.Live x := by
  rcases hu with hi | ⟨_, y, hy, hname⟩
  · have := (c.input hi).2.2
    rw [(c.decl hd).2.2] at this
    cases this
  · have hov : o ∈ m.vars := by simp [OModel.vars, hd]
    have h1 := c.needs hy.1
    -- `y` is a declared variable too
    have hyv : y ∈ m.vars := by
      by_contra hc
      have h2 := (c.name h1.1 h1.2).2 hc
      rw [hname] at h2
      exact c.userName hg hov (h2 ▸ auto_like (Nat.lt_of_lt_of_le (Nat.lt_of_lt_of_le h1.1.2 c.pre.length_le) h4))
    have hyd : y ∈ m.declared := by
      rcases ok.sourceNames y hyv o hov hname with rfl | h
      · exact hd
      · exact h.1
    obtain ⟨z, z1, z2, _, _, z3⟩ := c.var_named hyv
    obtain ⟨nm, sh, z3⟩ := z3 hyd
    obtain ⟨e, hz⟩ := has_declare z3
    have hrole := (c.decl hyd).2
    -- a variable with object `y` matters
    have key : ∃ x', s.st.env[x']? = some y ∧ s.body.Live x' := by
      obtain ⟨_, u, hu, hdep | hdep⟩ := hy
      · have hco : ∀ u, s.Has u → (objects objs u).kind = .op → y ∈ (objects objs u).outs → False := by
          intro u hu hk hm
          have := (c.op hu hk).2.1 y hm
          rw [hrole.2] at this
          cases this.2.2.1
        rcases hdep with hdep | ⟨hk, hm⟩
        · obtain ⟨g1, g2, g3⟩ := (c.var h1.1 hrole.1).2 u hdep
          exact (hco u g1 g2 g3).elim
        · exact (hco u (c.needs hu).1 hk hm).elim
      · rcases hdep with hdep | ⟨hk, _⟩
        · have hdep : y ∈ (objects objs u).deps := hdep
          have hcv : (objects objs u).kind = .var → False := by
            intro hk
            have := ((c.var (c.needs hu).1 hk).2 y hdep).2.1
            rw [hrole.1] at this
            cases this
          cases c.live hu with
          | declared hd' => exact (hcv (c.decl hd').2.1).elim
          | var x' g1 _ => exact (hcv (c.envHas g1).2).elim
          | copy o' d x' g1 hc _ _ => subst g1; exact (hcv (c.copyOp hc).2.2.2.2.2.1).elim
          | op n t x' g1 g2 g3 g4 hl =>
            obtain ⟨x2, a, hx2, ha, hda⟩ := c.opOf_arg g1 g2 hdep
            rcases hda with rfl | ⟨o', rfl, hc⟩
            · exact ⟨x2, ha, .operand hl g1 g3 g4 hx2⟩
            · have := (c.copyOp hc).2.2.2.2.2.2.1
              rw [hrole.2] at this
              cases this
          | copyOp d x' hc g1 hl =>
            rw [(c.copyOp hc).2.2.1] at hdep
            obtain rfl : y = d := by simpa using hdep
            exact ⟨x', g1, hl⟩
          | asm y' w name shape val es g =>
            obtain ⟨key, x', _, g2, g3⟩ := g.dep c hdep
            exact ⟨x', g2, g3⟩
        · have hk : (objects objs y).kind = .op := hk
          rw [hrole.1] at hk
          cases hk
    obtain ⟨x', hx', hl⟩ := key
    have hlz : s.body.Live z := c.first' hz (by rintro ⟨_, h⟩; cases h) (Nat.le_refl _) (by simp [Stmt.count]) hx' z1 hl
    exact .same hlz z2 (by rw [hname]; exact hn)

/-- variables that matter are in use -/
theorem Ctx.uses_of_live (c : Ctx objs b path s m) (ok : ModelOk (objects objs) objs.length m) {x : Nat} (h : s.body.Live x) : ∃ o, s.st.env[x]? = some o ∧ m.Uses (objects objs) o := by
  have hres : ∀ {o i : Nat}, (objects objs i).kind = .op → s.Has i → o ∈ (objects objs i).outs → m.Uses (objects objs) o → m.Needs (objects objs) i := by
    intro o i hk hi ho hu
    obtain ⟨_, _, g3, g4⟩ := (c.op hi hk).2.1 o ho
    have := c.uses_needs hu (by rw [g3]; decide)
    exact .dep o i this (by show i ∈ (objects objs o).deps; rw [g4]; simp)
  induction h with
  | input hi =>
    obtain ⟨o, ho, h1⟩ := forall₂_mem_right c.inv.inputs hi
    exact ⟨o, h1.1, Or.inl (by rw [c.mat.inputs]; exact ho)⟩
  | output hi =>
    obtain ⟨o, ho, h1⟩ := forall₂_mem_right c.inv.outputs hi
    have hm : o ∈ m.outputs := by rw [c.mat.outputs]; exact ho
    have hn : m.Needs (objects objs) o := .leaf o (by simp [hm])
    refine ⟨o, h1.1, Linked.uses ?_⟩
    obtain ⟨p, g1, g2, hgd⟩ := c.get (c.output hm).1
    have hr := (c.output hm).2
    rw [g2] at hr
    cases hgd with
    | input a1 a2 => rw [a2] at hr; cases hr.2
    | declared a1 a2 => rw [a2] at hr; cases hr.2
    | result i q a1 a2 a3 a4 => exact (linked_dep (d := i) hn (by rw [g2, a4]; simp)).2
    | concat a1 a2 a3 a4 a5 a6 =>
      obtain ⟨y, nm, sh, val, h2, h3⟩ := c.inv.concat_made g1 a2 a3 h1.1
      obtain ⟨i, v, es, g⟩ := c.asm_of_output h2
      have := g.var
      rw [h3] at this
      cases this
      exact (linked_dep (d := i) hn (by rw [g.result]; simp)).2
    | op a1 => rw [a1] at hr; cases hr.1
    | model a1 => rw [a1] at hr; cases hr.1
  | @operand x y n t hy ht h1 h2 hx ih =>
    obtain ⟨o, ho, hu⟩ := ih
    cases c.inv.stmts n t ht with
    | input => simp [Stmt.operands] at hx
    | declare => simp [Stmt.operands] at hx
    | register => simp [Stmt.operands] at hx
    | connect => simp [Stmt.operands] at hx
    | assign => simp [Stmt.operands] at hx
    | output => simp [Stmt.operands] at hx
    | «alias» hl a2 a3 a4 =>
      obtain ⟨cc, rfl⟩ := lower_none hl
      obtain rfl : y = n := by simp [Stmt.count] at h2; omega
      rw [a4] at ho
      cases ho
      obtain rfl : x = cc := by simpa [Stmt.operands, Instr.first, Instr.others] using hx
      exact ⟨_, a3, hu⟩
    | op i hi =>
      obtain ⟨k, base, a1, a2, a3, a4, a5, a6, a7, a8⟩ := c.opOf ht hi
      obtain ⟨v, v1, v2⟩ := c.opOf_out ht hi h1 h2
      rw [ho] at v1
      cases v1
      have hni := hres a1 (c.opOf_has hi (j := y - n) (by omega)) v2 hu
      obtain ⟨a, ha⟩ := (a6 x hx).2
      have hmem : s.st.env.getD x 0 ∈ t.operands.map (s.st.env.getD · 0) := List.mem_map_of_mem hx
      obtain ⟨d, hd, hda⟩ := forall₂_mem_right a8 hmem
      rw [List.getD_eq_getElem?_getD, ha] at hda
      exact ⟨a, ha, Linked.uses (c.args_linked hni hd hda).1⟩
  | @result x y n t hy ht h1 h2 h3 h4 ih =>
    obtain ⟨o, ho, hu⟩ := ih
    cases c.inv.stmts n t ht with
    | input =>
      obtain rfl : x = y := by simp [Stmt.count] at h2 h4; omega
      exact ⟨o, ho, hu⟩
    | declare =>
      obtain rfl : x = y := by simp [Stmt.count] at h2 h4; omega
      exact ⟨o, ho, hu⟩
    | output =>
      obtain rfl : x = y := by simp [Stmt.count] at h2 h4; omega
      exact ⟨o, ho, hu⟩
    | register => simp [Stmt.count] at h2; omega
    | connect => simp [Stmt.count] at h2; omega
    | assign => simp [Stmt.count] at h2; omega
    | «alias» =>
      obtain rfl : x = y := by simp [Stmt.count] at h2 h4; omega
      exact ⟨o, ho, hu⟩
    | op i hi =>
      obtain ⟨k, base, a1, a2, a3, a4, a5, a6, a7, a8⟩ := c.opOf ht hi
      obtain ⟨v, v1, v2⟩ := c.opOf_out ht hi h1 h2
      rw [ho] at v1
      cases v1
      have hni := hres a1 (c.opOf_has hi (j := y - n) (by omega)) v2 hu
      obtain ⟨w, w1, w2⟩ := c.opOf_out ht hi h3 h4
      exact ⟨_, w1, Linked.uses (linked_out hni a1 w2)⟩
  | @part x y u v k l hy hty htx ha ih =>
    obtain ⟨o, ho, hu⟩ := ih
    obtain ⟨i, hi⟩ := c.inv.index_op hty
    obtain ⟨i', hi'⟩ := c.inv.index_op htx
    have hii : i = i' := by
      obtain ⟨_, _, p1, _, _, _, _, d, r1, _, _, r4, r5, r6, _⟩ := c.inv.indexOp hty hi
      obtain ⟨_, _, p2, _, _, _, _, d', q1, _, _, q4, q5, q6, _⟩ := c.inv.indexOp htx hi'
      have := (c.alias_iff (lt_of_some r5)).1 ha
      rw [r5, q5] at this
      cases this
      rw [r6] at q6
      cases q6
      rfl
    subst hii
    obtain ⟨k', base, a1, _⟩ := c.opOf hty hi
    obtain ⟨v, v1, v2⟩ := c.opOf_out hty hi (Nat.le_refl _) (by simp [Stmt.count])
    rw [ho] at v1
    cases v1
    have hni := hres a1 (c.opOf_has hi (j := 0) (by simp [Stmt.count])) v2 hu
    obtain ⟨w, w1, w2⟩ := c.opOf_out htx hi' (Nat.le_refl _) (by simp [Stmt.count])
    exact ⟨_, w1, Linked.uses (linked_out hni a1 w2)⟩
  | @assigned x n z key ht =>
    obtain ⟨hz, hx⟩ := c.inv.assignLt ht
    obtain ⟨v, ⟨cc, val⟩, h1, h2⟩ := c.inv.targets _ _ _ _ ht
    obtain ⟨i, y, name, es, g⟩ := c.asm_of_concat h2
    have hmem : (key, x) ∈ assignsTo s.st.env v (s.body.stmts 0) := assignsTo_mem.2 ⟨n, z, ht, h1⟩
    refine ⟨_, getD_some hx, Linked.uses (linked_dep (o := i) ?_ ?_).1⟩
    · exact g.needs c
    · rw [g.deps]
      exact List.mem_map.2 ⟨_, hmem, rfl⟩
  | @same x y nm hy hny hnx ih =>
    obtain ⟨o, ho, hu⟩ := ih
    obtain ⟨o1, v1, e1, n1⟩ := c.named hny
    obtain ⟨o2, v2, e2, n2⟩ := c.named hnx
    rw [ho] at e1
    cases e1
    rcases ok.sourceNames o v1 o2 v2 (n1.trans n2.symm) with rfl | ⟨d1, d2⟩
    · exact ⟨_, e2, hu⟩
    · refine ⟨o2, e2, ?_⟩
      rcases hu with hi | ⟨_, z, hz, hn⟩
      · have := (c.input hi).2.2
        rw [(c.decl d1).2.2] at this
        cases this
      · exact Or.inr ⟨.leaf o2 (by simp [d2]), z, hz, by rw [hn, n1, n2]⟩

end Csdl.Prog
