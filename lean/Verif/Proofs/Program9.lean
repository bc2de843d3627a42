import Verif.Proofs.Program8
import Verif.Proofs.Scatter
/-
Solutions of the program and solutions of its objects.
-/
namespace Csdl.Prog
open Csdl Csdl.Arith
variable {K F : Type} [Field K] [DecidableEq K]
variable {objs : List (PObj K F)} {b : Body K F} {root : OModel} {Ls : List (List Name × Slot K F)}
variable {P : Power K} {den : F → List (Val K) → Nat → Val K}

omit [DecidableEq K] in
theorem opMeaning_eq {objs : List (PObj K F)} {i : Nat} {k : Kind K F} (h : kindOf objs i = some k) (args : List (Val K)) (v : Nat) :
    opMeaning P den objs i args v = k.eval P den args ((objects objs i).outs.idxOf v) := by
  unfold opMeaning
  rw [h]

theorem idxOf_nodup {l : List Nat} (h : l.Nodup) {j v : Nat} (hj : l[j]? = some v) : l.idxOf v = j := by
  have h2 := lt_of_some hj
  have h3 : l[j] = v := by rw [List.getElem?_eq_getElem h2] at hj; exact Option.some.inj hj
  rw [← h3]
  exact List.Nodup.idxOf_getElem h j h2

/-- what the operation of an indexing statement computes -/
theorem part_eval {sh : Nat → Shape} {x : Nat} {key : Key} {k : Kind K F} {as : List Nat} {n base : Nat} (h : Lowered sh (.index x key) k as n base) (v : Val K) :
    k.eval P den [v] base = part (sh x) key v := by
  cases h with
  | index h1 h2 =>
    unfold part
    rw [h1]
    simp [Kind.eval, List.getD_eq_getElem?_getD, h2]

theorem map_args {R : Nat → Nat → Prop} {V : Type} {ds as : List Nat} {σ τ : Nat → V} (h : List.Forall₂ R ds as) (hR : ∀ d ∈ ds, ∀ a ∈ as, R d a → σ d = τ a) : ds.map σ = as.map τ :=
  map_of_forall₂ h hR

/-- what the operation that assembles an output computes: the values of the assigned variables in the assigned parts, and the value of the output elsewhere -/
theorem AsmOp.eval {path : List Name} {s : Slot K F} {m : OModel} (c : Ctx objs b path s m) {i y v : Nat} {name : Name} {shape : Shape} {val : Val K} {es : List (Shape × List Int)}
    (g : AsmOp objs s i y v name shape val es) {σ : Nat → Val K} {τ : Nat → Val K} (hσ : ∀ key x o, s.body.Assigned y key x → s.st.env[x]? = Option.some o → σ o = τ x) (w : Val K) :
    w = (Kind.assemble shape val es : Kind K F).eval P den ((objects objs i).deps.map σ) 0 ↔
      (∀ key x idx shp, s.body.Assigned y key x → tgtIndices shape key = .ok (idx, shp) → ∀ i j : _, idx[j]? = Option.some (ravel shape i : Int) → w i = τ x (unravel shp j)) ∧
      ∀ i, (∀ key x idx shp, s.body.Assigned y key x → tgtIndices shape key = .ok (idx, shp) → (ravel shape i : Int) ∉ idx) → w i = val i := by
  have hargs : (objects objs i).deps.map σ = (assignsTo s.st.env v (s.body.stmts 0)).map fun kx => τ kx.2 := by
    rw [g.deps, List.map_map]
    refine List.map_congr_left fun kx hk => ?_
    have := (g.assigned c).1 (show (kx.1, kx.2) ∈ _ from hk)
    exact hσ kx.1 kx.2 _ this (getD_some (c.assigned_lt this))
  obtain ⟨z1, z2, z3⟩ := zip_of_forall₂ (f := fun kx : Key × Nat => τ kx.2) g.entries
  have hev : (Kind.assemble shape val es : Kind K F).eval P den ((objects objs i).deps.map σ) 0 = scatter shape val (es.zip ((assignsTo s.st.env v (s.body.stmts 0)).map fun kx => τ kx.2)) := by
    rw [hargs]; rfl
  have hhit : ∀ key x idx shp, s.body.Assigned y key x → tgtIndices shape key = .ok (idx, shp) → ∀ i j : _, idx[j]? = Option.some (ravel shape i : Int) →
      scatter shape val (es.zip ((assignsTo s.st.env v (s.body.stmts 0)).map fun kx => τ kx.2)) i = τ x (unravel shp j) := by
    intro key x idx shp ha ht i j hj
    obtain ⟨⟨e1, e2⟩, ⟨_, h2, _⟩, h3⟩ := z3 (key, x) ((g.assigned c).2 ha)
    rw [ht] at h2
    cases h2
    exact scatter_hit (e := (e1, e2)) (tgt_facts ht).1 hj (by rw [z1]; exact g.disjoint) h3
  have hmiss : ∀ i, (∀ key x idx shp, s.body.Assigned y key x → tgtIndices shape key = .ok (idx, shp) → (ravel shape i : Int) ∉ idx) →
      scatter shape val (es.zip ((assignsTo s.st.env v (s.body.stmts 0)).map fun kx => τ kx.2)) i = val i := by
    intro i hi
    refine scatter_miss ?_
    rintro ⟨e, a⟩ hp
    obtain ⟨⟨key, x⟩, k1, ⟨_, k2, _⟩, _⟩ := z2 _ _ hp
    exact hi key x _ _ ((g.assigned c).1 k1) k2
  rw [hev]
  constructor
  · rintro rfl
    exact ⟨hhit, hmiss⟩
  · rintro ⟨h1, h2⟩
    funext i
    by_cases hi : ∀ key x idx shp, s.body.Assigned y key x → tgtIndices shape key = .ok (idx, shp) → (ravel shape i : Int) ∉ idx
    · rw [h2 i hi, hmiss i hi]
    · push Not at hi
      obtain ⟨key, x, idx, shp, ha, ht, hm⟩ := hi
      obtain ⟨j, hj⟩ := List.mem_iff_getElem?.1 hm
      rw [h1 key x idx shp ha ht i j hj, hhit key x idx shp ha ht i j hj]

/-- values of objects give values of the variables of the program -/
theorem Setup.sound (u : Setup objs b root Ls) {σ : Nat → Val K} (h : ObjSolution (objects objs) root (opMeaning P den objs) σ) : Solution P den b (fun path x => σ (objOf Ls path x)) := by
  have hcopy : ∀ {path : List Name} {s : Slot K F} {m : OModel}, Ctx objs b path s m → OAt (objects objs) root path m → ∀ {o d a : Nat}, m.Needs (objects objs) o → d ∈ (objects objs o).deps →
      ArgOk s.st.objs s.st.env d a → σ d = σ a := by
    intro path s m c hm o d a ho hd ha
    rcases (c.args_linked ho hd ha).2 with rfl | ⟨o', rfl, hc, hn⟩
    · rfl
    · obtain ⟨a1, a2, a3, a4, _⟩ := c.copyOp hc
      rw [h.ops path m hm o' hn a1 (o' + 1) (by rw [a4]; simp), opMeaning_eq a2, a3]
      exact copy_eval P den (σ a) _
  -- the operation of a statement
  have hop : ∀ {path : List Name} {s : Slot K F} {m : OModel}, Ctx objs b path s m → OAt (objects objs) root path m → (path, s) ∈ Ls → ∀ {n : Nat} {t : Stmt K F} {o j : Nat}, s.body.Has n t →
      OpOf s.st.objs s.st.env n t o → j < t.count → s.body.Live (n + j) →
      ∃ k base, Lowered (shapeAt s.st.objs s.st.env) t k t.operands t.count base ∧ (∀ a ∈ t.operands, a < n ∧ a < s.st.env.length) ∧
        σ (objOf Ls path (n + j)) = k.eval P den (t.operands.map fun x => σ (objOf Ls path x)) (base + j) := by
    intro path s m c hm hs n t o j ht ho hj hl
    obtain ⟨k, base, a1, a2, a3, a4, a5, a6, a7, a8⟩ := c.opOf ht ho
    refine ⟨k, base, a3, fun a ha => ⟨(a6 a ha).1, lt_of_some (a6 a ha).2.choose_spec⟩, ?_⟩
    have hhas := c.opOf_has ho hj
    obtain ⟨v, v1, v2⟩ := a5 j hj
    have hmem := List.mem_of_getElem? v1
    have hres := (c.op hhas a1).2.1 _ hmem
    obtain ⟨o', e1, e2⟩ := c.uses_of_live (u.ok.models path m hm) hl
    rw [v2] at e1
    cases e1
    have hv := c.uses_needs e2 (by rw [hres.2.2.1]; decide)
    have hn : m.Needs (objects objs) o := .dep _ o hv (by show o ∈ (objects objs v).deps; rw [hres.2.2.2]; simp)
    rw [u.hier.objOf' hs v2, h.ops path m hm o hn a1 _ hmem, opMeaning_eq a2, idxOf_nodup (c.op hhas a1).2.2.1 v1]
    congr 1
    have : t.operands.map (fun x => σ (objOf Ls path x)) = (t.operands.map (s.st.env.getD · 0)).map σ := by
      rw [List.map_map]
      exact List.map_congr_left fun x _ => by rw [u.hier.objOf hs]; rfl
    rw [this]
    exact map_args a8 fun d hd a ha hda => hcopy c hm hn hd hda
  constructor
  case expr =>
    intro path b' hb n i hi hl
    obtain ⟨s, hs, rfl⟩ := u.hier.ofBody path b' hb
    obtain ⟨m, hm, c⟩ := u.hier.model hs
    cases c.inv.stmts n _ hi with
    | «alias» a1 a2 a3 a4 =>
      obtain ⟨x, rfl⟩ := lower_none a1
      funext e
      simp only [Instr.meaning]
      rw [range_getD _ n x a2, u.hier.objOf' hs a4, u.hier.objOf' hs (show s.st.env[x]? = _ from a3)]
    | op o ho =>
      obtain ⟨k, base, h1, h2, h3⟩ := hop c hm hs (j := 0) hi ho (by simp [Stmt.count]) hl
      simp only [Nat.add_zero] at h3
      rw [h3]
      cases h1 with
      | expr hlow =>
        rw [← lower_meaning P _ hlow]
        simp only [Kind.eval]
        congr 1
        exact List.map_congr_left fun a ha => by rw [range_getD _ _ _ (h2 a ha).1]
  case call =>
    intro path b' hb n f args outs hi j hj hl
    obtain ⟨s, hs, rfl⟩ := u.hier.ofBody path b' hb
    obtain ⟨m, hm, c⟩ := u.hier.model hs
    cases c.inv.stmts n _ hi with
    | op o ho =>
      obtain ⟨k, base, h1, h2, h3⟩ := hop c hm hs hi ho hj hl
      rw [h3]
      cases h1
      rw [Nat.zero_add]
      rfl
  case index =>
    intro path b' hb n x key hi hl
    obtain ⟨s, hs, rfl⟩ := u.hier.ofBody path b' hb
    obtain ⟨m, hm, c⟩ := u.hier.model hs
    cases c.inv.stmts n _ hi with
    | op o ho =>
      obtain ⟨k, base, h1, h2, h3⟩ := hop c hm hs (j := 0) hi ho (by simp [Stmt.count]) hl
      simp only [Nat.add_zero] at h3
      rw [h3, Body.shapes, c.inv.shapeAt (h2 x (by simp [Stmt.operands])).2]
      exact part_eval h1 _
  case output =>
    intro path b' hb y name shape val hi
    obtain ⟨s, hs, rfl⟩ := u.hier.ofBody path b' hb
    obtain ⟨m, hm, c⟩ := u.hier.model hs
    obtain ⟨i, v, es, g⟩ := c.asm_of_output hi
    have hn : m.Needs (objects objs) i := g.needs c
    have hv := h.ops path m hm i hn g.op v (by rw [g.outs]; simp)
    rw [opMeaning_eq g.kind, g.outs, List.idxOf_cons_self] at hv
    show (∀ key x idx shp, _ → _ → ∀ i j : _, _ → σ (objOf Ls path y) i = σ (objOf Ls path x) _) ∧ ∀ i, _ → σ (objOf Ls path y) i = _
    rw [u.hier.objOf' hs g.var]
    exact (g.eval c (τ := fun x => σ (objOf Ls path x)) (fun key x o _ ho => by rw [u.hier.objOf' hs ho]) _).1 hv
  case shared =>
    intro path x path' y p hx hy
    exact h.shared _ _ p (u.rep_of_hasName hx).2 (u.rep_of_hasName hy).2
  case connected =>
    intro path b' hb s t p q hst hp hq path1 x path2 y hx hy
    obtain ⟨sl, hs, rfl⟩ := u.hier.ofBody path b' hb
    obtain ⟨m, hm, c⟩ := u.hier.model hs
    refine h.connected path m s t p q hm ?_ (by rw [u.hier.names]; exact hp) (by rw [u.hier.names]; exact hq) _ _ (u.rep_of_hasName hx).2 (u.rep_of_hasName hy).2
    rw [c.mat.connections, c.inv.connections]
    exact hst

/-- the value of a variable that matters is that of the first variable of its object -/
theorem Ctx.first_value {path : List Name} {s : Slot K F} {m : OModel} (c : Ctx objs b path s m) {ρ : List Name → Nat → Val K} (h : Solution P den b ρ) {x o : Nat} (hl : s.body.Live x)
    (hx : s.st.env[x]? = some o) : ∃ z, s.st.env[z]? = some o ∧ (∀ w < z, s.st.env[w]? ≠ some o) ∧ ρ path x = ρ path z := by
  induction x using Nat.strong_induction_on generalizing o with
  | _ x ih =>
    rcases c.inv.down hx with hf | ⟨y, hyx, hy, hp | ⟨k, v, ku, kv, d, h1, h2, h3, h4, h5, h6, h7⟩⟩
    · exact ⟨x, hx, hf, rfl⟩
    · have hly : s.body.Live y := .operand hl hp (Nat.le_refl _) (by simp [Stmt.count]) (by simp [Stmt.operands, Instr.first])
      obtain ⟨z, z1, z2, z3⟩ := ih y hyx hly hy
      refine ⟨z, z1, z2, ?_⟩
      rw [← z3, h.expr path _ c.at_ x _ hp hl]
      funext e
      simp only [Instr.meaning]
      rw [range_getD _ _ _ hyx]
    · have hly : s.body.Live y := .part hl h1 h2 ((c.alias_iff (lt_of_some h5)).2 (h5.trans h6.symm))
      obtain ⟨z, z1, z2, z3⟩ := ih y hyx hly hy
      refine ⟨z, z1, z2, ?_⟩
      have lu : s.body.Live k := .operand hl h1 (Nat.le_refl _) (by simp [Stmt.count]) (by simp [Stmt.operands])
      have lv : s.body.Live v := .operand hly h2 (Nat.le_refl _) (by simp [Stmt.count]) (by simp [Stmt.operands])
      obtain ⟨w, w1, w2, w3⟩ := ih k h3 lu h5
      obtain ⟨w', w1', w2', w3'⟩ := ih v (by omega) lv h6
      have hw : w = w' := by
        rcases Nat.lt_trichotomy w w' with hh | hh | hh
        · exact absurd w1 (w2' w hh)
        · exact hh
        · exact absurd w1' (w2 w' hh)
      rw [← z3, h.index path _ c.at_ x _ _ h1 hl, h.index path _ c.at_ y _ _ h2 hly, w3, w3', hw]
      have hs : s.body.shapes.getD k [] = s.body.shapes.getD v [] := by
        rw [Body.shapes, c.inv.shapeAt (lt_of_some h5), c.inv.shapeAt (lt_of_some h6)]
        unfold Prog.shapeAt
        rw [List.getD_eq_getElem?_getD, List.getD_eq_getElem?_getD, h5, h6]
      unfold Body.shapes at hs ⊢
      unfold part keyPart
      rw [h7, hs]

/-- variables that matter with one object have one value -/
theorem Ctx.alias_value {path : List Name} {s : Slot K F} {m : OModel} (c : Ctx objs b path s m) {ρ : List Name → Nat → Val K} (h : Solution P den b ρ) {x y o : Nat} (hl : s.body.Live x)
    (hl' : s.body.Live y) (hx : s.st.env[x]? = some o) (hy : s.st.env[y]? = some o) : ρ path x = ρ path y := by
  obtain ⟨w, w1, w2, w3⟩ := c.first_value h hl hx
  obtain ⟨w', w1', w2', w3'⟩ := c.first_value h hl' hy
  have hw : w = w' := by
    rcases Nat.lt_trichotomy w w' with hh | hh | hh
    · exact absurd w1 (w2' w hh)
    · exact hh
    · exact absurd w1' (w2 w' hh)
  rw [w3, w3', hw]

/-- the values of variables that are the same -/
theorem Solution.same {ρ : List Name → Nat → Val K} (u : Setup objs b root Ls) (h : Solution P den b ρ) {q r : List Name × Nat} (hqr : Relation.EqvGen (Same b) q r) : ρ q.1 q.2 = ρ r.1 r.2 := by
  induction hqr with
  | rel q r hs =>
    cases hs with
    | name p h1 h2 => exact h.shared _ _ _ _ p h1 h2
    | connection path b' s t p q hb hst hp hq h1 h2 => exact h.connected path b' hb s t p q hst hp hq _ _ _ _ h1 h2
    | @«alias» path x y b' hb hl hl' hx =>
      obtain ⟨sl, hs, rfl⟩ := u.hier.ofBody path b' hb
      obtain ⟨m, hm, c⟩ := u.hier.model hs
      obtain ⟨o, ho, _⟩ := c.uses_of_live (u.ok.models path m hm) hl
      exact c.alias_value h hl hl' ho (((c.alias_iff (lt_of_some ho)).1 hx).symm.trans ho)
  | refl q => rfl
  | symm q r _ ih => exact ih.symm
  | trans q r t _ _ ih1 ih2 => exact ih1.trans ih2

open Classical in
/-- values of the objects from values of the variables of the program; the result of a copy has the value of what is copied -/
noncomputable def objValues (objs : List (PObj K F)) (Ls : List (List Name × Slot K F)) (ρ : List Name → Nat → Val K) (o : Nat) : Val K :=
  if ∃ q : List Name × Nat, Rep Ls q.1 q.2 o then ρ (pick Ls o).1 (pick Ls o).2
  else ρ (pick Ls ((objects objs (o - 1)).deps.headD 0)).1 (pick Ls ((objects objs (o - 1)).deps.headD 0)).2

theorem Setup.objValues_rep (u : Setup objs b root Ls) {ρ : List Name → Nat → Val K} (h : Solution P den b ρ) {path : List Name} {x o : Nat} (hr : Rep Ls path x o) :
    objValues objs Ls ρ o = ρ path x := by
  unfold objValues
  rw [if_pos ⟨(path, x), hr⟩]
  exact h.same u (u.pick_same hr)

/-- the result of a copy is not a variable of the program -/
theorem Setup.copy_hidden (u : Setup objs b root Ls) {path : List Name} {s : Slot K F} {m : OModel} (c : Ctx objs b path s m) (hs : (path, s) ∈ Ls) {o d : Nat} (hh : s.Has (o + 1))
    (hc : CopyOp s.st.objs s.st.env o d) (q : List Name × Nat) : ¬ Rep Ls q.1 q.2 (o + 1) := by
  rintro ⟨s', hs', hx, _⟩
  obtain ⟨m', _, c'⟩ := u.hier.model hs'
  obtain ⟨_, rfl⟩ := u.hier.slot_unique hs hs' hh (c'.envHas hx).1
  exact hc.hidden (List.mem_of_getElem? hx)

theorem Setup.complete (u : Setup objs b root Ls) {ρ : List Name → Nat → Val K} (h : Solution P den b ρ) :
    ObjSolution (objects objs) root (opMeaning P den objs) (objValues objs Ls ρ) := by
  have hcopy : ∀ {path : List Name} {s : Slot K F} {m : OModel}, Ctx objs b path s m → (path, s) ∈ Ls → ∀ {o d x : Nat}, s.Has (o + 1) → CopyOp s.st.objs s.st.env o d → s.st.env[x]? = some d →
      s.body.Live x → objValues objs Ls ρ (o + 1) = ρ path x := by
    intro path s m c hs o d x hh hc hx hl
    unfold objValues
    rw [if_neg (fun ⟨q, hq⟩ => u.copy_hidden c hs hh hc q hq)]
    obtain ⟨a1, a2, a3, a4, _⟩ := c.copyOp hc
    simp only [Nat.add_sub_cancel, a3, List.headD_cons]
    exact h.same u (u.pick_same ⟨s, hs, hx, hl⟩)
  constructor
  case ops =>
    intro path m hm i hi hk v hv
    obtain ⟨s, hs, c⟩ := u.hier.ctx hm
    have hih := (c.needs hi).1
    have hvh := (c.op hih hk).2.1 v hv
    cases c.live hi with
    | declared hd => rw [(c.decl hd).2.1] at hk; cases hk
    | var x h1 hl => rw [(c.envHas h1).2] at hk; cases hk
    | copy o d x h1 hc h2 hl => subst h1; rw [(c.copyOp hc).2.2.2.2.2.1] at hk; cases hk
    | copyOp d x hc h1 hl =>
      obtain ⟨a1, a2, a3, a4, _⟩ := c.copyOp hc
      rw [a4] at hv
      obtain rfl : v = i + 1 := by simpa using hv
      rw [hcopy c hs hvh.1 hc h1 hl, opMeaning_eq a2, a3]
      simp only [List.map_cons, List.map_nil]
      rw [copy_eval]
      exact (u.objValues_rep h ⟨s, hs, h1, hl⟩).symm
    | asm y w name shape val es g =>
      have hv' := hv
      rw [g.outs] at hv'
      obtain rfl : v = w := by simpa using hv'
      rw [opMeaning_eq g.kind, g.outs, List.idxOf_cons_self]
      refine (g.eval c (τ := ρ path) ?_ _).2 ?_
      · rintro key x o ⟨n, z, ha, _⟩ ho
        exact u.objValues_rep h ⟨s, hs, ho, .assigned ha⟩
      · rw [u.objValues_rep h ⟨s, hs, g.var, g.live⟩]
        exact h.output path _ c.at_ y name shape val g.stmt
    | op n t x h1 h2 h3 h4 hl =>
      obtain ⟨y, hy, hly⟩ := c.live_out h1 h2 h3 h4 hl hv
      obtain ⟨_, _, ⟨n, t, j, h1, h2, hj, hnj, hlj⟩ | ⟨_, _, _, _, _, g⟩⟩ := c.computed hy (i := i) (by rw [hvh.2.2.2]; simp)
      case inr => exact absurd h2 (g.not_opOf c)
      replace hlj := hlj hly
      have h3 : n ≤ n + j := by omega
      have h4 : n + j < n + t.count := by omega
      have hl := hlj
      obtain ⟨k, base, a1, a2, a3, a4, a5, a6, a7, a8⟩ := c.opOf h1 h2
      obtain ⟨v', v1, v2⟩ := a5 j hj
      rw [hnj] at v2
      cases v2
      rw [u.objValues_rep h ⟨s, hs, hnj, hlj⟩, opMeaning_eq a2, idxOf_nodup (c.op hih hk).2.2.1 v1]
      have hargs : (objects objs i).deps.map (objValues objs Ls ρ) = t.operands.map (ρ path) := by
        have e : t.operands.map (ρ path) = (t.operands.map (s.st.env.getD · 0)).map (objValues objs Ls ρ) := by
          rw [List.map_map]
          refine List.map_congr_left fun y hy => ?_
          obtain ⟨d, hd⟩ := (a6 y hy).2
          simp only [Function.comp]
          rw [List.getD_eq_getElem?_getD, hd]
          exact (u.objValues_rep h ⟨s, hs, hd, .operand hl h1 h3 h4 hy⟩).symm
        rw [e]
        refine map_args a8 fun d hd a ha hda => ?_
        obtain ⟨y, hy, rfl⟩ := List.mem_map.1 ha
        obtain ⟨d', hd'⟩ := (a6 y hy).2
        simp only [List.getD_eq_getElem?_getD, hd'] at hda ⊢
        have hly : s.body.Live y := .operand hl h1 h3 h4 hy
        rcases hda with rfl | ⟨o', rfl, hc⟩
        · rfl
        · rw [hcopy c hs ((c.op hih hk).1 _ hd).1 hc hd' hly]
          exact (u.objValues_rep h ⟨s, hs, hd', hly⟩).symm
      rw [hargs]
      cases a3 with
      | expr hlow =>
        obtain rfl : j = 0 := by simp [Stmt.count] at hj; exact hj
        rw [Nat.add_zero] at hlj ⊢
        simp only [Nat.add_zero]
        rw [h.expr path _ c.at_ n _ h1 hlj, ← lower_meaning P _ hlow]
        simp only [Kind.eval]
        congr 1
        exact List.map_congr_left fun a ha => by rw [range_getD _ _ _ (a6 a ha).1]
      | call f as outs => rw [Nat.zero_add]; exact h.call path _ c.at_ n f _ outs h1 j hj hlj
      | @index x key es e base g1 g2 =>
        obtain rfl : j = 0 := by simp [Stmt.count] at hj; exact hj
        rw [Nat.add_zero] at hlj ⊢
        rw [h.index path _ c.at_ n _ _ h1 hlj, Body.shapes, c.inv.shapeAt (lt_of_some (a6 x (by simp [Stmt.operands])).2.choose_spec)]
        exact (part_eval (.index g1 g2) _).symm
  case shared =>
    intro x y p hx hy
    obtain ⟨path, x', r1, n1⟩ := u.hasName_of_named hx
    obtain ⟨path', y', r2, n2⟩ := u.hasName_of_named hy
    rw [u.objValues_rep h r1, u.objValues_rep h r2]
    exact h.shared _ _ _ _ p n1 n2
  case connected =>
    intro path m s t p q hm hst hp hq x y hx hy
    obtain ⟨path1, x', r1, n1⟩ := u.hasName_of_named hx
    obtain ⟨path2, y', r2, n2⟩ := u.hasName_of_named hy
    obtain ⟨b', hb', hc⟩ := u.hier.bat hm
    rw [u.hier.names] at hp hq
    rw [u.objValues_rep h r1, u.objValues_rep h r2]
    exact h.connected path b' hb' s t p q (by rw [hc]; exact hst) hp hq _ _ _ _ n1 n2

end Csdl.Prog
