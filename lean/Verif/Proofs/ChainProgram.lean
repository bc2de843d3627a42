import Verif.Props.Chain
import Verif.Props.Program
import Verif.Spec.ChainProgram
/-
Solutions of a program with chains of connections and solutions of its objects.
-/
namespace Csdl.Prog
open Csdl Csdl.Arith
variable {K F : Type} [Field K] [DecidableEq K]
variable {objs : List (PObj K F)} {b : Body K F} {root : OModel} {Ls : List (List Name × Slot K F)}
variable {P : Power K} {den : F → List (Val K) → Nat → Val K}

theorem Setup.copy_unnamed (u : Setup objs b root Ls) {path : List Name} {s : Slot K F} {m : OModel} (c : Ctx objs b path s m) (hs : (path, s) ∈ Ls) {o d : Nat} (hh : s.Has (o + 1))
    (hc : CopyOp s.st.objs s.st.env o d) (p : Name) : ¬ NamedVar (objects objs) root (o + 1) p := by
  intro hp
  obtain ⟨path3, z, hz, _⟩ := u.hasName_of_named hp
  exact u.copy_hidden c hs hh hc (path3, z) hz

/-- values of objects give values of the variables of the program -/
theorem Setup.chain_sound (u : Setup objs b root Ls) {τ σ : Nat → Val K} (h : ObjChainSolution (objects objs) root (opMeaning P den objs) τ σ) :
    ChainSolution P den b (fun path x => τ (objOf Ls path x)) (fun path x => σ (objOf Ls path x)) := by
  have hcopy : ∀ {path : List Name} {s : Slot K F} {m : OModel}, Ctx objs b path s m → (path, s) ∈ Ls → OAt (objects objs) root path m → ∀ {o d a : Nat}, m.Needs (objects objs) o → d ∈ (objects objs o).deps →
      ArgOk s.st.objs s.st.env d a → σ d = σ a := by
    intro path s m c hs hm o d a ho hd ha
    rcases (c.args_linked ho hd ha).2 with rfl | ⟨o', rfl, hc, hn⟩
    · rfl
    · obtain ⟨a1, a2, a3, a4, _, a6, _⟩ := c.copyOp hc
      have hhas : s.Has (o' + 1) := (c.needs (.dep _ _ ho hd)).1
      rw [h.unnamed path m hm _ a6 (Linked.uses (linked_dep ho hd).1) (u.copy_unnamed c hs hhas hc), h.ops path m hm o' hn a1 (o' + 1) (by rw [a4]; simp), opMeaning_eq a2, a3]
      exact copy_eval P den (σ a) _
  -- the operation of a statement
  have hop : ∀ {path : List Name} {s : Slot K F} {m : OModel}, Ctx objs b path s m → OAt (objects objs) root path m → (path, s) ∈ Ls → ∀ {n : Nat} {t : Stmt K F} {o j : Nat}, s.body.Has n t →
      OpOf s.st.objs s.st.env n t o → j < t.count → s.body.Live (n + j) →
      ∃ k base, Lowered (shapeAt s.st.objs s.st.env) t k t.operands t.count base ∧ (∀ a ∈ t.operands, a < n ∧ a < s.st.env.length) ∧
        τ (objOf Ls path (n + j)) = k.eval P den (t.operands.map fun x => σ (objOf Ls path x)) (base + j) := by
    intro path s m c hm hs n t o j ht ho hj hl
    obtain ⟨k, base, a1, a2, a3, a4, a5, a6, a7, a8⟩ := c.opOf ht ho
    refine ⟨k, base, a3, fun a ha => ⟨(a6 a ha).1, lt_of_some (a6 a ha).2.choose_spec⟩, ?_⟩
    have hhas := c.opOf_has ho hj
    obtain ⟨v, v1, v2⟩ := a5 j hj
    have hmem := List.mem_of_getElem? v1
    have hres := (c.op hhas a1).2.1 _ hmem
    obtain ⟨o', e1, e2⟩ := c.uses_of_live (u.ok.models path m hm) hl
    rw [v2] at e1
    cases e1
    have hv := c.uses_needs e2 (by rw [hres.2.2.1]; decide)
    have hn : m.Needs (objects objs) o := .dep _ o hv (by show o ∈ (objects objs v).deps; rw [hres.2.2.2]; simp)
    rw [u.hier.objOf' hs v2, h.ops path m hm o hn a1 _ hmem, opMeaning_eq a2, idxOf_nodup (c.op hhas a1).2.2.1 v1]
    congr 1
    have : t.operands.map (fun x => σ (objOf Ls path x)) = (t.operands.map (s.st.env.getD · 0)).map σ := by
      rw [List.map_map]
      exact List.map_congr_left fun x _ => by rw [u.hier.objOf hs]; rfl
    rw [this]
    exact map_args a8 fun d hd a ha hda => hcopy c hs hm hn hd hda
  constructor
  case expr =>
    intro path b' hb n i hi hl hne
    obtain ⟨s, hs, rfl⟩ := u.hier.ofBody path b' hb
    obtain ⟨m, hm, c⟩ := u.hier.model hs
    cases c.inv.stmts n _ hi with
    | «alias» a1 a2 a3 a4 =>
      obtain ⟨x, rfl⟩ := lower_none a1
      exact absurd rfl (hne x)
    | op o ho =>
      obtain ⟨k, base, h1, h2, h3⟩ := hop c hm hs (j := 0) hi ho (by simp [Stmt.count]) hl
      simp only [Nat.add_zero] at h3
      rw [h3]
      cases h1 with
      | expr hlow =>
        rw [← lower_meaning P _ hlow]
        simp only [Kind.eval]
        congr 1
        exact List.map_congr_left fun a ha => by rw [range_getD _ _ _ (h2 a ha).1]
  case call =>
    intro path b' hb n f args outs hi j hj hl
    obtain ⟨s, hs, rfl⟩ := u.hier.ofBody path b' hb
    obtain ⟨m, hm, c⟩ := u.hier.model hs
    cases c.inv.stmts n _ hi with
    | op o ho =>
      obtain ⟨k, base, h1, h2, h3⟩ := hop c hm hs hi ho hj hl
      rw [h3]
      cases h1
      rw [Nat.zero_add]
      rfl
  case index =>
    intro path b' hb n x key hi hl
    obtain ⟨s, hs, rfl⟩ := u.hier.ofBody path b' hb
    obtain ⟨m, hm, c⟩ := u.hier.model hs
    cases c.inv.stmts n _ hi with
    | op o ho =>
      obtain ⟨k, base, h1, h2, h3⟩ := hop c hm hs (j := 0) hi ho (by simp [Stmt.count]) hl
      simp only [Nat.add_zero] at h3
      rw [h3, Body.shapes, c.inv.shapeAt (h2 x (by simp [Stmt.operands])).2]
      exact part_eval h1 _
  case output =>
    intro path b' hb y name shape val hi
    obtain ⟨s, hs, rfl⟩ := u.hier.ofBody path b' hb
    obtain ⟨m, hm, c⟩ := u.hier.model hs
    obtain ⟨i, v, es, g⟩ := c.asm_of_output hi
    have hn : m.Needs (objects objs) i := g.needs c
    have hv := h.ops path m hm i hn g.op v (by rw [g.outs]; simp)
    rw [opMeaning_eq g.kind, g.outs, List.idxOf_cons_self] at hv
    show (∀ key x idx shp, _ → _ → ∀ i j : _, _ → τ (objOf Ls path y) i = σ (objOf Ls path x) _) ∧ ∀ i, _ → τ (objOf Ls path y) i = _
    rw [u.hier.objOf' hs g.var]
    exact (g.eval c (τ := fun x => σ (objOf Ls path x)) (fun key x o _ ho => by rw [u.hier.objOf' hs ho]) _).1 hv
  case same =>
    intro path b' hb x y hl hl' hx
    obtain ⟨s, hs, rfl⟩ := u.hier.ofBody path b' hb
    obtain ⟨m, hm, c⟩ := u.hier.model hs
    obtain ⟨o, ho, _⟩ := c.uses_of_live (u.ok.models path m hm) hl
    have hy := ((c.alias_iff (lt_of_some ho)).1 hx).symm.trans ho
    simp only [u.hier.objOf' hs ho, u.hier.objOf' hs hy, and_self]
  case shared =>
    intro path x path' y p hx hy
    exact h.shared _ _ p (u.rep_of_hasName hx).2 (u.rep_of_hasName hy).2
  case reads =>
    intro path x path' y p q hx hr hy
    exact h.reads _ _ p q (u.rep_of_hasName hx).2 (by rw [u.hier.names]; exact hr) (u.rep_of_hasName hy).2
  case unnamed =>
    intro path b' hb x hl hno
    obtain ⟨⟨s, hs, hx, hlx⟩, m, h1, h2, h3⟩ := u.rep hb hl
    obtain ⟨s', hs', rfl⟩ := u.hier.ofBody path b' hb
    refine h.unnamed path m h1 _ h3 h2 fun p hp => ?_
    obtain ⟨path', z, ⟨s2, hs2, hz, _⟩, hn⟩ := u.hasName_of_named hp
    obtain ⟨_, _, c⟩ := u.hier.model hs
    obtain ⟨_, _, c'⟩ := u.hier.model hs2
    obtain ⟨_, _, c1⟩ := u.hier.model hs'
    obtain ⟨o1, ho1, _⟩ := c1.uses_of_live (u.ok.models path _ (by assumption)) hl
    have e1 := u.hier.objOf' hs' ho1
    rw [e1] at hx hz
    obtain ⟨rfl, rfl⟩ := u.hier.slot_unique hs' hs2 (c1.envHas ho1).1 (c'.envHas hz).1
    exact hno z p ((c1.alias_iff (lt_of_some ho1)).2 (ho1.trans hz.symm)) hn

/-- both values are those of any variable with the same object -/
theorem ChainSolution.rep {own read : List Name → Nat → Val K} (u : Setup objs b root Ls) (h : ChainSolution P den b own read) {path path' : List Name} {x y o : Nat} (h1 : Rep Ls path x o) (h2 : Rep Ls path' y o) :
    own path x = own path' y ∧ read path x = read path' y := by
  obtain ⟨s, hs, hx, hl⟩ := h1
  obtain ⟨s', hs', hy, hl'⟩ := h2
  obtain ⟨m, hm, c⟩ := u.hier.model hs
  obtain ⟨m', hm', c'⟩ := u.hier.model hs'
  obtain ⟨rfl, rfl⟩ := u.hier.slot_unique hs hs' (c.envHas hx).1 (c'.envHas hy).1
  exact h.same path _ c.at_ x y hl hl' ((c.alias_iff (lt_of_some hx)).2 (hx.trans hy.symm))

omit [Field K] [DecidableEq K] in
theorem pick_rep {path : List Name} {x o : Nat} (h : Rep Ls path x o) : Rep Ls (pick Ls o).1 (pick Ls o).2 o := by
  have hex : ∃ q : List Name × Nat, Rep Ls q.1 q.2 o := ⟨(path, x), h⟩
  unfold pick
  rw [dif_pos hex]
  exact hex.choose_spec

open Classical in
/-- the own values of the objects; the result of a copy has the value that is read of what is copied -/
noncomputable def ownValues (objs : List (PObj K F)) (Ls : List (List Name × Slot K F)) (own read : List Name → Nat → Val K) (o : Nat) : Val K :=
  if ∃ q : List Name × Nat, Rep Ls q.1 q.2 o then own (pick Ls o).1 (pick Ls o).2
  else read (pick Ls ((objects objs (o - 1)).deps.headD 0)).1 (pick Ls ((objects objs (o - 1)).deps.headD 0)).2

theorem Setup.ownValues_rep (u : Setup objs b root Ls) {own read : List Name → Nat → Val K} (h : ChainSolution P den b own read) {path : List Name} {x o : Nat} (hr : Rep Ls path x o) :
    ownValues objs Ls own read o = own path x := by
  unfold ownValues
  rw [if_pos ⟨(path, x), hr⟩]
  exact (h.rep u (pick_rep hr) hr).1

theorem Setup.readValues_rep (u : Setup objs b root Ls) {own read : List Name → Nat → Val K} (h : ChainSolution P den b own read) {path : List Name} {x o : Nat} (hr : Rep Ls path x o) :
    objValues objs Ls read o = read path x := by
  unfold objValues
  rw [if_pos ⟨(path, x), hr⟩]
  exact (h.rep u (pick_rep hr) hr).2

theorem Setup.chain_complete (u : Setup objs b root Ls) {own read : List Name → Nat → Val K} (h : ChainSolution P den b own read) :
    ObjChainSolution (objects objs) root (opMeaning P den objs) (ownValues objs Ls own read) (objValues objs Ls read) := by
  have hcopy : ∀ {path : List Name} {s : Slot K F} {m : OModel}, Ctx objs b path s m → (path, s) ∈ Ls → ∀ {o d x : Nat}, s.Has (o + 1) → CopyOp s.st.objs s.st.env o d → s.st.env[x]? = some d →
      s.body.Live x → ownValues objs Ls own read (o + 1) = read path x ∧ objValues objs Ls read (o + 1) = read path x := by
    intro path s m c hs o d x hh hc hx hl
    unfold ownValues objValues
    rw [if_neg (fun ⟨q, hq⟩ => u.copy_hidden c hs hh hc q hq), if_neg (fun ⟨q, hq⟩ => u.copy_hidden c hs hh hc q hq)]
    obtain ⟨a1, a2, a3, a4, _⟩ := c.copyOp hc
    simp only [Nat.add_sub_cancel, a3, List.headD_cons]
    have hr : Rep Ls path x d := ⟨s, hs, hx, hl⟩
    exact ⟨(h.rep u (pick_rep hr) hr).2, (h.rep u (pick_rep hr) hr).2⟩
  constructor
  case ops =>
    intro path m hm i hi hk v hv
    obtain ⟨s, hs, c⟩ := u.hier.ctx hm
    have hih := (c.needs hi).1
    have hvh := (c.op hih hk).2.1 v hv
    cases c.live hi with
    | declared hd => rw [(c.decl hd).2.1] at hk; cases hk
    | var x h1 hl => rw [(c.envHas h1).2] at hk; cases hk
    | copy o d x h1 hc h2 hl => subst h1; rw [(c.copyOp hc).2.2.2.2.2.1] at hk; cases hk
    | copyOp d x hc h1 hl =>
      obtain ⟨a1, a2, a3, a4, _⟩ := c.copyOp hc
      rw [a4] at hv
      obtain rfl : v = i + 1 := by simpa using hv
      rw [(hcopy c hs hvh.1 hc h1 hl).1, opMeaning_eq a2, a3]
      simp only [List.map_cons, List.map_nil]
      rw [copy_eval]
      exact (u.readValues_rep h ⟨s, hs, h1, hl⟩).symm
    | asm y w name shape val es g =>
      have hv' := hv
      rw [g.outs] at hv'
      obtain rfl : v = w := by simpa using hv'
      rw [opMeaning_eq g.kind, g.outs, List.idxOf_cons_self]
      refine (g.eval c (τ := read path) ?_ _).2 ?_
      · rintro key x o ⟨n, z, ha, _⟩ ho
        exact u.readValues_rep h ⟨s, hs, ho, .assigned ha⟩
      · rw [u.ownValues_rep h ⟨s, hs, g.var, g.live⟩]
        exact h.output path _ c.at_ y name shape val g.stmt
    | op n t x h1 h2 h3 h4 hl =>
      obtain ⟨y, hy, hly⟩ := c.live_out h1 h2 h3 h4 hl hv
      obtain ⟨_, _, ⟨n, t, j, h1, h2, hj, hnj, hlj⟩ | ⟨_, _, _, _, _, g⟩⟩ := c.computed hy (i := i) (by rw [hvh.2.2.2]; simp)
      case inr => exact absurd h2 (g.not_opOf c)
      replace hlj := hlj hly
      have h3 : n ≤ n + j := by omega
      have h4 : n + j < n + t.count := by omega
      have hl := hlj
      obtain ⟨k, base, a1, a2, a3, a4, a5, a6, a7, a8⟩ := c.opOf h1 h2
      obtain ⟨v', v1, v2⟩ := a5 j hj
      rw [hnj] at v2
      cases v2
      rw [u.ownValues_rep h ⟨s, hs, hnj, hlj⟩, opMeaning_eq a2, idxOf_nodup (c.op hih hk).2.2.1 v1]
      have hargs : (objects objs i).deps.map (objValues objs Ls read) = t.operands.map (read path) := by
        have e : t.operands.map (read path) = (t.operands.map (s.st.env.getD · 0)).map (objValues objs Ls read) := by
          rw [List.map_map]
          refine List.map_congr_left fun y hy => ?_
          obtain ⟨d, hd⟩ := (a6 y hy).2
          simp only [Function.comp]
          rw [List.getD_eq_getElem?_getD, hd]
          exact (u.readValues_rep h ⟨s, hs, hd, .operand hl h1 h3 h4 hy⟩).symm
        rw [e]
        refine map_args a8 fun d hd a ha hda => ?_
        obtain ⟨y, hy, rfl⟩ := List.mem_map.1 ha
        obtain ⟨d', hd'⟩ := (a6 y hy).2
        simp only [List.getD_eq_getElem?_getD, hd'] at hda ⊢
        have hly : s.body.Live y := .operand hl h1 h3 h4 hy
        rcases hda with rfl | ⟨o', rfl, hc⟩
        · rfl
        · rw [(hcopy c hs ((c.op hih hk).1 _ hd).1 hc hd' hly).2]
          exact (u.readValues_rep h ⟨s, hs, hd', hly⟩).symm
      rw [hargs]
      cases a3 with
      | expr hlow =>
        obtain rfl : j = 0 := by simp [Stmt.count] at hj; exact hj
        rw [Nat.add_zero] at hlj ⊢
        simp only [Nat.add_zero]
        rw [h.expr path _ c.at_ n _ h1 hlj (by rintro x rfl; cases hlow), ← lower_meaning P _ hlow]
        simp only [Kind.eval]
        congr 1
        exact List.map_congr_left fun a ha => by rw [range_getD _ _ _ (a6 a ha).1]
      | call f as outs => rw [Nat.zero_add]; exact h.call path _ c.at_ n f _ outs h1 j hj hlj
      | @index x key es e base g1 g2 =>
        obtain rfl : j = 0 := by simp [Stmt.count] at hj; exact hj
        rw [Nat.add_zero] at hlj ⊢
        rw [h.index path _ c.at_ n _ _ h1 hlj, Body.shapes, c.inv.shapeAt (lt_of_some (a6 x (by simp [Stmt.operands])).2.choose_spec)]
        exact (part_eval (.index g1 g2) _).symm
  case shared =>
    intro x y p hx hy
    obtain ⟨path, x', r1, n1⟩ := u.hasName_of_named hx
    obtain ⟨path', y', r2, n2⟩ := u.hasName_of_named hy
    rw [u.ownValues_rep h r1, u.ownValues_rep h r2]
    exact h.shared _ _ _ _ p n1 n2
  case reads =>
    intro x y p q hx hr hy
    obtain ⟨path, x', r1, n1⟩ := u.hasName_of_named hx
    obtain ⟨path', y', r2, n2⟩ := u.hasName_of_named hy
    rw [u.readValues_rep h r1, u.ownValues_rep h r2]
    exact h.reads _ _ _ _ p q n1 (by rw [← u.hier.names]; exact hr) n2
  case unnamed =>
    intro path m hm o hk hu hno
    rcases u.uses_cases hm hk hu with ⟨x, r⟩ | ⟨s, i, d, hs, c, rfl, hh, hni, hcp⟩
    · rw [u.readValues_rep h r, u.ownValues_rep h r]
      obtain ⟨s, hs, hx, hl⟩ := id r
      obtain ⟨m', hm', c⟩ := u.hier.model hs
      refine h.unnamed path _ c.at_ x hl fun z p hz hn => hno p ?_
      have := (u.rep_of_hasName hn).2
      rwa [u.hier.objOf' hs (((c.alias_iff (lt_of_some hx)).1 hz).symm.trans hx)] at this
    · obtain ⟨a1, a2, a3, a4, _⟩ := c.copyOp hcp
      cases c.live hni with
      | declared hd => rw [(c.decl hd).2.1] at a1; cases a1
      | var x h1 hl => rw [(c.envHas h1).2] at a1; cases a1
      | copy o d x h1 hc h2 hl => subst h1; rw [(c.copyOp hc).2.2.2.2.2.1] at a1; cases a1
      | copyOp d' x hc h1 hl =>
        obtain ⟨e1, e2⟩ := hcopy c hs hh hc h1 hl
        rw [e1, e2]
      | asm y w name shape val es g =>
        have := g.outs
        rw [a4] at this
        cases this
        exact absurd ⟨s, hs, g.var, g.live⟩ (u.copy_hidden c hs hh hcp (path, y))
      | op n t x h1 h2 h3 h4 hl =>
        obtain ⟨y, hy, hly⟩ := c.live_out h1 h2 h3 h4 hl (v := i + 1) (by rw [a4]; simp)
        exact absurd ⟨s, hs, hy, hly⟩ (u.copy_hidden c hs hh hcp (path, y))

end Csdl.Prog
