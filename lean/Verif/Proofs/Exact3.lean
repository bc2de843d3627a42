import Verif.Spec.ExactProgram
import Verif.Proofs.Exact2
import Verif.Proofs.Program12
import Verif.Proofs.DefaultsSame
/-
C104: the objects of a program are acceptable exactly if the program is.
-/
namespace Csdl.Prog
open Csdl Csdl.Arith
variable {K F : Type} [Field K] [DecidableEq K]
variable {objs : List (PObj K F)} {b : Body K F} {root : OModel} {Ls : List (List Name × Slot K F)}

/-- an output is computed by an operation -/
theorem Ctx.output_dep {path : List Name} {s : Slot K F} {m : OModel} (c : Ctx objs b path s m) {x : Nat} (hx : x ∈ m.outputs) : ∃ op, op ∈ (objects objs x).deps := by
  obtain ⟨h1, _, h3⟩ := c.output hx
  obtain ⟨p, g1, g2, hg⟩ := c.get h1
  cases hd : (objects objs x).deps with
  | cons a l => exact ⟨a, by simp⟩
  | nil =>
    exfalso
    rw [g2] at hd h3
    obtain ⟨z, hz, _⟩ := c.var_named (o := x) (by unfold OModel.vars; simp [hx])
    obtain ⟨y, nm, sh, val, k1, k2⟩ := c.inv.concat_made g1 h3 hd hz
    obtain ⟨i, v, es, ga⟩ := c.asm_of_output k1
    have := ga.var
    rw [k2] at this
    cases this
    have := ga.result
    rw [g2, hd] at this
    cases this

theorem Setup.feeds (u : Setup objs b root Ls) {q r : List Name × Nat} (h : Feeds b q r) :
    Affects (objects objs) root (objOf Ls q.1 q.2) (objOf Ls r.1 r.2) ∨ ∃ e, Affects (objects objs) root (objOf Ls q.1 q.2) e ∧ Affects (objects objs) root e (objOf Ls r.1 r.2) := by
  obtain ⟨path, x⟩ := q
  obtain ⟨path', y⟩ := r
  rcases h with ⟨b', n, t, e0, hb, ht, hcmp, h1, h2, hl, hop⟩ | ⟨b', name, shape, val, key, e0, hb, ht, ha⟩
  · dsimp only at e0 hb h1 h2 hl hop ⊢
    subst e0
    obtain ⟨s, hs, rfl⟩ := u.hier.ofBody path b' hb
    obtain ⟨m, hm, c⟩ := u.hier.model hs
    have main : ∀ o, OpOf s.st.objs s.st.env n t o → Affects (objects objs) root (objOf Ls path x) (objOf Ls path y) ∨ ∃ e, Affects (objects objs) root (objOf Ls path x) e ∧ Affects (objects objs) root e (objOf Ls path y) := by
      intro o ho
      obtain ⟨k, base, a1, a2, a3, a4, a5, a6, a7, a8⟩ := c.opOf ht ho
      have hhas := c.opOf_has ho (j := y - n) (by omega)
      obtain ⟨v, v1, v2⟩ := c.opOf_out ht ho h1 h2
      have hres := (c.op hhas a1).2.1 _ v2
      obtain ⟨o', e1, e2⟩ := c.uses_of_live (u.ok.models path m hm) hl
      rw [v1] at e1
      cases e1
      have hv := c.uses_needs e2 (by rw [hres.2.2.1]; decide)
      have hn : m.Needs (objects objs) o := .dep _ o hv (by show o ∈ (objects objs v).deps; rw [hres.2.2.2]; simp)
      obtain ⟨a, ha⟩ := (a6 x hop).2
      obtain ⟨d, hd, hda⟩ := forall₂_mem_right a8 (List.mem_map_of_mem hop)
      have hae : s.st.env.getD x 0 = a := by rw [List.getD_eq_getElem?_getD, ha]; rfl
      rw [hae] at hda
      rw [u.hier.objOf' hs v1, u.hier.objOf' hs ha]
      rcases (c.args_linked hn hd hda).2 with rfl | ⟨o', rfl, hc, hn'⟩
      · exact Or.inl ⟨path, m, o, hm, hn, a1, hd, v2⟩
      · obtain ⟨b1, b2, b3, b4, _⟩ := c.copyOp hc
        exact Or.inr ⟨o' + 1, ⟨path, m, o', hm, hn', b1, by rw [b3]; simp, by rw [b4]; simp⟩, ⟨path, m, o, hm, hn, a1, hd, v2⟩⟩
    cases c.inv.stmts n t ht with
    | «alias» a1 a2 a3 a4 =>
      obtain ⟨x, rfl⟩ := lower_none a1
      exact absurd hcmp (by simp [Stmt.Computes])
    | op o ho => exact main o ho
    | _ => simp [Stmt.operands] at hop
  · dsimp only at e0 hb ht ha ⊢
    subst e0
    obtain ⟨s, hs, rfl⟩ := u.hier.ofBody path b' hb
    obtain ⟨m, hm, c⟩ := u.hier.model hs
    obtain ⟨i, v, es, g⟩ := c.asm_of_output ht
    rw [u.hier.objOf' hs g.var]
    refine Or.inl ⟨path, m, i, hm, g.needs c, g.op, ?_, by rw [g.outs]; simp⟩
    rw [g.deps, u.hier.objOf hs]
    exact List.mem_map.2 ⟨(key, x), (g.assigned c).2 ha, rfl⟩

theorem Setup.circular' (u : Setup objs b root Ls) (h : CircularProgram b) : Circular (objects objs) root := by
  obtain ⟨q, hq⟩ := h
  have key : ∀ q r, Relation.TransGen (fun a c => ∃ a', Relation.EqvGen (Same b) a a' ∧ Feeds b a' c) q r →
      Relation.TransGen (fun a c => ∃ a', Relation.EqvGen (Joined (objects objs) root) a a' ∧ Affects (objects objs) root a' c) (objOf Ls q.1 q.2) (objOf Ls r.1 r.2) := by
    intro q r h
    have step : ∀ a c, (∃ a', Relation.EqvGen (Same b) a a' ∧ Feeds b a' c) →
        Relation.TransGen (fun a c => ∃ a', Relation.EqvGen (Joined (objects objs) root) a a' ∧ Affects (objects objs) root a' c) (objOf Ls a.1 a.2) (objOf Ls c.1 c.2) := by
      rintro a c ⟨a', h1, h2⟩
      rcases u.feeds h2 with h3 | ⟨e, h3, h4⟩
      · exact .single ⟨_, u.same_joined h1, h3⟩
      · exact .tail (.single ⟨_, u.same_joined h1, h3⟩) ⟨_, .refl _, h4⟩
    induction h with
    | single h => exact step _ _ h
    | tail _ h ih => exact ih.trans (step _ _ h)
  exact ⟨_, key q q hq⟩

theorem Setup.wellBuilt (u : Setup objs b root Ls) : WellBuilt (objects objs) objs.length root := by
  refine ⟨u.ok, ?_⟩
  intro path m path' m' op op' v hm hm' hn hn' hk hk' hv1 hv2
  obtain ⟨s, hs, c⟩ := u.hier.ctx hm
  obtain ⟨s', hs', c'⟩ := u.hier.ctx hm'
  have e1 := ((c.op (c.needs hn).1 hk).2.1 v hv1).2.2.2
  have e2 := ((c'.op (c'.needs hn').1 hk').2.1 v hv2).2.2.2
  rw [e1] at e2
  simpa using e2

/-- acceptable connections -/
theorem Setup.connectionAccepted (u : Setup objs b root Ls) {src tgt : Name} (h : ConnectionAccepted b src tgt) : AcceptableConnection (objects objs) root src tgt := by
  obtain ⟨p, q, h1, h2, ⟨path, w, h3⟩, ⟨path', x, h4⟩, h5, h6⟩ := h
  refine ⟨p, q, by rw [u.hier.names]; exact h1, by rw [u.hier.names]; exact h2, u.source h3, ⟨_, (u.rep_of_hasName h4).2⟩, ?_, ?_⟩
  · intro y hy path2 m2 op hm2 hn hk hout
    obtain ⟨path1, m1, k, hm1, hy1, hp, hkk⟩ := u.named_info hy
    obtain ⟨s2, hs2, c2⟩ := u.hier.ctx hm2
    obtain ⟨s1, hs1, c1⟩ := u.hier.ctx hm1
    have hrole := ((c2.op (c2.needs hn).1 hk).2.1 y hout).2.2.1
    obtain rfl : k = .source := hkk.2 (by rw [hrole]; decide)
    have hyo : y ∈ m1.outputs := by
      unfold OModel.vars at hy1
      simp only [List.mem_append] at hy1
      rcases hy1 with (h | h) | h
      · have := (c1.input h).2.2; rw [hrole] at this; cases this
      · exact h
      · have := (c1.decl h).2.2; rw [hrole] at this; cases this
    refine h5 path1 s1.body _ c1.at_ ?_ hp
    rw [← slot_locals ⟨c1.inv, c1.pre⟩]
    rw [c1.mat.outputs] at hyo
    exact List.mem_map_of_mem hyo
  · rintro x y ⟨hx, hx'⟩ ⟨hy, hy'⟩
    obtain ⟨path1, m1, k1, _, _, hp1, hk1⟩ := u.named_info hx
    obtain ⟨path2, m2, k2, _, _, hp2, hk2⟩ := u.named_info hy
    obtain ⟨z, hz, hrz⟩ := u.source h3
    obtain rfl : k1 = .source := hk1.2 (by
      rcases hx' with h | h
      · exact h
      · exact absurd (h z hz) hrz)
    refine h6 _ _ _ _ _ hp1 hp2 ?_
    rcases hy' with h | h
    · exact Or.inl (hk2.2 h)
    · refine Or.inr fun path3 w3 h3 => ?_
      obtain ⟨z, hz, hrz⟩ := u.source h3
      exact hrz (h z hz)

/-- the source object of a promoted source -/
theorem Setup.source_info (u : Setup objs b root Ls) (h1 : ∀ p path1 v1 path2 v2, PromotedAs b.toModel path1 .source v1 p → PromotedAs b.toModel path2 .source v2 p → path1 = path2 ∧ v1 = v2)
    {path : List Name} {w : VarInfo} {p : Name} (h : PromotedAs b.toModel path .source w p) :
    ∃ x, NamedVar (objects objs) root x p ∧ (objects objs x).role ≠ .declared ∧ (objects objs).varInfo x = w ∧ ∃ m, OAt (objects objs) root path m ∧ x ∈ m.vars := by
  obtain ⟨x, hx, hrx⟩ := u.source h
  obtain ⟨path1, m1, k, hm1, hv, hp, hk⟩ := u.named_info hx
  obtain rfl := hk.2 hrx
  obtain ⟨rfl, e⟩ := h1 _ _ _ _ _ hp h
  exact ⟨x, hx, hrx, e, m1, hm1, hv⟩

theorem Setup.connectionAccepted' (u : Setup objs b root Ls) (h1 : ∀ p path1 v1 path2 v2, PromotedAs b.toModel path1 .source v1 p → PromotedAs b.toModel path2 .source v2 p → path1 = path2 ∧ v1 = v2)
    (ht : ∀ p path1 v1 path2 v2, PromotedAs b.toModel path1 .target v1 p → PromotedAs b.toModel path2 .target v2 p → v1.shape.size = v2.shape.size)
    {src tgt : Name} (h : AcceptableConnection (objects objs) root src tgt) : ConnectionAccepted b src tgt := by
  obtain ⟨p, q, g1, g2, ⟨x, hx, hrx⟩, ⟨y, hy⟩, g5, g6⟩ := h
  rw [u.hier.names] at g1 g2
  obtain ⟨path1, m1, k1, _, _, hp1, hk1⟩ := u.named_info hx
  obtain rfl := hk1.2 hrx
  obtain ⟨path2, z, _, hz⟩ := u.hasName_of_named hy
  refine ⟨p, q, g1, g2, ⟨_, _, hp1⟩, ⟨path2, z, hz⟩, ?_, ?_⟩
  · intro path b' w hb hw hp
    obtain ⟨v, n1, n2, rfl, m, hm, hv⟩ := u.source_info h1 hp
    obtain ⟨s, hs, c⟩ := u.hier.ctx hm
    have hvo : v ∈ m.outputs := by
      obtain ⟨s', hs', rfl⟩ := u.hier.ofBody path b' hb
      obtain ⟨m', hm', c'⟩ := u.hier.model hs'
      obtain ⟨_, rfl⟩ : path = path ∧ m' = m := ⟨rfl, OAt.det hm' u.ok.dotFree hm⟩
      rw [← slot_locals ⟨c'.inv, c'.pre⟩] at hw
      obtain ⟨v', hv', e⟩ := List.mem_map.1 hw
      rw [← c'.mat.outputs] at hv'
      have hnd : ((m'.inputs ++ m'.outputs).map fun i => (objects objs i).name).Nodup := by
        rw [c'.local_.1]
        exact u.good.sources path _ hb
      have hvs : v ∈ m'.inputs ++ m'.outputs := by
        unfold OModel.vars at hv
        rcases List.mem_append.1 hv with h | h
        · exact h
        · exact absurd (c'.decl h).2.2 n2
      have := nodup_map_inj hnd v hvs v' (List.mem_append_right _ hv') (congrArg VarInfo.name e).symm
      rw [this]
      exact hv'
    obtain ⟨op, hop⟩ := c.output_dep hvo
    obtain ⟨o1, o2, o3⟩ := (c.var (c.vars hv).1 (c.vars hv).2).2 op hop
    exact g5 v n1 path m op hm (.dep v op (.leaf v (List.mem_append_left _ hvo)) hop) o2 o3
  · intro path w k' path' w' hw hw' hor
    obtain ⟨v, n1, n2, rfl, _⟩ := u.source_info h1 hw
    have sv : StandsForName (objects objs) root v p := ⟨n1, Or.inl n2⟩
    cases k' with
    | source =>
      obtain ⟨v', n1', n2', rfl, _⟩ := u.source_info h1 hw'
      exact g6 v v' sv ⟨n1', Or.inl n2'⟩
    | target =>
      have hno := hor.resolve_left (by simp)
      obtain ⟨path3, m3, k3, _, _, hp3, hk3⟩ := u.named_info hy
      have hall : ∀ z, NamedVar (objects objs) root z q → (objects objs z).role = .declared := by
        intro z hz
        by_contra hc
        obtain ⟨path4, m4, k4, _, _, hp4, hk4⟩ := u.named_info hz
        obtain rfl := hk4.2 hc
        exact hno _ _ hp4
      have e := g6 v y sv ⟨hy, Or.inr hall⟩
      cases k3 with
      | source => exact absurd hp3 (hno _ _)
      | target => exact e.trans (ht _ _ _ _ _ hp3 hw')

omit [Field K] [DecidableEq K] in
theorem consistent_of {b : Body K F} (h : ConsistentDeclarations b) : ConsistentTargets b.toModel := by
  intro path l subs hat
  obtain ⟨b', hb, e⟩ := BAt.locals hat
  cases e
  exact h path b' hb

/-- the objects of an acceptable program -/
theorem Setup.acceptable (u : Setup objs b root Ls) (hv : AcceptableProgram b) : Acceptable (objects objs) root := by
  have hat : ∀ {path : List Name} {M : Model}, At (root.toModel (objects objs)) path M → ∃ b', BAt b path b' ∧ M = b'.toModel := by
    intro path M h
    rw [u.hier.names] at h
    exact BAt.locals h
  have hres : ∀ sel : Local → List (Name × Nat), (∀ b' : Body K F, sel b'.locals = []) → NamesResolve (root.toModel (objects objs)) sel := by
    intro sel h path l subs k d ha hm
    obtain ⟨b', _, e⟩ := hat ha
    cases e
    rw [h] at hm
    cases hm
  refine ⟨?_, ?_, ?_, ?_, ?_, ?_, ?_, ?_, ?_⟩
  · intro path m ha
    obtain ⟨b', hb, rfl⟩ := hat ha
    exact hv.oneSource path b' hb
  · intro path m ha
    obtain ⟨b', hb, rfl⟩ := hat ha
    exact hv.sizes path b' hb
  · intro path l subs ha t ht q hq x hx
    obtain ⟨b', hb, e⟩ := hat ha
    rw [e]
    cases e
    obtain ⟨⟨n, pr, sub⟩, hy, e1, e2, e3⟩ := toSubs_mem ht
    simp only at e1 e2 e3
    rw [hq] at e2
    exact hv.promotes path b' hb n q sub (by rw [e2]; exact hy) x hx
  · intro path m a c hm hc
    obtain ⟨b', hb, e⟩ := u.hier.bat hm
    exact u.connectionAccepted (hv.connections path b' a c hb (by rw [e]; exact hc))
  · rw [u.hier.names]; exact hv.oneConnection
  · exact ⟨hres _ fun _ => rfl, by unfold DeclaredOnce; rw [u.noDecl _ fun _ => rfl]; exact .nil⟩
  · exact ⟨hres _ fun _ => rfl, by unfold DeclaredOnce; rw [u.noDecl _ fun _ => rfl]; exact .nil⟩
  · exact ⟨hres _ fun _ => rfl, by rw [u.noDecl _ fun _ => rfl]; simp⟩
  · exact fun h => hv.acyclic (u.circular h)

/-- a program whose objects are acceptable -/
theorem Setup.acceptableProgram (u : Setup objs b root Ls) (hm : ∀ path b', BAt b path b' → MethodOk b') (hcons : ConsistentDeclarations b) {r : Res} (hr : resolve b.toModel none = .ok r)
    (ha : Acceptable (objects objs) root) : AcceptableProgram b := by
  have hd : DotFree b.toModel := by rw [← u.hier.names]; exact u.ok.dotFree
  have hds : DistinctSources b.toModel := by rw [← u.hier.names]; exact distinctSources_objects u.ok
  have h1 : ∀ p path1 v1 path2 v2, PromotedAs b.toModel path1 .source v1 p → PromotedAs b.toModel path2 .source v2 p → path1 = path2 ∧ v1 = v2 :=
    fun p path1 v1 path2 v2 g1 g2 => one_source _ hd hds hr g1 g2
  have ht : ∀ p path1 v1 path2 v2, PromotedAs b.toModel path1 .target v1 p → PromotedAs b.toModel path2 .target v2 p → v1.shape.size = v2.shape.size :=
    fun p path1 v1 path2 v2 g1 g2 => targets_same_size _ hd (consistent_of hcons) hr g1 g2
  have hat : ∀ {path : List Name} {b' : Body K F}, BAt b path b' → At (root.toModel (objects objs)) path b'.toModel := by
    intro path b' hb
    rw [u.hier.names]
    exact at_of_bat hb
  refine ⟨hm, fun path b' hb => ha.oneSource path _ (hat hb), fun path b' hb => ha.sizes path _ (hat hb), ?_, ?_, by have := ha.oneConnection; rwa [u.hier.names] at this, fun h => ha.acyclic (u.circular' h)⟩
  · intro path b' hb n q sub hs x hx
    have h2 := hat hb
    unfold Body.toModel at h2 ⊢
    exact ha.promotes path _ _ h2 ⟨n, some q, sub.toModel⟩ (mem_toSubs.2 ⟨sub, hs, rfl⟩) q rfl x hx
  · intro path b' a c hb hc
    obtain ⟨s, hs, rfl⟩ := u.hier.ofBody path b' hb
    obtain ⟨m, hm, cx⟩ := u.hier.model hs
    refine u.connectionAccepted' h1 ht (ha.connections path m a c hm ?_)
    rw [cx.mat.connections, cx.inv.connections]
    exact hc

end Csdl.Prog
