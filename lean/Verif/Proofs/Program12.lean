import Verif.Proofs.Program11
import Verif.Props.Program
import Verif.Props.Valid
/-
Valid programs give valid hierarchies of objects.
-/
namespace Csdl.Prog
open Csdl Csdl.Arith
variable {K F : Type} [Field K] [DecidableEq K]
variable {objs : List (PObj K F)} {b : Body K F} {root : OModel} {Ls : List (List Name × Slot K F)}

/-- `c` is the result of a copy of the variable `q` -/
def CopyRes (Ls : List (List Name × Slot K F)) (q : List Name × Nat) (c : Nat) : Prop :=
  ∃ s i d, (q.1, s) ∈ Ls ∧ c = i + 1 ∧ s.Has (i + 1) ∧ CopyOp s.st.objs s.st.env i d ∧ s.st.env[q.2]? = some d ∧ s.body.Live q.2

theorem CopyRes.hidden (u : Setup objs b root Ls) {q : List Name × Nat} {c : Nat} (h : CopyRes Ls q c) (r : List Name × Nat) : ¬ Rep Ls r.1 r.2 c := by
  obtain ⟨s, i, d, hs, rfl, hh, hc, _⟩ := h
  obtain ⟨m, hm, cx⟩ := u.hier.model hs
  exact u.copy_hidden cx hs hh hc r

theorem CopyRes.alone (u : Setup objs b root Ls) {q : List Name × Nat} {c c' : Nat} (h : CopyRes Ls q c) (hj : Relation.EqvGen (Joined (objects objs) root) c c') : c = c' := by
  refine joined_alone (fun p hp => ?_) hj
  obtain ⟨path, z, hz, _⟩ := u.hasName_of_named hp
  exact h.hidden u (path, z) hz

theorem CopyRes.same (u : Setup objs b root Ls) {q r : List Name × Nat} {c : Nat} (h : CopyRes Ls q c) (h' : CopyRes Ls r c) : Relation.EqvGen (Same b) q r := by
  obtain ⟨s, i, d, hs, rfl, hh, hc, he, hl⟩ := h
  obtain ⟨s', i', d', hs', hi, hh', hc', he', hl'⟩ := h'
  obtain rfl : i = i' := by omega
  obtain ⟨e1, rfl⟩ := u.hier.slot_unique hs hs' hh hh'
  obtain ⟨⟨p, p1, _, _, p4, _⟩, _⟩ := hc
  obtain ⟨⟨p', p1', _, _, p4', _⟩, _⟩ := hc'
  rw [p1] at p1'
  cases p1'
  rw [p4] at p4'
  obtain rfl : d = d' := by simpa using p4'
  exact u.rep_same ⟨s, hs, he, hl⟩ ⟨s, hs', he', hl'⟩

/-- `a` is the variable `q` or the result of a copy of it -/
def Over (Ls : List (List Name × Slot K F)) (q : List Name × Nat) (a : Nat) : Prop := Rep Ls q.1 q.2 a ∨ CopyRes Ls q a

theorem Over.joined (u : Setup objs b root Ls) {q r : List Name × Nat} {a a' : Nat} (h : Over Ls q a) (h' : Over Ls r a') (hj : Relation.EqvGen (Joined (objects objs) root) a a') :
    Relation.EqvGen (Same b) q r := by
  rcases h with h | h
  · rcases h' with h' | h'
    · exact .trans _ _ _ (.symm _ _ (u.pick_same h)) (.trans _ _ _ (u.joined_same' hj) (u.pick_same h'))
    · obtain rfl := h'.alone u (.symm _ _ hj)
      exact absurd h (h'.hidden u q)
  · obtain rfl := h.alone u hj
    rcases h' with h' | h'
    · exact absurd h' (h.hidden u r)
    · exact h.same u h'

theorem Setup.affects (u : Setup objs b root Ls) {a c : Nat} (h : Affects (objects objs) root a c) :
    (∃ q r, Over Ls q a ∧ Feeds b q r ∧ Rep Ls r.1 r.2 c) ∨ ∃ q : List Name × Nat, Rep Ls q.1 q.2 a ∧ CopyRes Ls q c := by
  obtain ⟨path, m, op, hm, hn, hk, ha, hc⟩ := h
  obtain ⟨s, hs, cx⟩ := u.hier.ctx hm
  cases cx.live hn with
  | declared hd => rw [(cx.decl hd).2.1] at hk; cases hk
  | var x hx _ => rw [(cx.envHas hx).2] at hk; cases hk
  | copy o d x he hcp _ _ => rw [he, (cx.copyOp hcp).2.2.2.2.2.1] at hk; cases hk
  | op n t x ht ho h1 h2 hl =>
    obtain ⟨y0, hy0, hly0⟩ := cx.live_out ht ho h1 h2 hl hc
    obtain ⟨_, _, ⟨n, t, j, ht, ho, hj, hnj, hlj⟩ | ⟨_, _, _, _, _, g⟩⟩ := cx.computed hy0 (i := op) (by rw [((cx.op (cx.needs hn).1 hk).2.1 _ hc).2.2.2]; simp)
    swap
    · exact absurd ho (g.not_opOf cx)
    replace hlj := hlj hly0
    obtain ⟨k, base, a1, a2, a3, a4, a5, a6, a7, a8⟩ := cx.opOf ht ho
    obtain ⟨y, d, hy, hd, harg⟩ := cx.opOf_arg ht ho ha
    have hly : s.body.Live y := .operand hlj ht (by omega) (by omega) hy
    refine Or.inl ⟨(path, y), (path, n + j), ?_, Or.inl ⟨s.body, n, t, rfl, cx.at_, ht, (lowered_facts a3).2.2.2, by simp, by simpa using hj, hlj, hy⟩, s, hs, hnj, hlj⟩
    rcases harg with rfl | ⟨o', rfl, hcp⟩
    · exact Or.inl ⟨s, hs, hd, hly⟩
    · exact Or.inr ⟨s, o', d, hs, rfl, ((cx.op (cx.needs hn).1 hk).1 _ ha).1, hcp, hd, hly⟩
  | asm y v name shape val es g =>
    obtain ⟨key, x, h1, h2, h3⟩ := g.dep cx ha
    rw [g.outs] at hc
    obtain rfl : c = v := by simpa using hc
    exact Or.inl ⟨(path, x), (path, y), Or.inl ⟨s, hs, h2, h3⟩, Or.inr ⟨s.body, name, shape, val, key, rfl, cx.at_, g.stmt, h1⟩, s, hs, g.var, g.live⟩
  | copyOp d x hcp hx hl =>
    obtain ⟨_, _, a3, a4, _⟩ := cx.copyOp hcp
    have hc' := hc
    rw [a3] at ha
    rw [a4] at hc
    obtain rfl : a = d := by simpa using ha
    obtain rfl : c = op + 1 := by simpa using hc
    exact Or.inr ⟨(path, x), ⟨s, hs, hx, hl⟩, s, op, a, hs, rfl, ((cx.op (cx.needs hn).1 hk).2.1 _ hc').1, hcp, hx, hl⟩

/-- one step of a circle of the program -/
def Step (b : Body K F) (a c : List Name × Nat) : Prop := ∃ a', Relation.EqvGen (Same b) a a' ∧ Feeds b a' c

/-- A circle of objects is a circle of the program. -/
theorem Setup.circular (u : Setup objs b root Ls) (h : Circular (objects objs) root) : CircularProgram b := by
  obtain ⟨x, hx⟩ := h
  have key : ∀ a c, Relation.TransGen (fun a c => ∃ a', Relation.EqvGen (Joined (objects objs) root) a a' ∧ Affects (objects objs) root a' c) a c →
      (∃ a0 q r r', Relation.EqvGen (Joined (objects objs) root) a a0 ∧ Over Ls q a0 ∧ Relation.TransGen (Step b) q r ∧ Relation.EqvGen (Same b) r r' ∧ Over Ls r' c) ∨
      ∃ a0 q, Relation.EqvGen (Joined (objects objs) root) a a0 ∧ Rep Ls q.1 q.2 a0 ∧ CopyRes Ls q c := by
    intro a c h
    induction h with
    | single h =>
      obtain ⟨a', h1, h2⟩ := h
      rcases u.affects h2 with ⟨q, r, h3, h4, h5⟩ | ⟨q, h3, h4⟩
      · exact Or.inl ⟨a', q, r, r, h1, h3, .single ⟨q, .refl _, h4⟩, .refl _, Or.inl h5⟩
      · exact Or.inr ⟨a', q, h1, h3, h4⟩
    | @tail e c _ h ih =>
      obtain ⟨e', h1, h2⟩ := h
      rcases ih with ⟨a0, q, r, r', k1, k2, k3, k4, k5⟩ | ⟨a0, q, k1, k2, k3⟩
      · rcases u.affects h2 with ⟨q', r2, h3, h4, h5⟩ | ⟨q', h3, h4⟩
        · exact Or.inl ⟨a0, q, r2, r2, k1, k2, .tail k3 ⟨q', .trans _ _ _ k4 (k5.joined u h3 h1), h4⟩, .refl _, Or.inl h5⟩
        · exact Or.inl ⟨a0, q, r, q', k1, k2, k3, .trans _ _ _ k4 (k5.joined u (Or.inl h3) h1), Or.inr h4⟩
      · obtain rfl := k3.alone u h1
        rcases u.affects h2 with ⟨q', r2, h3, h4, h5⟩ | ⟨q', h3, h4⟩
        · exact Or.inl ⟨a0, q, r2, r2, k1, Or.inl k2, .single ⟨q', Over.joined u (Or.inr k3) h3 (.refl _), h4⟩, .refl _, Or.inl h5⟩
        · exact absurd h3 (k3.hidden u q')
  rcases key x x hx with ⟨a0, q, r, r', k1, k2, k3, k4, k5⟩ | ⟨a0, q, k1, k2, k3⟩
  · have hs : Relation.EqvGen (Same b) r q := .trans _ _ _ k4 (k5.joined u k2 k1)
    obtain ⟨z, ⟨a', h1, h2⟩, h3⟩ := Relation.TransGen.head'_iff.1 k3
    exact ⟨r, Relation.TransGen.head'_iff.2 ⟨z, ⟨a', .trans _ _ _ hs h1, h2⟩, h3⟩⟩
  · obtain rfl := k3.alone u k1
    exact absurd k2 (k3.hidden u q)

omit [Field K] [DecidableEq K] in
theorem promoted_at {m : Model} {path : List Name} {k : VarKind} {v : VarInfo} {p : Name} (h : PromotedAs m path k v p) : ∃ l subs, At m path (.mk l subs) ∧ v ∈ l.vars k := by
  induction h with
  | here hv => exact ⟨_, _, .here _, hv⟩
  | up hs _ _ ih =>
    obtain ⟨l, subs, h1, h2⟩ := ih
    exact ⟨l, subs, .down hs h1, h2⟩
  | stay hs _ _ ih =>
    obtain ⟨l, subs, h1, h2⟩ := ih
    exact ⟨l, subs, .down hs h1, h2⟩

/-- a variable with a name, by name and shape -/
theorem Setup.named_info (u : Setup objs b root Ls) {x : Nat} {p : Name} (h : NamedVar (objects objs) root x p) : ∃ path m k, OAt (objects objs) root path m ∧ x ∈ m.vars ∧
    PromotedAs b.toModel path k ((objects objs).varInfo x) p ∧ (k = .source ↔ (objects objs x).role ≠ .declared) := by
  obtain ⟨path, m, k, w, hm, hx, _, hp, hw⟩ := h
  obtain ⟨k', p', h1, h2⟩ := promoted_var u.ok hm hx
  obtain rfl := promoted_det _ u.ok.dotFree h1 hp (by rw [hw]; rfl)
  exact ⟨path, m, k', hm, hx, by rw [← u.hier.names]; exact h1, h2⟩

theorem Setup.source (u : Setup objs b root Ls) {path : List Name} {w : VarInfo} {p : Name} (h : PromotedAs b.toModel path .source w p) :
    ∃ x, NamedVar (objects objs) root x p ∧ (objects objs x).role ≠ .declared := by
  obtain ⟨l, subs, h1, h2⟩ := promoted_at h
  obtain ⟨b', hb, e⟩ := BAt.locals h1
  cases e
  obtain ⟨s, hs, rfl⟩ := u.hier.ofBody path b' hb
  obtain ⟨m, hm, c⟩ := u.hier.model hs
  have hmem : w.name ∈ (m.inputs ++ m.outputs).map (fun i => (objects objs i).name) := by
    rw [c.local_.1]
    exact List.mem_map_of_mem h2
  obtain ⟨x, hx, hn⟩ := List.mem_map.1 hmem
  have hv : x ∈ m.vars := by unfold OModel.vars; exact List.mem_append_left _ hx
  have hu : m.Uses (objects objs) x ∧ (objects objs x).role ≠ .declared := by
    rcases List.mem_append.1 hx with hx | hx
    · exact ⟨Or.inl hx, by rw [(c.input hx).2.2]; decide⟩
    · refine ⟨?_, by rw [(c.output hx).2.2]; decide⟩
      obtain ⟨y, h3, _, _, h4, _⟩ := c.var_named hv
      obtain ⟨nm, h5⟩ := h4 hx
      obtain ⟨o, h6, h7⟩ := c.uses_of_live (u.ok.models path m hm) (.output h5)
      rw [h3] at h6
      cases h6
      exact h7
  exact ⟨x, ⟨path, m, .source, w, hm, hv, hu.1, by rw [u.hier.names]; exact h, hn.symm⟩, hu.2⟩

/-- a valid connection -/
theorem Setup.connection (u : Setup objs b root Ls) {src tgt : Name} (h : ConnectionOk b src tgt) : ValidConnection (objects objs) root src tgt := by
  obtain ⟨p, q, h1, h2, ⟨path, w, h3⟩, ⟨path', x, h4⟩, h5, h6⟩ := h
  refine ⟨p, q, by rw [u.hier.names]; exact h1, by rw [u.hier.names]; exact h2, u.source h3, ⟨_, (u.rep_of_hasName h4).2⟩, ?_, ?_⟩
  · intro y hy path2 m2 op hm2 hn hk hout
    obtain ⟨path1, m1, k, hm1, hy1, hp, hkk⟩ := u.named_info hy
    obtain ⟨s2, hs2, c2⟩ := u.hier.ctx hm2
    obtain ⟨s1, hs1, c1⟩ := u.hier.ctx hm1
    have hrole := ((c2.op (c2.needs hn).1 hk).2.1 y hout).2.2.1
    obtain rfl : k = .source := hkk.2 (by rw [hrole]; decide)
    have hyo : y ∈ m1.outputs := by
      unfold OModel.vars at hy1
      simp only [List.mem_append] at hy1
      rcases hy1 with (h | h) | h
      · have := (c1.input h).2.2; rw [hrole] at this; cases this
      · exact h
      · have := (c1.decl h).2.2; rw [hrole] at this; cases this
    refine h5 path1 s1.body _ c1.at_ ?_ hp
    rw [← slot_locals ⟨c1.inv, c1.pre⟩]
    rw [c1.mat.outputs] at hyo
    exact List.mem_map_of_mem hyo
  · intro x y hx hy
    obtain ⟨path1, m1, k1, _, _, hp1, _⟩ := u.named_info hx
    obtain ⟨path2, m2, k2, _, _, hp2, _⟩ := u.named_info hy
    exact h6 _ _ _ _ _ _ hp1 hp2

theorem Setup.noDecl (u : Setup objs b root Ls) {α : Type} (sel : Local → List α) (h : ∀ b' : Body K F, sel b'.locals = []) : issuedPre sel (root.toModel (objects objs)) = [] := by
  rw [u.hier.names, List.eq_nil_iff_forall_not_mem]
  rintro ⟨path, m', x⟩ hx
  obtain ⟨l, subs, rfl, hat, hl⟩ := (mem_issuedPre _ _ _ _).1 hx
  obtain ⟨b', _, e⟩ := BAt.locals hat
  cases e
  rw [h] at hl
  cases hl

/-- The objects of a valid program are a valid hierarchy. -/
theorem Setup.valid (u : Setup objs b root Ls) (hv : ValidProgram b) : ValidHierarchy (objects objs) objs.length root := by
  have hat : ∀ {path : List Name} {M : Model}, At (root.toModel (objects objs)) path M → ∃ b', BAt b path b' ∧ M = b'.toModel := by
    intro path M h
    rw [u.hier.names] at h
    exact BAt.locals h
  have hres : ∀ sel : Local → List (Name × Nat), (∀ b' : Body K F, sel b'.locals = []) → NamesResolve (root.toModel (objects objs)) sel := by
    intro sel h path l subs k d ha hm
    obtain ⟨b', _, e⟩ := hat ha
    cases e
    rw [h] at hm
    cases hm
  refine { objects := u.ok, oneOperation := ?_, oneSource := ?_, sizes := ?_, promotes := ?_, connections := ?_, oneConnection := ?_, noChain := ?_, designVars := ?_, constraints := ?_, objective := ?_, acyclic := ?_ }
  · intro path m path' m' op op' v hm hm' hn hn' hk hk' hv1 hv2
    obtain ⟨s, hs, c⟩ := u.hier.ctx hm
    obtain ⟨s', hs', c'⟩ := u.hier.ctx hm'
    have e1 := ((c.op (c.needs hn).1 hk).2.1 v hv1).2.2.2
    have e2 := ((c'.op (c'.needs hn').1 hk').2.1 v hv2).2.2.2
    rw [e1] at e2
    simpa using e2
  · intro path m ha
    obtain ⟨b', hb, rfl⟩ := hat ha
    exact hv.oneSource path b' hb
  · intro path m ha
    obtain ⟨b', hb, rfl⟩ := hat ha
    exact hv.sizes path b' hb
  · intro path l subs ha t ht q hq x hx
    obtain ⟨b', hb, e⟩ := hat ha
    cases e
    obtain ⟨⟨n, pr, sub⟩, hy, e1, e2, e3⟩ := toSubs_mem ht
    simp only at e1 e2 e3
    rw [hq] at e2
    rw [e3]
    exact hv.promotes path b' hb n q sub (by rw [e2]; exact hy) x hx
  · intro path m a c hm hc
    obtain ⟨b', hb, e⟩ := u.hier.bat hm
    exact u.connection (hv.connections path b' a c hb (by rw [e]; exact hc))
  · rw [u.hier.names]; exact hv.oneConnection
  · rw [u.hier.names]; exact hv.noChain
  · exact ⟨hres _ fun _ => rfl, by unfold DeclaredOnce; rw [u.noDecl _ fun _ => rfl]; exact .nil⟩
  · exact ⟨hres _ fun _ => rfl, by unfold DeclaredOnce; rw [u.noDecl _ fun _ => rfl]; exact .nil⟩
  · exact ⟨hres _ fun _ => rfl, by rw [u.noDecl _ fun _ => rfl]; simp⟩
  · exact fun h => hv.acyclic (u.circular h)

end Csdl.Prog
