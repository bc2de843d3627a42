import Verif.Proofs.Program7
/-
Solutions of the program and solutions of its objects.
-/
namespace Csdl.Prog
open Csdl Csdl.Arith
variable {K F : Type} [Field K] [DecidableEq K]

theorem lower_meaning (P : Power K) (vals : List (Val K)) {i : Instr K} {k : OpKind K} {as : List Nat} (h : lower i = .ok (some (k, as))) :
    k.eval P (as.map fun a => vals.getD a fun _ => 0) = i.meaning P vals := by
  funext j
  cases i with
  | pos x => cases h
  | neg x => cases h; simp [OpKind.eval, Lit.expand, Instr.meaning]
  | add x y => cases h; simp [OpKind.eval, Lit.expand, Instr.meaning, List.replicate]
  | addc x c => cases h; simp [OpKind.eval, Lit.expand, Instr.meaning]; ring
  | sub x y => cases h; simp [OpKind.eval, Lit.expand, Instr.meaning]; ring
  | subc x c => cases h; simp [OpKind.eval, Lit.expand, Instr.meaning]; ring
  | rsubc c x => cases h; simp [OpKind.eval, Lit.expand, Instr.meaning]; ring
  | mul x y => cases h; simp [OpKind.eval, Lit.expand, Instr.meaning, List.replicate, P.one]
  | mulc x c => cases h; simp [OpKind.eval, Lit.expand, Instr.meaning, P.one]; ring
  | div x y => cases h; simp [OpKind.eval, Lit.expand, Instr.meaning, P.one, P.neg_one, div_eq_mul_inv]
  | divc x c =>
    cases c with
    | num c =>
      by_cases hc : c = 0
      · simp only [lower, recip, hc] at h; cases h
      · simp only [lower, recip, if_neg hc] at h
        cases h
        simp [OpKind.eval, Lit.expand, Instr.meaning, P.one, Const.val]; ring
    | arr s a =>
      simp only [lower, recip] at h
      cases h
      simp [OpKind.eval, Lit.expand, Instr.meaning, P.one, Const.val]; ring
  | rdivc c x => cases h; simp [OpKind.eval, Lit.expand, Instr.meaning, P.neg_one, div_eq_mul_inv]
  | powc x c => cases h; simp [OpKind.eval, Lit.expand, Instr.meaning]

theorem copy_eval (P : Power K) (den : F → List (Val K) → Nat → Val K) (v : Val K) (j : Nat) : (copyKind : Kind K F).eval P den [v] j = v := by
  funext i
  simp [copyKind, Kind.eval, OpKind.eval, Lit.expand, P.one]

theorem range_getD {α : Type} (f : Nat → α) (n x : Nat) (hx : x < n) (d : α) : ((List.range n).map f).getD x d = f x := by
  simp [List.getD_eq_getElem?_getD, hx]

variable {objs : List (PObj K F)} {b : Body K F} {root : OModel} {Ls : List (List Name × Slot K F)}

/-- the object of a variable of the program -/
def objOf (Ls : List (List Name × Slot K F)) (path : List Name) (x : Nat) : Nat := ((Ls.find? fun y => decide (y.1 = path)).map fun y => y.2.st.env.getD x 0).getD 0

omit [Field K] [DecidableEq K] in
theorem find_slot : ∀ {Ls : List (List Name × Slot K F)}, (Ls.map (·.1)).Nodup → ∀ {path : List Name} {s : Slot K F}, (path, s) ∈ Ls → (Ls.find? fun y => decide (y.1 = path)) = some (path, s)
  | [], _, _, _, h => by simp at h
  | y :: Ls, hn, path, s, h => by
    rw [List.map_cons, List.nodup_cons] at hn
    rcases List.mem_cons.1 h with rfl | h
    · simp
    · have : y.1 ≠ path := fun e => hn.1 (List.mem_map.2 ⟨_, h, e.symm⟩)
      rw [List.find?_cons_of_neg (by simpa using this)]
      exact find_slot hn.2 h

theorem Hier.objOf (h : Hier objs b root Ls) {path : List Name} {s : Slot K F} (hs : (path, s) ∈ Ls) (x : Nat) : objOf Ls path x = s.st.env.getD x 0 := by
  unfold Prog.objOf
  rw [find_slot h.paths hs]
  rfl

theorem Hier.objOf' (h : Hier objs b root Ls) {path : List Name} {s : Slot K F} (hs : (path, s) ∈ Ls) {x o : Nat} (ho : s.st.env[x]? = some o) : Prog.objOf Ls path x = o := by
  rw [h.objOf hs, List.getD_eq_getElem?_getD, ho]
  rfl

theorem Hier.model (h : Hier objs b root Ls) {path : List Name} {s : Slot K F} (hs : (path, s) ∈ Ls) : ∃ m, OAt (objects objs) root path m ∧ Ctx objs b path s m := by
  obtain ⟨m, h1, h2⟩ := h.ofObj _ hs
  exact ⟨m, h1, (h.slots _ hs).1, (h.slots _ hs).2, h2, h.toBody _ hs, (h.nonEmpty _ hs).2⟩

/-- what is assumed of the program -/
structure Setup (objs : List (PObj K F)) (b : Body K F) (root : OModel) (Ls : List (List Name × Slot K F)) : Prop where
  hier : Hier objs b root Ls
  good : GoodNames b
  closed : Closed objs
  size : objs.length ≤ 63 ^ 4

theorem Setup.ok (u : Setup objs b root Ls) : ObjectsOk (objects objs) objs.length root := objectsOk u.hier u.good u.closed u.size

/-- the variable `(path, x)` matters and its object is `o` -/
def Rep (Ls : List (List Name × Slot K F)) (path : List Name) (x o : Nat) : Prop := ∃ s, (path, s) ∈ Ls ∧ s.st.env[x]? = some o ∧ s.body.Live x

theorem Rep.objOf (u : Setup objs b root Ls) {path : List Name} {x o : Nat} (h : Rep Ls path x o) : objOf Ls path x = o := by
  obtain ⟨s, hs, h1, _⟩ := h
  exact u.hier.objOf' hs h1

/-- variables that matter have objects that are in use -/
theorem Setup.rep (u : Setup objs b root Ls) {path : List Name} {b' : Body K F} (hb : BAt b path b') {x : Nat} (hl : b'.Live x) : Rep Ls path x (objOf Ls path x) ∧
    ∃ m, OAt (objects objs) root path m ∧ m.Uses (objects objs) (objOf Ls path x) ∧ (objects objs (objOf Ls path x)).kind = .var := by
  obtain ⟨s, hs, rfl⟩ := u.hier.ofBody path b' hb
  obtain ⟨m, hm, c⟩ := u.hier.model hs
  obtain ⟨o, ho, h1⟩ := c.uses_of_live (u.ok.models path m hm) hl
  rw [u.hier.objOf' hs ho]
  exact ⟨⟨s, hs, ho, hl⟩, m, hm, h1, (c.envHas ho).2⟩

theorem Setup.rep_of_hasName (u : Setup objs b root Ls) {path : List Name} {x : Nat} {p : Name} (h : HasName b path x p) :
    Rep Ls path x (objOf Ls path x) ∧ NamedVar (objects objs) root (objOf Ls path x) p := by
  obtain ⟨b', nm, k, w, h1, h2, h3, h4, h5⟩ := h
  obtain ⟨r1, m, r2, r3, r4⟩ := u.rep h1 h2
  refine ⟨r1, ?_⟩
  obtain ⟨s, hs, rfl⟩ := u.hier.ofBody path b' h1
  obtain ⟨m', hm', c⟩ := u.hier.model hs
  obtain rfl := hm'.det u.ok.dotFree r2
  obtain ⟨o, ho, h6, h7⟩ := c.named h3
  rw [u.hier.objOf' hs h6] at r3 ⊢
  exact ⟨path, m', k, w, r2, ho, r3, by rw [u.hier.names]; exact h4, by rw [h5, h7]⟩

theorem Setup.hasName_of_named (u : Setup objs b root Ls) {o : Nat} {p : Name} (h : NamedVar (objects objs) root o p) : ∃ path x, Rep Ls path x o ∧ HasName b path x p := by
  obtain ⟨path, m, k, w, hm, ho, hu, hp, hw⟩ := h
  obtain ⟨s, hs, c⟩ := u.hier.ctx hm
  obtain ⟨x, hx, h1, h2, h3, h4⟩ := c.var_named ho
  have hl : s.body.Live x := by
    have hov := ho
    unfold OModel.vars at ho
    simp only [List.mem_append] at ho
    rcases ho with (hi | hi) | hi
    · obtain ⟨nm, sh, h5⟩ := h2 hi
      exact .input h5
    · obtain ⟨nm, h5⟩ := h3 hi
      exact .output h5
    · exact c.live_declared (u.ok.models path m hm) u.good u.size hi hu h1
  refine ⟨path, x, ⟨s, hs, hx, hl⟩, s.body, _, k, w, c.at_, hl, h1, ?_, hw⟩
  rw [← u.hier.names]
  exact hp

/-- two variables with the same object are the same -/
theorem Setup.rep_same (u : Setup objs b root Ls) {path path' : List Name} {x y o : Nat} (h1 : Rep Ls path x o) (h2 : Rep Ls path' y o) : Relation.EqvGen (Same b) (path, x) (path', y) := by
  obtain ⟨s, hs, hx, hl⟩ := h1
  obtain ⟨s', hs', hy, hl'⟩ := h2
  obtain ⟨m, hm, c⟩ := u.hier.model hs
  obtain ⟨m', hm', c'⟩ := u.hier.model hs'
  obtain ⟨rfl, rfl⟩ := u.hier.slot_unique hs hs' (c.envHas hx).1 (c'.envHas hy).1
  exact .rel _ _ (.alias s.body c.at_ hl hl' ((c.alias_iff (lt_of_some hx)).2 (hx.trans hy.symm)))

open Classical in
/-- a variable of the program with the object `o` -/
noncomputable def pick (Ls : List (List Name × Slot K F)) (o : Nat) : List Name × Nat := if h : ∃ q : List Name × Nat, Rep Ls q.1 q.2 o then h.choose else ([], 0)

theorem Setup.pick_same (u : Setup objs b root Ls) {path : List Name} {x o : Nat} (h : Rep Ls path x o) : Relation.EqvGen (Same b) (pick Ls o) (path, x) := by
  have hex : ∃ q : List Name × Nat, Rep Ls q.1 q.2 o := ⟨(path, x), h⟩
  unfold pick
  rw [dif_pos hex]
  exact u.rep_same hex.choose_spec h

theorem Hier.bat (h : Hier objs b root Ls) {path : List Name} {m : OModel} (hm : OAt (objects objs) root path m) : ∃ b', BAt b path b' ∧ b'.locals.connections = m.connections := by
  obtain ⟨s, hs, c⟩ := h.ctx hm
  refine ⟨s.body, c.at_, ?_⟩
  rw [c.mat.connections, c.inv.connections]
  rfl

theorem Setup.joined_same (u : Setup objs b root Ls) {a c : Nat} (h : Joined (objects objs) root a c) : Relation.EqvGen (Same b) (pick Ls a) (pick Ls c) := by
  cases h with
  | name p h1 h2 =>
    obtain ⟨path, x, r1, n1⟩ := u.hasName_of_named h1
    obtain ⟨path', y, r2, n2⟩ := u.hasName_of_named h2
    exact .trans _ _ _ (u.pick_same r1) (.trans _ _ _ (.rel _ _ (.name p n1 n2)) (.symm _ _ (u.pick_same r2)))
  | connection path m s t p q hm hst hp hq h1 h2 =>
    obtain ⟨path1, x, r1, n1⟩ := u.hasName_of_named h1
    obtain ⟨path2, y, r2, n2⟩ := u.hasName_of_named h2
    obtain ⟨b', hb', hc⟩ := u.hier.bat hm
    rw [u.hier.names] at hp hq
    exact .trans _ _ _ (u.pick_same r1) (.trans _ _ _ (.rel _ _ (.connection path b' s t p q hb' (by rw [hc]; exact hst) hp hq n1 n2)) (.symm _ _ (u.pick_same r2)))

theorem Setup.joined_same' (u : Setup objs b root Ls) {a c : Nat} (h : Relation.EqvGen (Joined (objects objs) root) a c) : Relation.EqvGen (Same b) (pick Ls a) (pick Ls c) := by
  induction h with
  | rel a c h => exact u.joined_same h
  | refl a => exact .refl _
  | symm a c _ ih => exact .symm _ _ ih
  | trans a c d _ _ ih1 ih2 => exact .trans _ _ _ ih1 ih2

theorem Setup.same_joined (u : Setup objs b root Ls) {q r : List Name × Nat} (h : Relation.EqvGen (Same b) q r) :
    Relation.EqvGen (Joined (objects objs) root) (objOf Ls q.1 q.2) (objOf Ls r.1 r.2) := by
  induction h with
  | rel q r h =>
    cases h with
    | name p h1 h2 => exact .rel _ _ (.name p (u.rep_of_hasName h1).2 (u.rep_of_hasName h2).2)
    | connection path b' s t p q hb hst hp hq h1 h2 =>
      obtain ⟨sl, hs, rfl⟩ := u.hier.ofBody path b' hb
      obtain ⟨m, hm, c⟩ := u.hier.model hs
      refine .rel _ _ (.connection path m s t p q hm ?_ (by rw [u.hier.names]; exact hp) (by rw [u.hier.names]; exact hq) (u.rep_of_hasName h1).2 (u.rep_of_hasName h2).2)
      rw [c.mat.connections, c.inv.connections]
      exact hst
    | @«alias» path x y b' hb hl hl' hx =>
      obtain ⟨sl, hs, rfl⟩ := u.hier.ofBody path b' hb
      obtain ⟨m, hm, c⟩ := u.hier.model hs
      have : objOf Ls path x = objOf Ls path y := by
        obtain ⟨o, ho, _⟩ := c.uses_of_live (u.ok.models path m hm) hl
        rw [u.hier.objOf' hs ho, u.hier.objOf' hs (((c.alias_iff (lt_of_some ho)).1 hx).symm.trans ho)]
      show Relation.EqvGen _ (objOf Ls path x) (objOf Ls path y)
      rw [this]
      exact .refl _
  | refl q => exact .refl _
  | symm q r _ ih => exact .symm _ _ ih
  | trans q r t _ _ ih1 ih2 => exact .trans _ _ _ ih1 ih2

end Csdl.Prog
