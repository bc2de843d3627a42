import Verif.Proofs.ProgramFull2
/-
Proofs for C80, C81: from programs with custom and implicit operations and optimisation declarations to programs with calls and registrations.
-/
namespace Csdl.Prog
open Csdl Csdl.Arith
variable {K F G I : Type} [Field K] [DecidableEq K]

omit [DecidableEq K] in
theorem xat_low {b : XBody K F G I} {path : List Name} {b' : XBody K F G I} (h : XAt b path b') : BAt (b.low 0) path (b'.low 0) := by
  induction h with
  | here => exact .here _
  | down hs _ ih => exact .down (by rw [low_subs]; exact List.mem_map.2 ⟨_, hs, rfl⟩) ih

omit [DecidableEq K] in
theorem bat_low {b : XBody K F G I} {path : List Name} {c : Body K (Fun F G I)} (h : BAt (b.low 0) path c) : ∃ b', XAt b path b' ∧ c = b'.low 0 := by
  generalize hb : b.low 0 = b0 at h
  induction h generalizing b with
  | here => exact ⟨b, .here _, hb.symm⟩
  | down hs _ ih =>
    rw [← hb, low_subs] at hs
    obtain ⟨t, h1, h2⟩ := List.mem_map.1 hs
    cases h2
    obtain ⟨b', h3, h4⟩ := ih rfl
    exact ⟨b', .down h1 h3, h4⟩

omit [DecidableEq K] [Field K] in
theorem mem_number {F : Type} : ∀ (l : List (Stmt K F)) (n : Nat) {x : Nat × Stmt K F}, x ∈ number n l → x.2 ∈ l
  | [], _, _, h => by cases h
  | s :: l, n, x, h => by
    rcases List.mem_cons.1 h with rfl | h
    · exact List.mem_cons_self ..
    · exact List.mem_cons_of_mem _ (mem_number l _ h)

omit [DecidableEq K] in
theorem names_low (s : XStmt K F G I) (n : Nat) {name : Name} (h : name ∈ (s.low n).filterMap Stmt.defines) : name ∈ s.names n := by
  cases s <;> first | exact h | exact List.mem_append_left _ h

omit [DecidableEq K] in
theorem XPlainAfter.low {n : Nat} {b : XBody K F G I} (h : XPlainAfter n b) : PlainAfter n (b.low 0) := by
  intro _
  refine ⟨h.size, fun path c n s name hb hs hd => ?_⟩
  obtain ⟨b', h1, rfl⟩ := bat_low hb
  unfold Body.Has at hs
  rw [low_stmts] at hs
  obtain ⟨⟨m, t⟩, h2, h3⟩ := List.mem_flatMap.1 hs
  exact h.names path b' m t h1 h2 name (names_low t m (List.mem_filterMap.2 ⟨s, mem_number _ _ h3, hd⟩))

omit [DecidableEq K] [Field K] in
theorem toSubs_prefix {F : Type} : ∀ (l : List (Stmt K F)) (b : Body K F), (b.prefix l).toSubs = b.toSubs
  | [], _ => rfl
  | _ :: l, b => toSubs_prefix l b

omit [DecidableEq K] in
theorem local_eq {b : XBody K F G I} {l : Local} (h : l.strip = (b.low 0).locals) (h1 : l.designVars = b.locals.designVars) (h2 : l.constraints = b.locals.constraints)
    (h3 : l.objective = b.locals.objective) : l = b.locals := by
  cases l
  simp only [Local.strip] at h
  simp only at h1 h2 h3
  unfold XBody.locals at *
  rw [← h]
  simp only at h1 h2 h3
  simp only [h1, h2, h3]

omit [DecidableEq K] in
theorem declSubs_toSubs (H : Objs) : ∀ (b : XBody K F G I) (n : Nat) (ks : OSubs), DeclSubs b ks → Subs.strip (ks.toSubs H) = (b.low n).toSubs → ks.toSubs H = b.toSubs
  | .done, n, ks, hd, h => by
    cases ks with
    | nil => rfl
    | cons i p m rest =>
      rw [OSubs.toSubs, Subs.strip, XBody.low, Body.toSubs] at h
      cases h
  | .stmt s rest, n, ks, hd, h => by
    rw [XBody.low, toSubs_prefix] at h
    rw [XBody.toSubs]
    exact declSubs_toSubs H rest _ ks hd h
  | .add _ name p sub rest, n, .nil, hd, h => by
    rw [DeclSubs] at hd
    exact hd.elim
  | .add _ name p sub rest, n, .cons i q m ks, hd, h => by
    rw [OSubs.toSubs, Subs.strip, XBody.low, Body.toSubs] at h
    injection h with h1 h2 h3 h4
    rw [DeclSubs] at hd
    obtain ⟨⟨i', o, d, c, subs, hm, hsub⟩, hrest⟩ := hd
    rw [OSubs.toSubs, XBody.toSubs, declSubs_toSubs H rest n ks hrest h4, h1, h2]
    congr 1
    subst hm
    rw [OModel.toModel, Model.strip] at h3
    injection h3 with h5 h6
    rw [OModel.toModel, declSubs_toSubs H sub 0 subs hsub h6]
    congr 1
    exact local_eq h5 rfl rfl rfl

/-- the model objects of a program have the names and declarations of the program -/
theorem xrunFrom_names {pre : List (PObj K (Fun F G I))} {b : XBody K F G I} {done objs : List (PObj K (Fun F G I))} {root : OModel} (h : xrunFrom pre b = .ok (done, root)) (hpre : done <+: objs) : root.toModel (objects objs) = b.toModel := by
  obtain ⟨h1, i, o, d, c, subs, rfl, h2⟩ := xrunFrom_low h
  obtain ⟨Ls, hh, _⟩ := runFrom_hier h1 hpre
  have hn := hh.names
  rw [toModel_strip, OModel.toModel, Model.strip] at hn
  unfold Body.toModel at hn
  injection hn with h3 h4
  rw [OModel.toModel, declSubs_toSubs _ b 0 subs h2 h4]
  unfold XBody.toModel
  congr 1
  exact local_eq h3 rfl rfl rfl

theorem xobjects_plain (objs : List (PObj K (Fun F G I))) : (xobjects objs).plain = (objects objs).plain := rfl

theorem strip_lowModel {pre : List (PObj K (Fun F G I))} {b : XBody K F G I} {objs : List (PObj K (Fun F G I))} {root : OModel} (h : xrunFrom pre b = .ok (objs, root)) : Model.strip b.toModel = (b.low 0).toModel := by
  obtain ⟨Ls, hh, _⟩ := runFrom_hier (xrunFrom_low h).1 List.prefix_rfl
  rw [← xrunFrom_names h List.prefix_rfl, ← toModel_strip, hh.names]

/-- what is compiled: the program with calls and registrations, and the declarations -/
theorem xcompile {pre : List (PObj K (Fun F G I))} {b : XBody K F G I} (hg : GoodNames (b.low 0)) {done objs : List (PObj K (Fun F G I))} {root : OModel} (h : xrunFrom pre b = .ok (done, root))
    (hpre : done <+: objs) (hcl : Closed objs) (hn : objs.length ≤ 63 ^ 4) {fuel : Nat}
    (hf : ∀ path b', BAt (b.low 0) path b' → (b'.locals.outputs ++ b'.locals.declared).length + objs.length ≤ fuel) {order : List Nat → List Nat} (ho : ∀ l x, x ∈ order l ↔ x ∈ l) (rep : Csdl.Rep) :
    compile (xobjects objs) fuel order root = .ok rep ↔ ∃ rep0 dv ob cn, compile (objects objs) fuel order (OModel.strip root) = .ok rep0 ∧ collectDecl Local.designVars rep0.p2u b.toModel [] [] = .ok dv ∧
      findObjective rep0.p2u b.toModel [] none = .ok ob ∧ collectDecl Local.constraints rep0.p2u b.toModel [] [] = .ok cn ∧ rep = { rep0 with designVars := dv, objective := ob, constraints := cn } := by
  have h1 := (xrunFrom_low h).1
  obtain ⟨Ls, hh, _⟩ := runFrom_hier h1 hpre
  have u : Setup objs (b.low 0) (OModel.strip root) Ls := ⟨hh, hg, hcl, hn⟩
  have hm : root.toModel (xobjects objs) = b.toModel := by
    rw [← toModel_plain, xobjects_plain, toModel_plain, xrunFrom_names h hpre]
  have hfuel : ∀ path m, OAt (objects objs).plain (OModel.strip root) path m → (m.outputs ++ m.declared).length + objs.length ≤ fuel := ?_
  · rw [compile_strip, hm, compile_plain (H := xobjects objs) (n := objs.length) (by rw [xobjects_plain]; exact objectsOk_plain u.ok) hfuel order ho, xobjects_plain,
      ← compile_plain (H := objects objs) (n := objs.length) (objectsOk_plain u.ok) hfuel order ho]
  intro path m hm
  rw [oat_plain] at hm
  obtain ⟨s, hs, c⟩ := hh.ctx hm
  have := hf path s.body c.at_
  have e1 : s.body.locals.outputs.length = m.outputs.length := by
    rw [c.mat.outputs, c.inv.outputs.length_eq]
    simp [Body.locals]
  have e2 : s.body.locals.declared.length = m.declared.length := by
    rw [c.mat.declared, c.inv.declared.length_eq]
    simp [Body.locals]
  simp only [List.length_append] at this ⊢
  omega

/-- the map of names of the representation -/
theorem compile_p2u {H : Objs} {fuel : Nat} {order : List Nat → List Nat} {root : OModel} {rep : Csdl.Rep} (h : compile H fuel order root = .ok rep) :
    ∃ r, resolve (root.toModel H) none = .ok r ∧ rep.p2u = r.p2u := by
  unfold compile at h
  cases h1 : resolve (root.toModel H) none with
  | error e => rw [h1] at h; cases h
  | ok r =>
    refine ⟨r, rfl, ?_⟩
    rw [h1] at h
    simp only [raises, bind, Except.bind] at h
    repeat' split at h
    all_goals first | (cases h; done) | (simp only [pure, Except.pure, Except.ok.injEq] at h; rw [← h])

omit [DecidableEq K] in
/-- a statement and what it is written as -/
theorem has_low {b : XBody K F G I} {n : Nat} {s : XStmt K F G I} (h : (n, s) ∈ b.stmts 0) {x : Nat × Stmt K (Fun F G I)} (hx : x ∈ number n (s.low n)) : (b.low 0).Has x.1 x.2 := by
  unfold Body.Has
  rw [low_stmts]
  exact List.mem_flatMap.2 ⟨_, h, hx⟩

theorem mem_registers : ∀ (names : List Name) (n m : Nat) (j : Nat) (hj : j < names.length), (m, Stmt.register names[j] (n + j)) ∈ number m (registers (K := K) (F := F) (G := G) (I := I) n names)
  | [], n, m, j, hj => by simp at hj
  | a :: names, n, m, j, hj => by
    unfold registers
    rw [List.mapIdx_cons]
    unfold number
    cases j with
    | zero => exact List.mem_cons_self ..
    | succ j =>
      refine List.mem_cons_of_mem _ ?_
      have := mem_registers names (n + 1) m j (by simpa using hj)
      unfold registers at this
      simp only [Stmt.count, Nat.add_zero, List.getElem_cons_succ]
      have e : (fun (i : Nat) (a : Name) => (Stmt.register a (n + 1 + i) : Stmt K (Fun F G I))) = fun i a => .register a (n + (i + 1)) := by
        funext i a; rw [show n + 1 + i = n + (i + 1) by omega]
      rw [e, show n + 1 + j = n + (j + 1) by omega] at this
      exact this

omit [DecidableEq K] in
theorem xtoSubs_mem : ∀ (b : XBody K F G I) {t : Subgraph}, t ∈ b.toSubs.toList ↔ ∃ x ∈ b.subs, t = ⟨x.1, x.2.1, x.2.2.toModel⟩
  | .done, t => by simp [XBody.toSubs, Subs.toList, XBody.subs]
  | .stmt s rest, t => by rw [XBody.toSubs, XBody.subs]; exact xtoSubs_mem rest
  | .add _ n p sub rest, t => by
    rw [XBody.toSubs, XBody.subs, Subs.toList, List.mem_cons, xtoSubs_mem rest]
    simp only [List.mem_cons, exists_eq_or_imp, XBody.toModel]

omit [DecidableEq K] in
theorem xat_of_at {b : XBody K F G I} {path : List Name} {M : Model} (h : At b.toModel path M) : ∃ b', XAt b path b' ∧ M = b'.toModel := by
  generalize hm : b.toModel = m0 at h
  induction h generalizing b with
  | here => exact ⟨b, .here _, hm.symm⟩
  | down hs _ ih =>
    unfold XBody.toModel at hm
    cases hm
    obtain ⟨x, h1, rfl⟩ := (xtoSubs_mem b).1 hs
    obtain ⟨b', h2, h3⟩ := ih rfl
    exact ⟨b', .down h1 h2, h3⟩

omit [DecidableEq K] in
theorem at_of_xat {b : XBody K F G I} {path : List Name} {b' : XBody K F G I} (h : XAt b path b') : At b.toModel path b'.toModel := by
  induction h with
  | here => exact .here _
  | @down b n p sub path b' hs _ ih => exact At.down (s := ⟨n, p, sub.toModel⟩) ((xtoSubs_mem b).2 ⟨_, hs, rfl⟩) ih

end Csdl.Prog
