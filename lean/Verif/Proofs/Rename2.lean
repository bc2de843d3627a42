import Verif.Proofs.Rename
import Verif.Proofs.Modular
/-
Renaming (C101): promoted names, connections, statements.
-/
namespace Csdl.Prog
open Csdl
variable {K F : Type}

theorem renV_symm (r : Name ≃ Name) (v : VarInfo) : renV r (renV r.symm v) = v := by simp [renV]
theorem renV_symm' (r : Name ≃ Name) (v : VarInfo) : renV r.symm (renV r v) = v := by simp [renV]
theorem map_symm (r : Name ≃ Name) (l : List Name) : (l.map r.symm).map r = l := by simp [Function.comp_def]
theorem map_symm' (r : Name ≃ Name) (l : List Name) : (l.map r).map r.symm = l := by simp [Function.comp_def]
theorem Body.rename_symm' (r : Name ≃ Name) (b : Body K F) : (b.rename r.symm).rename r = b := by
  have := Body.rename_symm r.symm b
  simpa using this

theorem bat_inv (r : Name ≃ Name) {b : Body K F} {path : List Name} {c : Body K F} (h : BAt (b.rename r) path c) : ∃ path0 c0, path = path0.map r ∧ c = c0.rename r ∧ BAt b path0 c0 := by
  have := bat_rename r.symm _ h
  rw [Body.rename_symm] at this
  exact ⟨_, _, (map_symm r _).symm, (Body.rename_symm' r _).symm, this⟩

theorem isPromoted_rename {r : Name ≃ Name} (R : Renaming r) (q : Option (List Name)) (p : Name) : IsPromoted (q.map (·.map r)) (r p) ↔ IsPromoted q p := by
  cases q with
  | none => exact (R.undotted p).symm
  | some l => simp [IsPromoted]

theorem promoted_rename_aux {r : Name ≃ Name} (R : Renaming r) {m : Model} {path : List Name} {k : VarKind} {v : VarInfo} {p : Name} (h : PromotedAs m path k v p) :
    ∀ b : Body K F, b.toModel = m → PromotedAs (b.rename r).toModel (path.map r) k (renV r v) (r p) := by
  induction h with
  | here hv =>
    intro b e
    unfold Body.toModel at e ⊢
    obtain ⟨rfl, rfl⟩ := Model.mk.inj e
    exact .here (v := renV r _) (by rw [vars_rename]; exact List.mem_map.2 ⟨_, hv, rfl⟩)
  | @up l subs path k v p s hs _ hp ih =>
    intro b e
    unfold Body.toModel at e ⊢
    obtain ⟨rfl, rfl⟩ := Model.mk.inj e
    obtain ⟨n, q, m⟩ := s
    obtain ⟨s', h1, h2⟩ := mem_toSubs.1 hs
    exact .up (s := ⟨r n, q.map (·.map r), (s'.rename r).toModel⟩) (mem_toSubs.2 ⟨_, by rw [Body.rename_subs]; exact List.mem_map.2 ⟨_, h1, rfl⟩, rfl⟩) (ih s' h2.symm) ((isPromoted_rename R _ _).2 hp)
  | @stay l subs path k v p s hs _ hp ih =>
    intro b e
    unfold Body.toModel at e ⊢
    obtain ⟨rfl, rfl⟩ := Model.mk.inj e
    obtain ⟨n, q, m⟩ := s
    obtain ⟨s', h1, h2⟩ := mem_toSubs.1 hs
    rw [R.prepend]
    exact .stay (s := ⟨r n, q.map (·.map r), (s'.rename r).toModel⟩) (mem_toSubs.2 ⟨_, by rw [Body.rename_subs]; exact List.mem_map.2 ⟨_, h1, rfl⟩, rfl⟩) (ih s' h2.symm) (mt (isPromoted_rename R _ _).1 hp)

section
variable {r : Name ≃ Name} (R : Renaming r) {b : Body K F}
include R

theorem promoted_rename {path : List Name} {k : VarKind} {v : VarInfo} {p : Name} (h : PromotedAs b.toModel path k v p) : PromotedAs (b.rename r).toModel (path.map r) k (renV r v) (r p) :=
  promoted_rename_aux R h b rfl

theorem promoted_inv {path : List Name} {k : VarKind} {v : VarInfo} {p : Name} (h : PromotedAs (b.rename r).toModel path k v p) :
    ∃ path0 v0 p0, path = path0.map r ∧ v = renV r v0 ∧ p = r p0 ∧ PromotedAs b.toModel path0 k v0 p0 := by
  have := promoted_rename R.symm h
  rw [Body.rename_symm] at this
  exact ⟨_, _, _, (map_symm r _).symm, (renV_symm r _).symm, (r.apply_symm_apply _).symm, this⟩

theorem denotes_rename {x p : Name} (h : Denotes b.toModel x p) : Denotes (b.rename r).toModel (r x) (r p) := by
  cases h with
  | promoted h => exact .promoted (promoted_rename R h)
  | full h => rw [R.full]; exact .full (promoted_rename R h)

theorem denotes_inv {x p : Name} (h : Denotes (b.rename r).toModel (r x) p) : ∃ p0, p = r p0 ∧ Denotes b.toModel x p0 := by
  have := denotes_rename R.symm h
  rw [Body.rename_symm, r.symm_apply_apply] at this
  exact ⟨_, (r.apply_symm_apply _).symm, this⟩

theorem denotes_full {path : List Name} {x p : Name} : Denotes (b.rename r).toModel (fullName (path.map r) (r x)) (r p) ↔ Denotes b.toModel (fullName path x) p := by
  rw [← R.full]
  constructor
  · intro h
    obtain ⟨p0, e, h⟩ := denotes_inv R h
    rwa [r.injective e]
  · exact denotes_rename R

theorem hasName_rename {path : List Name} {x : Nat} {p : Name} (h : HasName b path x p) : HasName (b.rename r) (path.map r) x (r p) := by
  obtain ⟨c, name, k, w, h1, h2, h3, h4, rfl⟩ := h
  exact ⟨_, _, k, _, bat_rename r _ h1, live_rename r _ h2, named_rename r _ h3, promoted_rename R h4, rfl⟩

theorem hasName_inv {path : List Name} {x : Nat} {p : Name} (h : HasName (b.rename r) path x p) : ∃ path0 p0, path = path0.map r ∧ p = r p0 ∧ HasName b path0 x p0 := by
  have := hasName_rename R.symm h
  rw [Body.rename_symm] at this
  exact ⟨_, _, (map_symm r _).symm, (r.apply_symm_apply _).symm, this⟩

/-- a variable of a program, in the program with other names -/
def renP (r : Name → Name) (q : List Name × Nat) : List Name × Nat := (q.1.map r, q.2)

omit R in
theorem connections_mem_rename {c : Name × Name} (h : c ∈ b.locals.connections) : (r c.1, r c.2) ∈ (b.rename r).locals.connections := by
  rw [locals_rename]
  exact List.mem_map.2 ⟨_, h, rfl⟩

theorem same_rename {q q' : List Name × Nat} (h : Same b q q') : Same (b.rename r) (renP r q) (renP r q') := by
  cases h with
  | name p h1 h2 => exact .name _ (hasName_rename R h1) (hasName_rename R h2)
  | connection path c s t p p' h1 h2 h3 h4 h5 h6 =>
    exact .connection _ _ _ _ _ _ (bat_rename r _ h1) (connections_mem_rename h2) ((denotes_full R).2 h3) ((denotes_full R).2 h4) (hasName_rename R h5) (hasName_rename R h6)
  | «alias» c h1 h2 h3 h4 => exact .alias _ (bat_rename r _ h1) (live_rename r _ h2) (live_rename r _ h3) (by rw [Body.rename_stmts]; exact alias_rename r h4)

theorem eqv_rename {q q' : List Name × Nat} (h : Relation.EqvGen (Same b) q q') : Relation.EqvGen (Same (b.rename r)) (renP r q) (renP r q') := by
  induction h with
  | rel _ _ h => exact .rel _ _ (same_rename R h)
  | refl _ => exact .refl _
  | symm _ _ _ ih => exact .symm _ _ ih
  | trans _ _ _ _ _ ih1 ih2 => exact .trans _ _ _ ih1 ih2

omit R in
theorem feeds_rename {q q' : List Name × Nat} (h : Feeds b q q') : Feeds (b.rename r) (renP r q) (renP r q') := by
  rcases h with ⟨c, n, s, h1, h2, h3, h4, h5, h6, h7, h8⟩ | ⟨c, name, shape, val, key, h1, h2, h3, h4⟩
  · exact Or.inl ⟨_, n, _, by simp [renP, h1], bat_rename r _ h2, has_rename r _ h3, (Stmt.rename_computes r s).2 h4, h5, by rw [Stmt.rename_count]; exact h6, live_rename r _ h7, by rw [Stmt.rename_operands]; exact h8⟩
  · exact Or.inr ⟨_, r name, shape, val, key, by simp [renP, h1], bat_rename r _ h2, has_rename r _ h3, assigned_rename r _ h4⟩

theorem circular_rename (h : CircularProgram b) : CircularProgram (b.rename r) := by
  obtain ⟨q, h⟩ := h
  have : ∀ q q', Relation.TransGen (fun a c => ∃ a', Relation.EqvGen (Same b) a a' ∧ Feeds b a' c) q q' →
      Relation.TransGen (fun a c => ∃ a', Relation.EqvGen (Same (b.rename r)) a a' ∧ Feeds (b.rename r) a' c) (renP r q) (renP r q') := by
    intro q q' h
    induction h with
    | single h => obtain ⟨a, h1, h2⟩ := h; exact .single ⟨_, eqv_rename R h1, feeds_rename h2⟩
    | tail _ h ih => obtain ⟨a, h1, h2⟩ := h; exact .tail ih ⟨_, eqv_rename R h1, feeds_rename h2⟩
  exact ⟨_, this _ _ h⟩

theorem given_rename {path : List Name} {x : Nat} (h : GivenVar b path x) : GivenVar (b.rename r) (path.map r) x := by
  obtain ⟨⟨c, h1, h2⟩, h3⟩ := h
  refine ⟨⟨_, bat_rename r _ h1, live_rename r _ h2⟩, fun path' b' n s y hb hs hc hn hl hlive heq => ?_⟩
  have hb' := bat_rename r.symm _ hb
  have heq' := eqv_rename R.symm heq
  rw [Body.rename_symm] at hb' heq'
  refine h3 _ _ n _ y hb' (has_rename r.symm _ hs) ((Stmt.rename_computes _ s).2 hc) hn (by rw [Stmt.rename_count]; exact hl) (live_rename r.symm _ hlive) ?_
  simpa only [renP, map_symm'] using heq'

theorem given_inv {path : List Name} {x : Nat} (h : GivenVar (b.rename r) (path.map r) x) : GivenVar b path x := by
  have := given_rename R.symm h
  rwa [Body.rename_symm, map_symm'] at this

end

theorem namedIn_rename (r : Name → Name) {L : List (Nat × Stmt K F)} {x : Nat} {name : Name} (h : NamedIn L x name) : NamedIn (renS r L) x (r name) := by
  obtain ⟨y, h1, h2⟩ := h
  refine ⟨y, alias_rename r h1, ?_⟩
  rw [inputs_rename, declareds_rename, outputs_rename]
  rcases h2 with ⟨s, h | h⟩ | h
  · exact Or.inl ⟨s, Or.inl (List.mem_map.2 ⟨_, h, rfl⟩)⟩
  · exact Or.inl ⟨s, Or.inr (List.mem_map.2 ⟨_, h, rfl⟩)⟩
  · exact Or.inr (List.mem_map.2 ⟨_, h, rfl⟩)

theorem namedIn_inv (r : Name ≃ Name) {L : List (Nat × Stmt K F)} {x : Nat} {name : Name} (h : NamedIn (renS r L) x name) : NamedIn L x (r.symm name) := by
  have := namedIn_rename r.symm h
  rwa [renS_symm] at this

theorem sameNameIn_rename (r : Name ≃ Name) {L L' : List (Nat × Stmt K F)} {x x' : Nat} (h : SameNameIn L x L' x') : SameNameIn (renS r L) x (renS r L') x' := by
  rcases h with ⟨name, h1, h2⟩ | ⟨h1, h2, h3⟩
  · exact Or.inl ⟨_, namedIn_rename r h1, namedIn_rename r h2⟩
  · exact Or.inr ⟨alias_rename r h1, fun name hn => h2 _ (namedIn_inv r hn), fun name hn => h3 _ (namedIn_inv r hn)⟩

theorem sameNameIn_inv (r : Name ≃ Name) {L L' : List (Nat × Stmt K F)} {x x' : Nat} (h : SameNameIn (renS r L) x (renS r L') x') : SameNameIn L x L' x' := by
  have := sameNameIn_rename r.symm h
  rwa [renS_symm, renS_symm] at this


theorem stmtOk_rename [Zero K] {r : Name ≃ Name} (R : Renaming r) {L : List (Nat × Stmt K F)} {s : Stmt K F} (h : StmtOk L s) : StmtOk (renS r L) (s.rename r) := by
  have hd : ∀ name, (∀ y ∈ L, y.2.defines ≠ some name) → ∀ y ∈ renS r L, y.2.defines ≠ some (r name) := by
    intro name hL y hy e
    obtain ⟨y0, h0, rfl⟩ := List.mem_map.1 hy
    rw [Stmt.rename_defines] at e
    obtain ⟨a, e1, e2⟩ := Option.map_eq_some_iff.1 e
    rw [r.injective e2] at e1
    exact hL y0 h0 e1
  cases s with
  | input name s v => exact (R.allowed _).1 h
  | declare name s v => trivial
  | expr i =>
    unfold StmtOk Stmt.rename at *
    rw [numVars_rename, shapesOf_rename]
    exact h
  | call f args outs =>
    unfold StmtOk Stmt.rename at *
    rw [numVars_rename]
    exact h
  | index x key =>
    unfold StmtOk Stmt.rename at *
    rw [numVars_rename, shapesOf_rename]
    exact h
  | output name s v => exact ⟨(R.allowed _).1 h.1, hd _ h.2⟩
  | register name x =>
    obtain ⟨h1, h2, ⟨n, s, y, g1, g2, g3, g4, g5⟩, h4, h5⟩ := h
    refine ⟨(R.allowed _).1 h1, by rw [numVars_rename]; exact h2, ⟨n, s.rename r, y, List.mem_map.2 ⟨_, g1, rfl⟩, (Stmt.rename_computes r s).2 g2, g3, by rw [Stmt.rename_count]; exact g4, alias_rename r g5⟩, ?_, hd _ h5⟩
    intro x' name' hm ha
    rw [outputs_rename] at hm
    obtain ⟨o, ho, e⟩ := List.mem_map.1 hm
    cases e
    exact h4 _ _ ho ((alias_rename_iff r).1 ha)
  | connect a c => exact fun e => h (r.injective e)
  | assign z key x =>
    obtain ⟨h1, h2, y, name, shape, val, idx, h3, h4, h5, h6, h7⟩ := h
    refine ⟨by rw [numVars_rename]; exact h1, by rw [numVars_rename]; exact h2, y, r name, shape, val, idx, List.mem_map.2 ⟨_, h3, rfl⟩, alias_rename r h4, by rw [shapesOf_rename]; exact h5, h6, ?_⟩
    intro L1 n z' key' x' L2 e ha
    have e' := congrArg (renS r.symm) e
    rw [renS_symm] at e'
    have e2 : renS r.symm (L1 ++ (n, Stmt.assign z' key' x') :: L2) = renS r.symm L1 ++ (n, Stmt.assign z' key' x') :: renS r.symm L2 := by simp [renS, Stmt.rename]
    rw [e2] at e'
    have := h7 _ n z' key' x' _ e' ((alias_rename_iff r).1 ha)
    refine ⟨fun hs => this.1 ?_, this.2⟩
    have hs' := sameNameIn_rename r.symm hs
    rwa [renS_symm] at hs'

theorem methodOk_rename [Zero K] {r : Name ≃ Name} (R : Renaming r) {b : Body K F} (h : MethodOk b) : MethodOk (b.rename r) where
  stmts := by
    intro L y L' e
    rw [Body.rename_stmts] at e
    have e' := congrArg (renS r.symm) e
    rw [renS_symm] at e'
    have e2 : renS r.symm (L ++ y :: L') = renS r.symm L ++ (y.1, y.2.rename r.symm) :: renS r.symm L' := by simp [renS]
    rw [e2] at e'
    have := stmtOk_rename R (h.stmts _ _ _ e')
    have e3 := renS_symm r.symm L
    have e4 := Stmt.rename_symm r.symm y.2
    simp only [Equiv.symm_symm] at e3 e4
    rwa [e3, e4] at this
  assigned := by
    intro y name shape val hh
    have := has_rename r.symm _ hh
    rw [Body.rename_symm] at this
    obtain ⟨key, x, hx⟩ := h.assigned y _ shape val this
    exact ⟨key, x, assigned_rename r _ hx⟩
  subNames := by
    rw [Body.rename_subs, List.map_map]
    have := h.subNames.map r.injective
    rwa [List.map_map] at this
  subAllowed := by
    intro s hs
    rw [Body.rename_subs] at hs
    obtain ⟨s0, h0, rfl⟩ := List.mem_map.1 hs
    exact (R.allowed _).1 (h.subAllowed _ h0)
  nonEmpty := by
    rw [locals_rename, Body.rename_subs]
    simpa using h.nonEmpty

end Csdl.Prog
