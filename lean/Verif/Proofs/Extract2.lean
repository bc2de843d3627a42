import Verif.Proofs.Extract
import Verif.Props.Apart
/-
Moving the last statements of the main method to a submodel (C105): names.
-/
namespace Csdl.Prog
open Csdl Csdl.Arith
variable {K F : Type}

theorem vars_named {c : Body K F} {k : VarKind} {w : VarInfo} (h : w ∈ c.locals.vars k) : ∃ x, c.Named x w.name := by
  cases k with
  | source =>
    simp only [Local.vars, Local.sources, Body.locals, List.mem_append, List.mem_map] at h
    rcases h with ⟨⟨x, name, s⟩, h, rfl⟩ | ⟨⟨x, name⟩, h, rfl⟩
    · exact ⟨x, Or.inl ⟨s, Or.inl h⟩⟩
    · exact ⟨x, Or.inr h⟩
  | target =>
    simp only [Local.vars, Body.locals, List.mem_map] at h
    obtain ⟨⟨x, name, s⟩, h, rfl⟩ := h
    exact ⟨x, Or.inl ⟨s, Or.inr h⟩⟩

theorem named_vars {c : Body K F} {x : Nat} {name : Name} (h : c.Named x name) : ∃ k w, w ∈ c.locals.vars k ∧ w.name = name := by
  rcases h with ⟨s, h | h⟩ | h
  · exact ⟨.source, ⟨name, s⟩, by simp only [Local.vars, Local.sources, Body.locals, List.mem_append, List.mem_map]; exact Or.inl ⟨_, h, rfl⟩, rfl⟩
  · exact ⟨.target, ⟨name, s⟩, by simp only [Local.vars, Body.locals, List.mem_map]; exact ⟨_, h, rfl⟩, rfl⟩
  · exact ⟨.source, ⟨name, c.shapes.getD x []⟩, by simp only [Local.vars, Local.sources, Body.locals, List.mem_append, List.mem_map]; exact Or.inr ⟨_, h, rfl⟩, rfl⟩

section
variable [Zero K] {b : Body K F} {i : Bool} {n : Name} {sub rest : Body K F} {μ : Nat → Nat} (E : Extract b i n sub rest μ)
include E

theorem Extract.newSub {m : Name} {p : Option (List Name)} {s : Body K F} (h : (m, p, s) ∈ b.subs) : m ≠ n := by
  rintro rfl
  exact E.fresh.newSub (by rw [E.subs]; exact List.mem_map.2 ⟨_, h, rfl⟩)

theorem Extract.at' {path : List Name} {c : Body K F} (h : BAt (b.addPromoted i n sub) path c) :
    (path = [] ∧ c = b.addPromoted i n sub) ∨ (path ≠ [] ∧ path ≠ [n] ∧ BAt (b.append rest) path c) ∨ (path = [n] ∧ c = sub) := by
  cases h with
  | here => exact Or.inl ⟨rfl, rfl⟩
  | down hs h =>
    rw [subs_addPromoted, List.mem_append, List.mem_singleton] at hs
    rcases hs with hs | hs
    · refine Or.inr (Or.inl ⟨by simp, fun e => E.newSub hs (List.cons.inj e).1, .down (by rw [E.subs]; exact hs) h⟩)
    · cases hs
      cases h with
      | here => exact Or.inr (Or.inr ⟨rfl, rfl⟩)
      | down hs _ => rw [E.inl.subs.1] at hs; cases hs

theorem Extract.connects {s t : Name} : (s, t) ∈ (b.append rest).locals.connections ↔ (s, t) ∈ b.locals.connections ∨ (s, t) ∈ sub.locals.connections := by
  simp only [mem_connections, Body.connects_iff 0]
  change (∃ m, (b.append rest).Has m _) ↔ (∃ m, b.Has m _) ∨ ∃ m, sub.Has m _
  constructor
  · rintro ⟨m, h⟩
    rcases E.from h with h | ⟨_, m0, u, h1, h2, _⟩
    · exact Or.inl ⟨m, h⟩
    · cases u <;> cases h2
      exact Or.inr ⟨m0, h1⟩
  · rintro (⟨m, h⟩ | ⟨m, h⟩)
    · exact ⟨m, E.hasFirst h⟩
    · obtain ⟨m', g, _⟩ := E.kept h (by simp)
      exact ⟨m', g⟩

/-- the names in the main model with the submodel -/
theorem Extract.promoted {path : List Name} {k : VarKind} {w : VarInfo} {p : Name} (h : PromotedAs (b.addPromoted i n sub).toModel path k w p) :
    (path = [] ∧ w ∈ b.locals.vars k ∧ p = w.name) ∨ (path ≠ [] ∧ path ≠ [n] ∧ PromotedAs (b.append rest).toModel path k w p) ∨ (path = [n] ∧ w ∈ sub.locals.vars k ∧ p = w.name) := by
  unfold Body.toModel at h
  cases h with
  | here hv => rw [locals_addPromoted] at hv; exact Or.inl ⟨rfl, hv, rfl⟩
  | @up _ _ path _ _ p s hs hp hpr =>
    obtain ⟨s', h1, h2⟩ := mem_toSubs.1 hs
    rw [subs_addPromoted, List.mem_append, List.mem_singleton] at h1
    rcases h1 with h1 | h1
    · refine Or.inr (Or.inl ⟨by simp, fun e => E.newSub h1 (List.cons.inj e).1, .up (mem_toSubs.2 ⟨s', by rw [E.subs]; exact h1, h2⟩) hp hpr⟩)
    · rw [Prod.mk.injEq, Prod.mk.injEq] at h1
      obtain ⟨e1, _, rfl⟩ := h1
      rw [h2] at hp
      unfold Body.toModel at hp
      cases hp with
      | here hv => exact Or.inr (Or.inr ⟨by rw [e1], hv, rfl⟩)
      | up hs' => obtain ⟨s', h1, _⟩ := mem_toSubs.1 hs'; rw [E.inl.subs.1] at h1; cases h1
      | stay hs' => obtain ⟨s', h1, _⟩ := mem_toSubs.1 hs'; rw [E.inl.subs.1] at h1; cases h1
  | @stay _ _ path _ _ p s hs hp hpr =>
    obtain ⟨s', h1, h2⟩ := mem_toSubs.1 hs
    rw [subs_addPromoted, List.mem_append, List.mem_singleton] at h1
    rcases h1 with h1 | h1
    · refine Or.inr (Or.inl ⟨by simp, fun e => E.newSub h1 (List.cons.inj e).1, .stay (mem_toSubs.2 ⟨s', by rw [E.subs]; exact h1, h2⟩) hp hpr⟩)
    · rw [Prod.mk.injEq, Prod.mk.injEq] at h1
      obtain ⟨e1, e2, rfl⟩ := h1
      rw [h2] at hp
      unfold Body.toModel at hp
      cases hp with
      | here hv =>
        exfalso
        rw [e2] at hpr
        have hdf := dotFree_body E.split.methods E.split.names
        have hsub : PromotedAs (b.addPromoted i n s').toModel _ _ _ _ := PromotedAs.stay hs (p := _) (by rw [h2]; exact PromotedAs.here hv) (by rw [e2]; exact hpr)
        exact hpr (promoted_good _ hdf hsub).2
      | up hs' => obtain ⟨s', h1, _⟩ := mem_toSubs.1 hs'; rw [E.inl.subs.1] at h1; cases h1
      | stay hs' => obtain ⟨s', h1, _⟩ := mem_toSubs.1 hs'; rw [E.inl.subs.1] at h1; cases h1

/-- a name of the main model without the submodel -/
theorem Extract.promotedNamed {x : Nat} {name : Name} (h : (b.append rest).Named x name) : ∃ k w, w.name = name ∧ PromotedAs (b.append rest).toModel [] k w name := by
  obtain ⟨k, w, h1, rfl⟩ := named_vars h
  exact ⟨k, w, rfl, .here h1⟩

/-- variables keep their names -/
theorem Extract.hasName {path : List Name} {x : Nat} {p : Name} (h : HasName (b.addPromoted i n sub) path x p) : HasName (b.append rest) (moved n μ (path, x)).1 (moved n μ (path, x)).2 p := by
  obtain ⟨c, name, k, w, h1, h2, h3, h4, h5⟩ := h
  rcases E.at' h1 with ⟨rfl, rfl⟩ | ⟨g1, g2, g3⟩ | ⟨rfl, rfl⟩
  · rcases E.promoted h4 with ⟨_, g, rfl⟩ | ⟨g, _⟩ | ⟨g, _⟩
    · have h2' : b.Live x := (Looks.of_stmts (stmts_addPromoted b i n sub)).live h2
      have h3' : (b.append rest).Named x name := E.namedFirst (by unfold Body.Named at h3 ⊢; rw [stmts_addPromoted] at h3; exact h3)
      obtain ⟨k', w', e, hp⟩ := E.promotedNamed h3'
      simp only [moved, reduceCtorEq, if_false]
      exact ⟨_, name, k', w', .here _, E.liveFirst h2', h3', h5 ▸ h5.symm ▸ hp, e⟩
    · exact absurd rfl g
    · cases g
  · rcases E.promoted h4 with ⟨rfl, _⟩ | ⟨_, _, g⟩ | ⟨g, _⟩
    · exact absurd rfl g1
    · simp only [moved, g2, if_false]
      exact ⟨c, name, k, w, g3, h2, h3, g, h5⟩
    · exact absurd g g2
  · rcases E.promoted h4 with ⟨g, _⟩ | ⟨_, g, _⟩ | ⟨_, g, rfl⟩
    · cases g
    · exact absurd rfl g
    · obtain ⟨k', w', e, hp⟩ := E.promotedNamed (E.namedSub h3)
      simp only [moved, if_true]
      exact ⟨_, name, k', w', .here _, E.liveSub h2, E.namedSub h3, h5 ▸ h5.symm ▸ hp, e⟩

theorem Extract.notOwn {path : List Name} {k : VarKind} {w : VarInfo} {p : Name} (h : PromotedAs (b.append rest).toModel path k w p) :
    (∀ x, p ≠ prependNamespace n x) ∧ ∀ x, fullName path w.name ≠ prependNamespace n x := by
  have A := apart_of_valid i E.flat E.fresh E.flat
  exact ⟨(A.notOwn h).1, (A.notOwn h).2.2⟩

theorem Extract.splitNamed {x : Nat} {name : Name} (h : (b.append rest).Named x name) : (∃ y, b.Named y name) ∨ ∃ y, sub.Named y name := by
  have key : ∀ m s, (b.append rest).Has m s → s.defines = some name → (∃ y, b.Named y name) ∨ ∃ y, sub.Named y name := by
    intro m s hs hd
    have conv : ∀ (c : Body K F) m t, c.Has m t → t.defines = some name → ∃ y, c.Named y name := by
      intro c m t ht hd
      cases t <;> simp only [Stmt.defines, Option.some.injEq, reduceCtorEq] at hd <;> subst hd
      · exact ⟨m, Or.inl ⟨_, Or.inl (input_has.2 ⟨_, ht⟩)⟩⟩
      · exact ⟨m, Or.inl ⟨_, Or.inr (declared_has.2 ⟨_, ht⟩)⟩⟩
      · exact ⟨m, Or.inr (output_has.2 (Or.inr ⟨_, _, ht⟩))⟩
      · exact ⟨_, Or.inr (output_has.2 (Or.inl ⟨_, ht⟩))⟩
    rcases E.from hs with hs | ⟨_, m0, t, h1, h2, _⟩
    · exact Or.inl (conv b m s hs hd)
    · refine Or.inr (conv sub m0 t h1 ?_)
      rw [h2] at hd
      cases t <;> exact hd
  rcases h with ⟨s, h | h⟩ | h
  · obtain ⟨v, h⟩ := input_has.1 h; exact key _ _ h rfl
  · obtain ⟨v, h⟩ := declared_has.1 h; exact key _ _ h rfl
  · rcases output_has.1 h with ⟨m, h⟩ | ⟨s, v, h⟩ <;> exact key _ _ h rfl

/-- names of the program without the submodel are names of the program with it -/
theorem Extract.promotedBack {path : List Name} {k : VarKind} {w : VarInfo} {p : Name} (h : PromotedAs (b.append rest).toModel path k w p) :
    (path = [] ∧ p = w.name ∧ ∃ path' k' w', PromotedAs (b.addPromoted i n sub).toModel path' k' w' p) ∨ PromotedAs (b.addPromoted i n sub).toModel path k w p := by
  unfold Body.toModel at h
  cases h with
  | here hv =>
    refine Or.inl ⟨rfl, rfl, ?_⟩
    obtain ⟨x, hx⟩ := vars_named hv
    rcases E.splitNamed hx with ⟨y, hy⟩ | ⟨y, hy⟩
    · obtain ⟨k', w', h1, h2⟩ := named_vars hy
      exact ⟨[], k', w', h2 ▸ .here (by rw [locals_addPromoted]; exact h1)⟩
    · obtain ⟨k', w', h1, h2⟩ := named_vars hy
      have hs : (⟨n, none, sub.toModel⟩ : Subgraph) ∈ (b.addPromoted i n sub).toSubs.toList := mem_toSubs.2 ⟨sub, by rw [subs_addPromoted]; simp, rfl⟩
      have hdf := dotFree_body E.split.methods E.split.names
      have hdot : '.' ∉ w'.name := by
        by_contra hc
        exact (promoted_good _ hdf (PromotedAs.stay hs (PromotedAs.here (subs := sub.toSubs) h1) (fun h => h hc))).2 hc
      exact ⟨[n], k', w', h2 ▸ .up hs (PromotedAs.here (subs := sub.toSubs) h1) hdot⟩
  | @up _ _ path _ _ p s hs hp hpr =>
    obtain ⟨s', h1, h2⟩ := mem_toSubs.1 hs
    rw [E.subs] at h1
    exact Or.inr (.up (mem_toSubs.2 ⟨s', by rw [subs_addPromoted]; exact List.mem_append_left _ h1, h2⟩) hp hpr)
  | @stay _ _ path _ _ p s hs hp hpr =>
    obtain ⟨s', h1, h2⟩ := mem_toSubs.1 hs
    rw [E.subs] at h1
    exact Or.inr (.stay (mem_toSubs.2 ⟨s', by rw [subs_addPromoted]; exact List.mem_append_left _ h1, h2⟩) hp hpr)

theorem Extract.denotesBack {x p : Name} (h : Denotes (b.append rest).toModel x p) : Denotes (b.addPromoted i n sub).toModel x p := by
  cases h with
  | promoted h =>
    rcases E.promotedBack h with ⟨_, _, path', k', w', h'⟩ | h'
    · exact .promoted h'
    · exact .promoted h'
  | full h =>
    rcases E.promotedBack h with ⟨rfl, rfl, path', k', w', h'⟩ | h'
    · exact .promoted h'
    · exact .full h'

theorem Extract.unique {x p q : Name} (h1 : Denotes (b.addPromoted i n sub).toModel x p) (h2 : Denotes (b.addPromoted i n sub).toModel x q) : p = q := by
  obtain ⟨r, hr⟩ := resolves_body E.split.methods E.split.names E.split.oneSource E.split.sizes E.split.promotes
  exact denotes_unique (dotFree_body E.split.methods E.split.names) hr h1 h2

/-- a name of the submodel, with the name of the submodel -/
theorem Extract.denotesSub {s p : Name} (h : Denotes (b.addPromoted i n sub).toModel (prependNamespace n s) p) : p = s ∧ ∃ y, sub.Named y s := by
  have hg := E.fresh.good
  have hdf := dotFree_body E.split.methods E.split.names
  generalize hx : prependNamespace n s = x at h
  cases h with
  | @promoted path k w _ h =>
    exfalso
    rcases E.promoted h with ⟨rfl, h1, rfl⟩ | ⟨_, _, h1⟩ | ⟨rfl, h1, rfl⟩
    · exact (promoted_good _ hdf h).2 (hx ▸ dot_mem_prepend hg.1)
    · exact (E.notOwn h1).1 s hx.symm
    · exact (promoted_good _ hdf h).2 (hx ▸ dot_mem_prepend hg.1)
  | @full path k w p h =>
    rcases E.promoted h with ⟨rfl, h1, rfl⟩ | ⟨_, _, h1⟩ | ⟨rfl, h1, rfl⟩
    · exact absurd (hx ▸ dot_mem_prepend hg.1 : '.' ∈ fullName [] w.name) (promoted_good _ hdf h).2
    · exact absurd hx.symm ((E.notOwn h1).2 s)
    · have e : s = w.name := prepend_inj_right (s := n) hx
      obtain ⟨y, hy⟩ := vars_named h1
      exact ⟨e.symm, y, e ▸ hy⟩

/-- variables that are the same stay the same -/
theorem Extract.same {u v : List Name × Nat} (h : Same (b.addPromoted i n sub) u v) : Coupled (b.append rest) (moved n μ u) (moved n μ v) := by
  cases h with
  | name p h1 h2 => exact .rel _ _ (.name p (E.hasName h1) (E.hasName h2))
  | connection path c s t p q hc hst hp hq h1 h2 =>
    have other : ∀ c', BAt (b.append rest) path c' → (s, t) ∈ c'.locals.connections → Denotes (b.append rest).toModel (fullName path s) p ∧ Denotes (b.append rest).toModel (fullName path t) q := by
      intro c' hc' hst'
      obtain ⟨p', q', g1, g2, _⟩ := E.flat.connections path c' s t hc' hst'
      rw [E.unique hp (E.denotesBack g1), E.unique hq (E.denotesBack g2)]
      exact ⟨g1, g2⟩
    rcases E.at' hc with ⟨rfl, rfl⟩ | ⟨g1, g2, g3⟩ | ⟨rfl, rfl⟩
    · have hst' := E.connects.2 (Or.inl (by rw [locals_addPromoted] at hst; exact hst))
      obtain ⟨g1, g2⟩ := other _ (.here _) hst'
      exact .rel _ _ (.connection [] _ s t p q (.here _) hst' g1 g2 (E.hasName h1) (E.hasName h2))
    · obtain ⟨k1, k2⟩ := other _ g3 hst
      exact .rel _ _ (.connection path c s t p q g3 hst k1 k2 (E.hasName h1) (E.hasName h2))
    · have hst' := E.connects.2 (Or.inr hst)
      obtain ⟨rfl, y, hy⟩ := E.denotesSub hp
      obtain ⟨rfl, z, hz⟩ := E.denotesSub hq
      obtain ⟨k1, w1, _, k2⟩ := E.promotedNamed (E.namedSub hy)
      obtain ⟨k3, w3, _, k4⟩ := E.promotedNamed (E.namedSub hz)
      exact .rel _ _ (.connection [] _ p q p q (.here _) hst' (.promoted k2) (.promoted k4) (E.hasName h1) (E.hasName h2))
  | @«alias» path x y c hc hl hl' ha =>
    rcases E.at' hc with ⟨rfl, rfl⟩ | ⟨g1, g2, g3⟩ | ⟨rfl, rfl⟩
    · have L := Looks.of_stmts (stmts_addPromoted b i n sub)
      rw [stmts_addPromoted] at ha
      simp only [moved, reduceCtorEq, if_false]
      exact .rel _ _ (.alias _ (.here _) (E.liveFirst (L.live hl)) (E.liveFirst (L.live hl')) (E.aliasFirst ha))
    · simp only [moved, g2, if_false]
      exact .rel _ _ (.alias c g3 hl hl' ha)
    · simp only [moved, if_true]
      exact .rel _ _ (.alias _ (.here _) (E.liveSub hl) (E.liveSub hl') (E.aliasSub ha))

omit E in
omit [Zero K] in
theorem sameComputation_refl (c : Body K F) {d : Body K F} {R : Nat → Nat → Prop} {m : Nat} {s : Stmt K F} (hs : s.Computes) (hR : ∀ x ∈ s.operands, R x x) (hd : ∀ x ∈ s.operands, c.shapes.getD x [] = d.shapes.getD x []) : SameComputation c d R s s := by
  cases s with
  | expr j => have := SameComputation.expr (b := c) (c := d) j (fun x => x) hR; rwa [onVars_id] at this
  | call f args outs => exact .call f outs (List.forall₂_same.2 hR)
  | index x key => exact .index key (hR x (by simp [Stmt.operands])) (hd x (by simp [Stmt.operands]))
  | output name shape val => exact .output name name shape val
  | _ => cases hs

/-- the program without the submodel does what the program with it does -/
theorem Extract.restructured : Restructured (b.addPromoted i n sub) (b.append rest) (moved n μ) where
  computations := by
    intro path c m s hc hs hcomp hl
    rcases E.at' hc with ⟨rfl, rfl⟩ | ⟨g1, g2, g3⟩ | ⟨rfl, rfl⟩
    · have hs' := E.hasSplit.1 hs
      have L := Looks.of_stmts (stmts_addPromoted b i n sub)
      refine ⟨[], _, m, s, .here _, E.hasFirst hs', sameComputation_refl _ (m := m) hcomp (fun x _ => .refl _) (fun x hx => ?_), fun j hj => ⟨E.liveFirst (L.live (hl j hj)), .refl _⟩⟩
      have h1 := E.operandLt hs' hx
      have h2 := has_bound (c := b) hs'
      rw [E.shapeFirst (by omega)]
      simp only [Body.shapes, stmts_addPromoted]
    · refine ⟨path, c, m, s, g3, hs, sameComputation_refl _ (m := m) hcomp (fun x _ => ?_) (fun x _ => rfl), fun j hj => ⟨hl j hj, ?_⟩⟩
      · simp only [moved, g2, if_false]; exact .refl _
      · simp only [moved, g2, if_false]; exact .refl _
    · obtain ⟨m', h1, h2⟩ := E.kept hs (by rintro a c d rfl; cases hcomp)
      refine ⟨[], _, m', _, .here _, h1, ?_, fun j hj => ?_⟩
      · have hR : ∀ x, Coupled (b.append rest) (moved n μ ([n], x)) ([], μ x) := fun x => by simp only [moved, if_true]; exact .refl _
        cases s with
        | expr j => exact .expr j μ fun x _ => hR x
        | call f args outs => exact .call f outs (by rw [List.forall₂_map_right_iff]; exact List.forall₂_same.2 fun x _ => hR x)
        | index x key =>
          have g1 := E.okSub.operand_lt hs (y := x) (by simp [Stmt.operands])
          have g2 := has_bound (c := c) hs
          exact .index key (hR x) (E.shape (by omega)).2.symm
        | output name shape val => exact .output name name shape val
        | _ => cases hcomp
      · rw [← h2 j hj]
        refine ⟨E.liveSub (hl j hj), ?_⟩
        simp only [moved, if_true]; exact .refl _
  parts := by
    intro path c y name shape val hc hy
    rcases E.at' hc with ⟨rfl, rfl⟩ | ⟨g1, g2, g3⟩ | ⟨rfl, rfl⟩
    · have hy' := E.hasSplit.1 hy
      have hA : ∀ key x, (b.addPromoted i n sub).Assigned y key x ↔ b.Assigned y key x := by
        intro key x; unfold Body.Assigned Body.Has; rw [stmts_addPromoted]
      refine ⟨[], _, y, name, .here _, E.hasFirst hy', .refl _, fun key x h => ⟨x, E.assignedFirst ((hA key x).1 h), .refl _⟩, fun key x h => ⟨x, (hA key x).2 (E.assignedFirst' hy' h)⟩⟩
    · have e : ∀ x, moved n μ (path, x) = (path, x) := fun x => by simp only [moved, g2, if_false]
      refine ⟨path, c, y, name, g3, hy, by rw [e]; exact .refl _, fun key x h => ⟨x, h, by rw [e]; exact .refl _⟩, fun key x h => ⟨x, h⟩⟩
    · have e : ∀ x, moved n μ ([n], x) = ([], μ x) := fun x => by simp only [moved, if_true]
      refine ⟨[], _, μ y, name, .here _, E.keptOne hy (by simp) rfl, by rw [e]; exact .refl _, fun key x h => ⟨μ x, E.assignedSub h, by rw [e]; exact .refl _⟩, fun key x h => E.assignedSub' hy h⟩
  joined := fun u v h => E.same h

end
end Csdl.Prog
