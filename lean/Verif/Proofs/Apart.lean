import Verif.Spec.Apart
import Verif.Proofs.Dead
import Verif.Proofs.Modular
/-
A submodel of which nothing is promoted (C103): names.
-/
namespace Csdl.Prog
open Csdl Csdl.Arith
variable {K F : Type}

theorem stmts_addApart (b : Body K F) (i : Bool) (n : Name) (sub : Body K F) : (b.addApart i n sub).stmts 0 = b.stmts 0 := by
  unfold Body.addApart
  rw [stmts_append]
  simp [Body.stmts]

theorem subs_addApart (b : Body K F) (i : Bool) (n : Name) (sub : Body K F) : (b.addApart i n sub).subs = b.subs ++ [(n, some [], sub)] := by
  unfold Body.addApart
  rw [subs_append]
  rfl

theorem locals_addApart (b : Body K F) (i : Bool) (n : Name) (sub : Body K F) : (b.addApart i n sub).locals = b.locals := by
  simp only [Body.locals, Body.shapes, stmts_addApart]

theorem allowed_undotted {n : Name} (h : Allowed n) : '.' ∉ n := by
  intro hd
  rcases h '.' hd with h | h
  · exact absurd h (by decide)
  · exact absurd h (by decide)

theorem NewSub.good {b : Body K F} {n : Name} (h : NewSub b n) : GoodName n := ⟨h.nonEmpty, allowed_undotted h.allowed⟩

/-- what is known of the main model -/
structure Apart [Zero K] (b : Body K F) (i : Bool) (n : Name) (sub : Body K F) : Prop where
  methods : ∀ path c, BAt b path c → path ≠ [] → MethodOk c
  root : MethodOk (b.addApart i n sub)
  dotFree : DotFree b.toModel
  names : GoodNames b
  oneSource : ∀ path b', BAt b path b' → ∀ p path1 v1 path2 v2, PromotedAs b'.toModel path1 .source v1 p → PromotedAs b'.toModel path2 .source v2 p → path1 = path2
  sizes : ∀ path b', BAt b path b' → ∀ p k1 path1 v1 k2 path2 v2, PromotedAs b'.toModel path1 k1 v1 p → PromotedAs b'.toModel path2 k2 v2 p → path1 ≠ path2 → v1.shape.size = v2.shape.size
  promotes : ∀ path b', BAt b path b' → ∀ n q sub, (n, some q, sub) ∈ b'.subs → ∀ x ∈ q, '.' ∉ x ∧ ∃ path' k v, PromotedAs sub.toModel path' k v x
  connections : ∀ path b' a c, BAt b path b' → (a, c) ∈ b'.locals.connections → ConnectionOk b (fullName path a) (fullName path c)
  oneConnection : (issuedPost Local.connections b.toModel).Pairwise fun i j => ∀ q, Denotes b.toModel (fullName i.1 i.2.2) q → ¬ Denotes b.toModel (fullName j.1 j.2.2) q
  noChain : NoChain b.toModel
  acyclic : ¬ CircularProgram b
  fresh : NewSub b n
  valid : ValidProgram sub

section
variable [Zero K] {b : Body K F} {i : Bool} {n : Name} {sub : Body K F} (A : Apart b i n sub)
include A

theorem Apart.subNames {m : Name} {p : Option (List Name)} {s : Body K F} (h : (m, p, s) ∈ b.subs) : GoodName m ∧ m ≠ n := by
  refine ⟨(A.dotFree [] _ _ (.here _)).2.1 ⟨m, p, s.toModel⟩ (mem_toSubs.2 ⟨s, h, rfl⟩), ?_⟩
  rintro rfl
  exact A.fresh.newSub (List.mem_map.2 ⟨_, h, rfl⟩)

theorem Apart.cases {path : List Name} {c : Body K F} (h : BAt (b.addApart i n sub) path c) : (path = [] ∧ c = b.addApart i n sub) ∨ (path ≠ [] ∧ BAt b path c ∧ ∀ q, path ≠ n :: q) ∨ ∃ q, path = n :: q ∧ BAt sub q c := by
  cases h with
  | here => exact Or.inl ⟨rfl, rfl⟩
  | down hs h =>
    rw [subs_addApart, List.mem_append, List.mem_singleton] at hs
    rcases hs with hs | hs
    · refine Or.inr (Or.inl ⟨by simp, .down hs h, fun q e => ?_⟩)
      exact (A.subNames hs).2 (List.cons.inj e).1
    · cases hs
      exact Or.inr (Or.inr ⟨_, rfl, h⟩)

theorem Apart.first {path : List Name} {c : Body K F} (h : BAt b path c) : ∃ c', BAt (b.addApart i n sub) path c' ∧ c.stmts 0 = c'.stmts 0 := by
  cases h with
  | here => exact ⟨_, .here _, (stmts_addApart b i n sub).symm⟩
  | down hs h => exact ⟨_, .down (by rw [subs_addApart]; exact List.mem_append_left _ hs) h, rfl⟩

omit A in
theorem apart_second {path : List Name} {c : Body K F} (h : BAt sub path c) : BAt (b.addApart i n sub) (n :: path) c :=
  .down (p := some []) (by rw [subs_addApart]; simp) h

omit A in
theorem apart_promoted {path : List Name} {k : VarKind} {w : VarInfo} {p : Name} (h : PromotedAs b.toModel path k w p) : PromotedAs (b.addApart i n sub).toModel path k w p := by
  unfold Body.toModel at h ⊢
  cases h with
  | here hv => exact .here (by rw [locals_addApart]; exact hv)
  | up hs hp hpr =>
    obtain ⟨s', h1, h2⟩ := mem_toSubs.1 hs
    exact .up (mem_toSubs.2 ⟨s', by rw [subs_addApart]; exact List.mem_append_left _ h1, h2⟩) hp hpr
  | stay hs hp hpr =>
    obtain ⟨s', h1, h2⟩ := mem_toSubs.1 hs
    exact .stay (mem_toSubs.2 ⟨s', by rw [subs_addApart]; exact List.mem_append_left _ h1, h2⟩) hp hpr

omit A in
theorem apart_promoted_sub {path : List Name} {k : VarKind} {w : VarInfo} {p : Name} (h : PromotedAs sub.toModel path k w p) : PromotedAs (b.addApart i n sub).toModel (n :: path) k w (prependNamespace n p) :=
  .stay (s := ⟨n, some [], sub.toModel⟩) (mem_toSubs.2 ⟨sub, by rw [subs_addApart]; simp, rfl⟩) h (by simp [IsPromoted])

omit A in
theorem apart_promoted' {path : List Name} {k : VarKind} {w : VarInfo} {p : Name} (h : PromotedAs (b.addApart i n sub).toModel path k w p) :
    PromotedAs b.toModel path k w p ∨ ∃ q p0, path = n :: q ∧ p = prependNamespace n p0 ∧ PromotedAs sub.toModel q k w p0 := by
  unfold Body.toModel at h
  cases h with
  | here hv => rw [locals_addApart] at hv; exact Or.inl (.here hv)
  | @up _ _ path _ _ p s hs hp hpr =>
    obtain ⟨s', h1, h2⟩ := mem_toSubs.1 hs
    rw [subs_addApart, List.mem_append, List.mem_singleton] at h1
    rcases h1 with h1 | h1
    · exact Or.inl (.up (mem_toSubs.2 ⟨s', h1, h2⟩) hp hpr)
    · rw [Prod.mk.injEq, Prod.mk.injEq] at h1
      rw [h1.2.1] at hpr
      simp [IsPromoted] at hpr
  | @stay _ _ path _ _ p s hs hp hpr =>
    obtain ⟨s', h1, h2⟩ := mem_toSubs.1 hs
    rw [subs_addApart, List.mem_append, List.mem_singleton] at h1
    rcases h1 with h1 | h1
    · exact Or.inl (.stay (mem_toSubs.2 ⟨s', h1, h2⟩) hp hpr)
    · rw [Prod.mk.injEq, Prod.mk.injEq] at h1
      obtain ⟨e1, _, rfl⟩ := h1
      refine Or.inr ⟨path, p, by rw [e1], by rw [e1], h2 ▸ hp⟩

theorem Apart.dotFreeSub : DotFree sub.toModel := dotFree_body A.valid.methods A.valid.names

/-- names of the main model and its other submodels do not begin with the name of the new one -/
theorem Apart.notOwn {path : List Name} {k : VarKind} {w : VarInfo} {p : Name} (h : PromotedAs b.toModel path k w p) : (∀ x, p ≠ prependNamespace n x) ∧ (∀ q, path ≠ n :: q) ∧ ∀ x, fullName path w.name ≠ prependNamespace n x := by
  have hg := A.fresh.good
  obtain ⟨g1, g2⟩ := promoted_good _ A.dotFree h
  have hp : ∀ q, path ≠ n :: q := by
    rintro q rfl
    unfold Body.toModel at h
    generalize he : n :: q = nq at h
    cases h with
    | here => cases he
    | up hs =>
      obtain ⟨s', h1, h2⟩ := mem_toSubs.1 hs
      exact (A.subNames h1).2 (List.cons.inj he).1.symm
    | stay hs =>
      obtain ⟨s', h1, h2⟩ := mem_toSubs.1 hs
      exact (A.subNames h1).2 (List.cons.inj he).1.symm
  refine ⟨?_, hp, ?_⟩
  · unfold Body.toModel at h
    intro x e
    cases h with
    | here hv => exact (A.dotFree.loc.1 _ _ hv) (e ▸ dot_mem_prepend hg.1)
    | @up _ _ path2 _ _ p s hs hp hpr =>
      obtain ⟨s', h1, h2⟩ := mem_toSubs.1 hs
      have hdot : '.' ∉ p := by
        cases hq : s.promotes with
        | none => rw [hq] at hpr; exact hpr
        | some l => rw [hq] at hpr; exact (A.promotes [] b (.here _) s.name l s' (hq ▸ h1) p hpr).1
      exact hdot (e ▸ dot_mem_prepend hg.1)
    | @stay _ _ path2 _ _ p s hs hp hpr =>
      obtain ⟨s', h1, h2⟩ := mem_toSubs.1 hs
      exact (A.subNames h1).2 (prepend_inj (A.subNames h1).1 hg e).1
  · intro x e
    cases path with
    | nil => exact g2 (show '.' ∈ fullName [] w.name from e ▸ dot_mem_prepend hg.1)
    | cons m path =>
      obtain ⟨rfl, _⟩ := prepend_inj (g1 m (by simp)) hg e
      exact hp path rfl

theorem Apart.notOwnDenotes {x p : Name} (h : Denotes b.toModel x p) : (∀ y, x ≠ prependNamespace n y) ∧ ∀ y, p ≠ prependNamespace n y := by
  cases h with
  | promoted h => exact ⟨(A.notOwn h).1, (A.notOwn h).1⟩
  | full h => exact ⟨(A.notOwn h).2.2, (A.notOwn h).1⟩

omit A in
theorem apart_denotes {x p : Name} (h : Denotes b.toModel x p) : Denotes (b.addApart i n sub).toModel x p := by
  cases h with
  | promoted h => exact .promoted (apart_promoted h)
  | full h => exact .full (apart_promoted h)

omit A in
theorem apart_denotes_sub {x p : Name} (h : Denotes sub.toModel x p) : Denotes (b.addApart i n sub).toModel (prependNamespace n x) (prependNamespace n p) := by
  cases h with
  | promoted h => exact .promoted (apart_promoted_sub h)
  | full h => exact Denotes.full (apart_promoted_sub (b := b) (i := i) (n := n) h)

omit A in
theorem apart_denotes' {x p : Name} (h : Denotes (b.addApart i n sub).toModel x p) : Denotes b.toModel x p ∨ ∃ x0 p0, x = prependNamespace n x0 ∧ p = prependNamespace n p0 ∧ Denotes sub.toModel x0 p0 := by
  cases h with
  | promoted h =>
    rcases apart_promoted' h with h' | ⟨q, p0, rfl, rfl, h'⟩
    · exact Or.inl (.promoted h')
    · exact Or.inr ⟨_, _, rfl, rfl, .promoted h'⟩
  | full h =>
    rcases apart_promoted' h with h' | ⟨q, p0, rfl, rfl, h'⟩
    · exact Or.inl (.full h')
    · exact Or.inr ⟨_, _, rfl, rfl, .full h'⟩

/-- the names in the new submodel -/
theorem Apart.denotes_sub {x p : Name} (h : Denotes (b.addApart i n sub).toModel (prependNamespace n x) p) : ∃ p0, p = prependNamespace n p0 ∧ Denotes sub.toModel x p0 := by
  rcases apart_denotes' h with h' | ⟨x0, p0, e, rfl, h'⟩
  · exact absurd rfl ((A.notOwnDenotes h').1 x)
  · rw [prepend_inj_right e]
    exact ⟨p0, rfl, h'⟩

/-- the other names -/
theorem Apart.denotes_first {x p q : Name} (h0 : Denotes b.toModel x q) (h : Denotes (b.addApart i n sub).toModel x p) : Denotes b.toModel x p := by
  rcases apart_denotes' h with h | ⟨x0, p0, rfl, rfl, h⟩
  · exact h
  · exact absurd rfl ((A.notOwnDenotes h0).1 x0)

theorem Apart.namesValid : NamesValid (b.addApart i n sub) where
  methods := by
    intro path c hc
    rcases A.cases hc with ⟨_, rfl⟩ | ⟨hp, h, _⟩ | ⟨q, rfl, h⟩
    · exact A.root
    · exact A.methods _ _ h hp
    · exact A.valid.methods _ _ h
  names := by
    constructor
    · intro path c hc
      rcases A.cases hc with ⟨_, rfl⟩ | ⟨hp, h, _⟩ | ⟨q, rfl, h⟩
      · rw [locals_addApart]; exact A.names.sources _ _ (.here _)
      · exact A.names.sources _ _ h
      · exact A.valid.names.sources _ _ h
    · intro path c hc
      rcases A.cases hc with ⟨_, rfl⟩ | ⟨hp, h, _⟩ | ⟨q, rfl, h⟩
      · rw [locals_addApart]; exact A.names.declared _ _ (.here _)
      · exact A.names.declared _ _ h
      · exact A.valid.names.declared _ _ h
    · intro path c hc
      rcases A.cases hc with ⟨_, rfl⟩ | ⟨hp, h, _⟩ | ⟨q, rfl, h⟩
      · rw [locals_addApart]; exact A.names.notAuto _ _ (.here _)
      · exact A.names.notAuto _ _ h
      · exact A.valid.names.notAuto _ _ h
    · intro path c hc
      rcases A.cases hc with ⟨_, rfl⟩ | ⟨hp, h, _⟩ | ⟨q, rfl, h⟩
      · rw [locals_addApart, subs_addApart]
        intro s hs
        rcases List.mem_append.1 hs with hs | hs
        · exact A.names.subs _ _ (.here _) s hs
        · rw [List.mem_singleton] at hs
          subst hs
          exact ⟨A.fresh.nonEmpty, A.fresh.notAuto, A.fresh.newVar⟩
      · exact A.names.subs _ _ h
      · exact A.valid.names.subs _ _ h
  oneSource := by
    intro path c hc
    rcases A.cases hc with ⟨_, rfl⟩ | ⟨hp, h, _⟩ | ⟨q, rfl, h⟩
    · intro p path1 v1 path2 v2 h1 h2
      rcases apart_promoted' h1 with g1 | ⟨q1, p1, rfl, rfl, g1⟩ <;> rcases apart_promoted' h2 with g2 | ⟨q2, p2, rfl, e, g2⟩
      · exact A.oneSource _ _ (.here _) _ _ _ _ _ g1 g2
      · exact absurd e ((A.notOwn g1).1 p2)
      · exact absurd rfl ((A.notOwn g2).1 p1)
      · rw [prepend_inj_right e] at g1
        rw [A.valid.oneSource _ _ (.here _) _ _ _ _ _ g1 g2]
    · exact A.oneSource _ _ h
    · exact A.valid.oneSource _ _ h
  sizes := by
    intro path c hc
    rcases A.cases hc with ⟨_, rfl⟩ | ⟨hp, h, _⟩ | ⟨q, rfl, h⟩
    · intro p k1 path1 v1 k2 path2 v2 h1 h2 hne
      rcases apart_promoted' h1 with g1 | ⟨q1, p1, rfl, rfl, g1⟩ <;> rcases apart_promoted' h2 with g2 | ⟨q2, p2, rfl, e, g2⟩
      · exact A.sizes _ _ (.here _) _ _ _ _ _ _ _ g1 g2 hne
      · exact absurd e ((A.notOwn g1).1 p2)
      · exact absurd rfl ((A.notOwn g2).1 p1)
      · rw [prepend_inj_right e] at g1
        exact A.valid.sizes _ _ (.here _) _ _ q1 v1 _ q2 v2 g1 g2 fun e => hne (by rw [e])
    · exact A.sizes _ _ h
    · exact A.valid.sizes _ _ h
  promotes := by
    intro path c hc
    rcases A.cases hc with ⟨_, rfl⟩ | ⟨hp, h, _⟩ | ⟨q, rfl, h⟩
    · intro m q s hs
      rw [subs_addApart] at hs
      rcases List.mem_append.1 hs with hs | hs
      · exact A.promotes _ _ (.here _) m q s hs
      · rw [List.mem_singleton] at hs
        cases hs
        intro x hx
        cases hx
    · exact A.promotes _ _ h
    · exact A.valid.promotes _ _ h

end
end Csdl.Prog
