import Verif.Proofs.Apart
import Verif.Proofs.Print4
/-
A submodel of which nothing is promoted (C103): variables, connections, solutions.
-/
namespace Csdl.Prog
open Csdl Csdl.Arith
variable {K F : Type}

/-- a variable of the new submodel, seen from the main model -/
def inside (n : Name) (e : List Name × Nat) : List Name × Nat := (n :: e.1, e.2)

/-- a variable that is not in the new submodel -/
def Outside (n : Name) (e : List Name × Nat) : Prop := ∀ q, e.1 ≠ n :: q

theorem inside_or (n : Name) (e : List Name × Nat) : Outside n e ∨ ∃ e0, e = inside n e0 := by
  by_cases h : Outside n e
  · exact Or.inl h
  · obtain ⟨path, x⟩ := e
    unfold Outside at h
    push_neg at h
    obtain ⟨q, rfl⟩ := h
    exact Or.inr ⟨(q, x), rfl⟩

theorem not_outside {n : Name} {e : List Name × Nat} (h : Outside n (inside n e)) : False := h e.1 rfl

theorem inside_inj {n : Name} {e f : List Name × Nat} (h : inside n e = inside n f) : e = f := by
  obtain ⟨h1, h2⟩ := Prod.mk.inj h
  exact Prod.ext (List.cons.inj h1).2 h2

theorem fullName_cons (n : Name) (path : List Name) (x : Name) : fullName (n :: path) x = prependNamespace n (fullName path x) := rfl

section
variable [Zero K] {b : Body K F} {i : Bool} {n : Name} {sub : Body K F} (A : Apart b i n sub)
include A

theorem Apart.split {path : List Name} {c : Body K F} (h : BAt (b.addApart i n sub) path c) :
    (∃ c', BAt b path c' ∧ c.stmts 0 = c'.stmts 0 ∧ ∀ q, path ≠ n :: q) ∨ ∃ q, path = n :: q ∧ BAt sub q c := by
  rcases A.cases h with ⟨rfl, rfl⟩ | ⟨_, h, hp⟩ | h
  · exact Or.inl ⟨b, .here _, stmts_addApart b i n sub, by simp⟩
  · exact Or.inl ⟨c, h, rfl, hp⟩
  · exact Or.inr h

theorem Apart.outside {path : List Name} {c : Body K F} (h : BAt b path c) : ∀ q, path ≠ n :: q := by
  rintro q rfl
  cases h with
  | down hs _ => exact (A.subNames hs).2 rfl

theorem Apart.hasName_first {path : List Name} {x : Nat} {p : Name} (h : HasName b path x p) : HasName (b.addApart i n sub) path x p := by
  obtain ⟨d, name, k, w, h1, h2, h3, h4, h5⟩ := h
  obtain ⟨d', g1, g2⟩ := A.first h1
  exact ⟨d', name, k, w, g1, (Looks.of_stmts g2).live h2, (Looks.of_stmts g2).named h3, apart_promoted h4, h5⟩

omit A in
theorem apart_hasName_second {path : List Name} {x : Nat} {p : Name} (h : HasName sub path x p) : HasName (b.addApart i n sub) (n :: path) x (prependNamespace n p) := by
  obtain ⟨d, name, k, w, h1, h2, h3, h4, h5⟩ := h
  exact ⟨d, name, k, w, apart_second h1, h2, h3, apart_promoted_sub h4, h5⟩

theorem Apart.hasName' {path : List Name} {x : Nat} {p : Name} (h : HasName (b.addApart i n sub) path x p) :
    (HasName b path x p ∧ Outside n (path, x) ∧ ∀ y, p ≠ prependNamespace n y) ∨ ∃ q p0, path = n :: q ∧ p = prependNamespace n p0 ∧ HasName sub q x p0 := by
  obtain ⟨d, name, k, w, h1, h2, h3, h4, h5⟩ := h
  rcases apart_promoted' h4 with h4' | ⟨q, p0, rfl, rfl, h4'⟩
  · obtain ⟨e1, e2, _⟩ := A.notOwn h4'
    rcases A.split h1 with ⟨d', g1, g2, _⟩ | ⟨q, rfl, _⟩
    · exact Or.inl ⟨⟨d', name, k, w, g1, (Looks.of_stmts g2).live h2, (Looks.of_stmts g2).named h3, h4', h5⟩, e2, e1⟩
    · exact absurd rfl (e2 q)
  · rcases A.split h1 with ⟨d', g1, g2, g3⟩ | ⟨q', e, g1⟩
    · exact absurd rfl (g3 q)
    · obtain rfl := (List.cons.inj e).2
      exact Or.inr ⟨q, p0, rfl, rfl, d, name, k, w, g1, h2, h3, h4', h5⟩

/-- the ends of a connection outside the new submodel -/
theorem Apart.ends_first {path : List Name} {d : Body K F} {s t p p' : Name} (h1 : BAt b path d) (h2 : (s, t) ∈ d.locals.connections) (h3 : Denotes (b.addApart i n sub).toModel (fullName path s) p)
    (h4 : Denotes (b.addApart i n sub).toModel (fullName path t) p') : Denotes b.toModel (fullName path s) p ∧ Denotes b.toModel (fullName path t) p' := by
  obtain ⟨P, Q, g1, g2, _⟩ := A.connections _ _ _ _ h1 h2
  exact ⟨A.denotes_first g1 h3, A.denotes_first g2 h4⟩

theorem Apart.same {e f : List Name × Nat} (h : Same (b.addApart i n sub) e f) : (Same b e f ∧ Outside n e ∧ Outside n f) ∨ ∃ e0 f0, e = inside n e0 ∧ f = inside n f0 ∧ Same sub e0 f0 := by
  cases h with
  | name p h1 h2 =>
    rcases A.hasName' h1 with ⟨g1, g2, g3⟩ | ⟨q, p0, rfl, rfl, g1⟩ <;> rcases A.hasName' h2 with ⟨k1, k2, k3⟩ | ⟨q', p0', rfl, e, k1⟩
    · exact Or.inl ⟨.name p g1 k1, g2, k2⟩
    · exact absurd e (g3 _)
    · exact absurd rfl (k3 _)
    · rw [prepend_inj_right e] at g1
      exact Or.inr ⟨_, _, rfl, rfl, .name _ g1 k1⟩
  | connection path d s t p p' h1 h2 h3 h4 h5 h6 =>
    rcases A.split h1 with ⟨d', g1, g2, _⟩ | ⟨q, rfl, g1⟩
    · have h2' := (Looks.of_stmts g2).locals ▸ h2
      obtain ⟨h3', h4'⟩ := A.ends_first g1 h2' h3 h4
      rcases A.hasName' h5 with ⟨j1, j2, j3⟩ | ⟨q, p0, rfl, rfl, j1⟩
      · rcases A.hasName' h6 with ⟨k1, k2, k3⟩ | ⟨q', p0', rfl, rfl, k1⟩
        · exact Or.inl ⟨.connection path d' s t p p' g1 h2' h3' h4' j1 k1, j2, k2⟩
        · exact absurd rfl ((A.notOwnDenotes h4').2 p0')
      · exact absurd rfl ((A.notOwnDenotes h3').2 p0)
    · rw [fullName_cons] at h3 h4
      obtain ⟨p0, rfl, h3'⟩ := A.denotes_sub h3
      obtain ⟨p0', rfl, h4'⟩ := A.denotes_sub h4
      rcases A.hasName' h5 with ⟨j1, j2, j3⟩ | ⟨q1, p1, rfl, e1, j1⟩
      · exact absurd rfl (j3 _)
      · rcases A.hasName' h6 with ⟨k1, k2, k3⟩ | ⟨q2, p2, rfl, e2, k1⟩
        · exact absurd rfl (k3 _)
        · rw [← prepend_inj_right e1] at j1
          rw [← prepend_inj_right e2] at k1
          exact Or.inr ⟨_, _, rfl, rfl, .connection q d s t p0 p0' g1 h2 h3' h4' j1 k1⟩
  | «alias» d h1 h2 h3 h4 =>
    rcases A.split h1 with ⟨d', g1, g2, g3⟩ | ⟨q, rfl, g1⟩
    · exact Or.inl ⟨.alias d' g1 ((Looks.of_stmts g2).live h2) ((Looks.of_stmts g2).live h3) (g2 ▸ h4), g3, g3⟩
    · exact Or.inr ⟨(q, _), (q, _), rfl, rfl, .alias d g1 h2 h3 h4⟩

theorem Apart.sameAll {e f : List Name × Nat} (h : Relation.EqvGen (Same (b.addApart i n sub)) e f) :
    (Relation.EqvGen (Same b) e f ∧ Outside n e ∧ Outside n f) ∨ ∃ e0 f0, e = inside n e0 ∧ f = inside n f0 ∧ Relation.EqvGen (Same sub) e0 f0 := by
  induction h with
  | rel _ _ h =>
    rcases A.same h with ⟨h1, h2⟩ | ⟨e0, f0, h1, h2, h3⟩
    · exact Or.inl ⟨.rel _ _ h1, h2⟩
    · exact Or.inr ⟨e0, f0, h1, h2, .rel _ _ h3⟩
  | refl e =>
    rcases inside_or n e with h | ⟨e0, rfl⟩
    · exact Or.inl ⟨.refl _, h, h⟩
    · exact Or.inr ⟨e0, e0, rfl, rfl, .refl _⟩
  | symm _ _ _ ih =>
    rcases ih with ⟨h1, h2, h3⟩ | ⟨e0, f0, h1, h2, h3⟩
    · exact Or.inl ⟨.symm _ _ h1, h3, h2⟩
    · exact Or.inr ⟨f0, e0, h2, h1, .symm _ _ h3⟩
  | trans _ _ _ _ _ ih1 ih2 =>
    rcases ih1 with ⟨h1, h2, h3⟩ | ⟨e0, f0, rfl, rfl, h3⟩ <;> rcases ih2 with ⟨k1, k2, k3⟩ | ⟨e1, f1, e, rfl, k3⟩
    · exact Or.inl ⟨.trans _ _ _ h1 k1, h2, k3⟩
    · rw [e] at h3
      exact (not_outside h3).elim
    · exact (not_outside k2).elim
    · rw [inside_inj e] at h3
      exact Or.inr ⟨e0, f1, rfl, rfl, .trans _ _ _ h3 k3⟩

theorem Apart.feeds {e f : List Name × Nat} (h : Feeds (b.addApart i n sub) e f) : (Feeds b e f ∧ Outside n e ∧ Outside n f) ∨ ∃ e0 f0, e = inside n e0 ∧ f = inside n f0 ∧ Feeds sub e0 f0 := by
  obtain ⟨path, x⟩ := e
  obtain ⟨path', y⟩ := f
  rcases h with ⟨d, m, s, h1, h2, h3, h4, h5, h6, h7, h8⟩ | ⟨d, name, shape, val, key, h1, h2, h3, h4⟩
  · dsimp only at h1 h2 h5 h6 h7 h8
    subst h1
    rcases A.split h2 with ⟨d', g1, g2, g3⟩ | ⟨q, rfl, g1⟩
    · exact Or.inl ⟨Or.inl ⟨d', m, s, rfl, g1, (Looks.of_stmts g2).has h3 h5 h6 h7, h4, h5, h6, (Looks.of_stmts g2).live h7, h8⟩, g3, g3⟩
    · exact Or.inr ⟨(q, x), (q, y), rfl, rfl, Or.inl ⟨d, m, s, rfl, g1, h3, h4, h5, h6, h7, h8⟩⟩
  · dsimp only at h1 h2 h3 h4
    subst h1
    rcases A.split h2 with ⟨d', g1, g2, g3⟩ | ⟨q, rfl, g1⟩
    · exact Or.inl ⟨Or.inr ⟨d', name, shape, val, key, rfl, g1, (Looks.of_stmts g2).output h3, (Looks.of_stmts g2).assigned h3 h4⟩, g3, g3⟩
    · exact Or.inr ⟨(q, x), (q, y), rfl, rfl, Or.inr ⟨d, name, shape, val, key, rfl, g1, h3, h4⟩⟩

theorem Apart.step {e f : List Name × Nat} (h : ∃ a, Relation.EqvGen (Same (b.addApart i n sub)) e a ∧ Feeds (b.addApart i n sub) a f) :
    ((∃ a, Relation.EqvGen (Same b) e a ∧ Feeds b a f) ∧ Outside n e ∧ Outside n f) ∨ ∃ e0 f0, e = inside n e0 ∧ f = inside n f0 ∧ ∃ a, Relation.EqvGen (Same sub) e0 a ∧ Feeds sub a f0 := by
  obtain ⟨a, h1, h2⟩ := h
  rcases A.sameAll h1 with ⟨h1, g2, g3⟩ | ⟨e0, f0, rfl, rfl, g3⟩ <;> rcases A.feeds h2 with ⟨k1, k2, k3⟩ | ⟨e1, f1, e, rfl, k3⟩
  · exact Or.inl ⟨⟨a, h1, k1⟩, g2, k3⟩
  · rw [e] at g3
    exact (not_outside g3).elim
  · exact (not_outside k2).elim
  · rw [inside_inj e] at g3
    exact Or.inr ⟨e0, f1, rfl, rfl, e1, g3, k3⟩

theorem Apart.notCircular : ¬ CircularProgram (b.addApart i n sub) := by
  rintro ⟨q, h⟩
  have key : ∀ e f, Relation.TransGen (fun a c => ∃ a', Relation.EqvGen (Same (b.addApart i n sub)) a a' ∧ Feeds (b.addApart i n sub) a' c) e f →
      (Relation.TransGen (fun a c => ∃ a', Relation.EqvGen (Same b) a a' ∧ Feeds b a' c) e f ∧ Outside n e ∧ Outside n f) ∨
      ∃ e0 f0, e = inside n e0 ∧ f = inside n f0 ∧ Relation.TransGen (fun a c => ∃ a', Relation.EqvGen (Same sub) a a' ∧ Feeds sub a' c) e0 f0 := by
    intro e f h
    induction h with
    | single h =>
      rcases A.step h with ⟨g1, g2⟩ | ⟨e0, f0, g1, g2, g3⟩
      · exact Or.inl ⟨.single g1, g2⟩
      · exact Or.inr ⟨e0, f0, g1, g2, .single g3⟩
    | tail _ h ih =>
      rcases ih with ⟨h1, h2, h3⟩ | ⟨e0, f0, rfl, rfl, h3⟩ <;> rcases A.step h with ⟨k1, k2, k3⟩ | ⟨e1, f1, e, rfl, k3⟩
      · exact Or.inl ⟨.tail h1 k1, h2, k3⟩
      · rw [e] at h3
        exact (not_outside h3).elim
      · exact (not_outside k2).elim
      · rw [inside_inj e] at h3
        exact Or.inr ⟨e0, f1, rfl, rfl, .tail h3 k3⟩
  rcases key q q h with ⟨h, _⟩ | ⟨e0, f0, h1, h2, h⟩
  · exact A.acyclic ⟨q, h⟩
  · rw [inside_inj (h1.symm.trans h2)] at h
    exact A.valid.acyclic ⟨f0, h⟩

/-! ### Connections -/

theorem Apart.connection_first {s t : Name} (h : ConnectionOk b s t) : ConnectionOk (b.addApart i n sub) s t := by
  obtain ⟨p, q, h1, h2, ⟨path, w, h3⟩, ⟨path', x, h4⟩, h5, h6⟩ := h
  have n1 := (A.notOwnDenotes h1).2
  have n2 := (A.notOwnDenotes h2).2
  refine ⟨p, q, apart_denotes h1, apart_denotes h2, ⟨path, w, apart_promoted h3⟩, ⟨path', x, A.hasName_first h4⟩, fun path c w hc hw hp => ?_, fun k path w k' path' w' g1 g2 => ?_⟩
  · rcases apart_promoted' hp with hp' | ⟨q0, p0, _, e, _⟩
    · rcases A.split hc with ⟨c', j1, j2, _⟩ | ⟨q1, rfl, _⟩
      · exact h5 path c' w j1 ((Looks.of_stmts j2).locals ▸ hw) hp'
      · exact (A.notOwn hp').2.1 _ rfl
    · exact n2 _ e
  · rcases apart_promoted' g1 with g1' | ⟨_, p0, _, e, _⟩
    · rcases apart_promoted' g2 with g2' | ⟨_, p0, _, e, _⟩
      · exact h6 _ _ _ _ _ _ g1' g2'
      · exact absurd e (n2 _)
    · exact absurd e (n1 _)

theorem Apart.connection_second {s t : Name} (h : ConnectionOk sub s t) : ConnectionOk (b.addApart i n sub) (prependNamespace n s) (prependNamespace n t) := by
  obtain ⟨p, q, h1, h2, ⟨path, w, h3⟩, ⟨path', x, h4⟩, h5, h6⟩ := h
  refine ⟨_, _, apart_denotes_sub h1, apart_denotes_sub h2, ⟨n :: path, w, apart_promoted_sub h3⟩, ⟨n :: path', x, apart_hasName_second h4⟩, fun path c w hc hw hp => ?_, fun k path w k' path' w' g1 g2 => ?_⟩
  · rcases apart_promoted' hp with hp' | ⟨q0, p0, rfl, e, hp'⟩
    · exact (A.notOwn hp').1 _ rfl
    · rcases A.split hc with ⟨c', j1, j2, j3⟩ | ⟨q1, e', j1⟩
      · exact j3 _ rfl
      · obtain rfl := (List.cons.inj e').2
        rw [← prepend_inj_right e] at hp'
        exact h5 q0 c w j1 hw hp'
  · rcases apart_promoted' g1 with g1' | ⟨_, p0, rfl, e, g1'⟩
    · exact absurd rfl ((A.notOwn g1').1 _)
    · rcases apart_promoted' g2 with g2' | ⟨_, p0', rfl, e', g2'⟩
      · exact absurd rfl ((A.notOwn g2').1 _)
      · rw [← prepend_inj_right e] at g1'
        rw [← prepend_inj_right e'] at g2'
        exact h6 _ _ _ _ _ _ g1' g2'

omit A [Zero K] in
theorem issuedSubs_append {α : Type} (sel : Local → List α) : ∀ (l l' : List (Name × Option (List Name) × Body K F)),
    issuedPostSubs sel ((l ++ l').foldr (fun s r => .cons s.1 s.2.1 s.2.2.toModel r) .nil) = issuedPostSubs sel (l.foldr (fun s r => .cons s.1 s.2.1 s.2.2.toModel r) .nil) ++ issuedPostSubs sel (l'.foldr (fun s r => .cons s.1 s.2.1 s.2.2.toModel r) .nil)
  | [], l' => by simp [issuedPostSubs]
  | x :: l, l' => by
    simp only [List.cons_append, List.foldr_cons, issuedPostSubs, issuedSubs_append sel l l', List.append_assoc]

omit A [Zero K] in
theorem apart_issued : issuedPost Local.connections (b.addApart i n sub).toModel =
    issuedPostSubs Local.connections b.toSubs ++ ((issuedPost Local.connections sub.toModel).map fun px => (n :: px.1, px.2)) ++ b.locals.connections.map fun x => ([], x) := by
  rw [Body.toModel, issuedPost, locals_addApart, toSubs_of_subs, subs_addApart, issuedSubs_append, ← toSubs_of_subs]
  simp [issuedPostSubs]

/-- a relation that holds between the connections of each part, and between connections of different parts -/
theorem Apart.pairwise {R R1 R2 : (List Name × Name × Name) → (List Name × Name × Name) → Prop} (h1 : (issuedPost Local.connections b.toModel).Pairwise R1) (h2 : (issuedPost Local.connections sub.toModel).Pairwise R2)
    (c1 : ∀ x ∈ issuedPost Local.connections b.toModel, ∀ y ∈ issuedPost Local.connections b.toModel, R1 x y → R x y)
    (c2 : ∀ x ∈ issuedPost Local.connections sub.toModel, ∀ y ∈ issuedPost Local.connections sub.toModel, R2 x y → R (n :: x.1, x.2) (n :: y.1, y.2))
    (c3 : ∀ x ∈ issuedPost Local.connections b.toModel, ∀ y ∈ issuedPost Local.connections sub.toModel, R x (n :: y.1, y.2) ∧ R (n :: y.1, y.2) x) :
    (issuedPost Local.connections (b.addApart i n sub).toModel).Pairwise R := by
  have h1' : (issuedPost Local.connections b.toModel).Pairwise R := h1.imp_of_mem fun hx hy h => c1 _ hx _ hy h
  have h2' : ((issuedPost Local.connections sub.toModel).map fun px : List Name × Name × Name => (n :: px.1, px.2)).Pairwise R :=
    List.pairwise_map.2 (h2.imp_of_mem fun hx hy h => c2 _ hx _ hy h)
  have e : issuedPost Local.connections b.toModel = issuedPostSubs Local.connections b.toSubs ++ b.locals.connections.map fun x => ([], x) := by rw [Body.toModel, issuedPost]
  rw [e] at h1' c3
  rw [apart_issued]
  obtain ⟨k1, k2, k3⟩ := List.pairwise_append.1 h1'
  refine List.pairwise_append.2 ⟨List.pairwise_append.2 ⟨k1, h2', ?_⟩, k2, ?_⟩
  · intro x hx y hy
    obtain ⟨y0, hy0, rfl⟩ := List.mem_map.1 hy
    exact (c3 x (List.mem_append_left _ hx) y0 hy0).1
  · intro x hx y hy
    rcases List.mem_append.1 hx with hx | hx
    · exact k3 x hx y hy
    · obtain ⟨x0, hx0, rfl⟩ := List.mem_map.1 hx
      exact (c3 y (List.mem_append_right _ hy) x0 hx0).2

/-- the ends of a connection outside the new submodel denote something outside it -/
theorem Apart.issued_first {x : List Name × Name × Name} (h : x ∈ issuedPost Local.connections b.toModel) {p : Name} :
    (Denotes (b.addApart i n sub).toModel (fullName x.1 x.2.1) p ↔ Denotes b.toModel (fullName x.1 x.2.1) p) ∧ (Denotes (b.addApart i n sub).toModel (fullName x.1 x.2.2) p ↔ Denotes b.toModel (fullName x.1 x.2.2) p) := by
  obtain ⟨c, h1, h2⟩ := issued_at h
  obtain ⟨P, Q, g1, g2, _⟩ := A.connections _ _ _ _ h1 h2
  exact ⟨⟨A.denotes_first g1, apart_denotes⟩, ⟨A.denotes_first g2, apart_denotes⟩⟩

theorem Apart.validProgram : ValidProgram (b.addApart i n sub) := by
  have hn := A.namesValid
  refine ⟨hn.methods, hn.names, hn.oneSource, hn.sizes, hn.promotes, ?_, ?_, ⟨?_, ?_⟩, A.notCircular⟩
  · intro path c s t hc hst
    rcases A.split hc with ⟨c', j1, j2, _⟩ | ⟨q, rfl, j1⟩
    · exact A.connection_first (A.connections _ _ _ _ j1 ((Looks.of_stmts j2).locals ▸ hst))
    · exact A.connection_second (A.valid.connections _ _ _ _ j1 hst)
  · refine A.pairwise A.oneConnection A.valid.oneConnection (fun x hx y hy h q h1 h2 => ?_) (fun x hx y hy h q h1 h2 => ?_) fun x hx y hy => ⟨fun q h1 h2 => ?_, fun q h1 h2 => ?_⟩
    · exact h q ((A.issued_first hx).2.1 h1) ((A.issued_first hy).2.1 h2)
    · obtain ⟨p0, rfl, g1⟩ := A.denotes_sub h1
      obtain ⟨p1, e, g2⟩ := A.denotes_sub h2
      rw [← prepend_inj_right e] at g2
      exact h _ g1 g2
    · obtain ⟨p0, rfl, g1⟩ := A.denotes_sub h2
      exact (A.notOwnDenotes ((A.issued_first hx).2.1 h1)).2 _ rfl
    · obtain ⟨p0, rfl, g1⟩ := A.denotes_sub h1
      exact (A.notOwnDenotes ((A.issued_first hx).2.1 h2)).2 _ rfl
  · intro x hx p h1 h2
    rw [apart_issued] at hx
    have hx' : x ∈ issuedPost Local.connections b.toModel ∨ ∃ y ∈ issuedPost Local.connections sub.toModel, x = (n :: y.1, y.2) := by
      rw [Body.toModel, issuedPost]
      simp only [List.mem_append] at hx ⊢
      rcases hx with (hx | hx) | hx
      · exact Or.inl (Or.inl hx)
      · obtain ⟨y, hy, rfl⟩ := List.mem_map.1 hx
        exact Or.inr ⟨y, hy, rfl⟩
      · exact Or.inl (Or.inr hx)
    rcases hx' with hx' | ⟨y, hy, rfl⟩
    · exact A.noChain.1 x hx' p ((A.issued_first hx').1.1 h1) ((A.issued_first hx').2.1 h2)
    · obtain ⟨p0, rfl, g1⟩ := A.denotes_sub h1
      obtain ⟨p1, e, g2⟩ := A.denotes_sub h2
      rw [← prepend_inj_right e] at g2
      exact A.valid.noChain.1 y hy _ g1 g2
  · refine A.pairwise A.noChain.2 A.valid.noChain.2 (fun x hx y hy h q h1 h2 => ?_) (fun x hx y hy h q h1 h2 => ?_) fun x hx y hy => ⟨fun q h1 h2 => ?_, fun q h1 h2 => ?_⟩
    · exact h q ((A.issued_first hy).1.1 h1) ((A.issued_first hx).2.1 h2)
    · obtain ⟨p0, rfl, g1⟩ := A.denotes_sub h1
      obtain ⟨p1, e, g2⟩ := A.denotes_sub h2
      rw [← prepend_inj_right e] at g2
      exact h _ g1 g2
    · obtain ⟨p0, rfl, g1⟩ := A.denotes_sub h1
      exact (A.notOwnDenotes ((A.issued_first hx).2.1 h2)).2 _ rfl
    · obtain ⟨p0, rfl, g1⟩ := A.denotes_sub h2
      exact (A.notOwnDenotes ((A.issued_first hx).1.1 h1)).2 _ rfl

/-! ### Solutions -/

theorem Apart.given_first {path : List Name} {x : Nat} (h : GivenVar b path x) : GivenVar (b.addApart i n sub) path x := by
  obtain ⟨⟨d, h1, h2⟩, h3⟩ := h
  obtain ⟨d', g1, g2⟩ := A.first h1
  refine ⟨⟨d', g1, (Looks.of_stmts g2).live h2⟩, fun path' e m s y k1 k2 k3 k4 k5 k6 k7 => ?_⟩
  rcases A.sameAll k7 with ⟨j1, j2, j3⟩ | ⟨e0, f0, j1, _⟩
  · rcases A.split k1 with ⟨e', l1, l2, _⟩ | ⟨q, rfl, _⟩
    · exact h3 path' e' m s y l1 ((Looks.of_stmts l2).has k2 k4 k5 k6) k3 k4 k5 ((Looks.of_stmts l2).live k6) j1
    · exact j3 q rfl
  · exact A.outside h1 e0.1 (Prod.mk.inj j1).1

theorem Apart.given_second {path : List Name} {x : Nat} (h : GivenVar sub path x) : GivenVar (b.addApart i n sub) (n :: path) x := by
  obtain ⟨⟨d, h1, h2⟩, h3⟩ := h
  refine ⟨⟨d, apart_second h1, h2⟩, fun path' e m s y k1 k2 k3 k4 k5 k6 k7 => ?_⟩
  rcases A.sameAll k7 with ⟨j1, j2, j3⟩ | ⟨e0, f0, j1, j2, j3⟩
  · exact j2 path rfl
  · obtain ⟨rfl, rfl⟩ := Prod.mk.inj j2
    have := inside_inj (n := n) (e := (path, x)) (f := e0) j1
    subst this
    rcases A.split k1 with ⟨e', l1, l2, l3⟩ | ⟨q, hq, l1⟩
    · exact l3 _ rfl
    · obtain rfl := (List.cons.inj hq).2
      exact h3 _ e m s _ l1 k2 k3 k4 k5 k6 j3

theorem Apart.same_first {e f : List Name × Nat} (h : Relation.EqvGen (Same b) e f) : Relation.EqvGen (Same (b.addApart i n sub)) e f := by
  induction h with
  | rel _ _ h =>
    refine .rel _ _ ?_
    cases h with
    | name p h1 h2 => exact .name p (A.hasName_first h1) (A.hasName_first h2)
    | connection path d s t p p' h1 h2 h3 h4 h5 h6 =>
      obtain ⟨d', g1, g2⟩ := A.first h1
      exact .connection path d' s t p p' g1 ((Looks.of_stmts g2).locals ▸ h2) (apart_denotes h3) (apart_denotes h4) (A.hasName_first h5) (A.hasName_first h6)
    | «alias» d h1 h2 h3 h4 =>
      obtain ⟨d', g1, g2⟩ := A.first h1
      exact .alias d' g1 ((Looks.of_stmts g2).live h2) ((Looks.of_stmts g2).live h3) (g2 ▸ h4)
  | refl _ => exact .refl _
  | symm _ _ _ ih => exact .symm _ _ ih
  | trans _ _ _ _ _ ih1 ih2 => exact .trans _ _ _ ih1 ih2

omit A in
theorem apart_same_second {e f : List Name × Nat} (h : Relation.EqvGen (Same sub) e f) : Relation.EqvGen (Same (b.addApart i n sub)) (inside n e) (inside n f) := by
  induction h with
  | rel _ _ h =>
    refine .rel _ _ ?_
    cases h with
    | name p h1 h2 => exact .name _ (apart_hasName_second h1) (apart_hasName_second h2)
    | connection path d s t p p' h1 h2 h3 h4 h5 h6 =>
      exact .connection (n :: path) d s t _ _ (apart_second h1) h2 (apart_denotes_sub h3) (apart_denotes_sub h4) (apart_hasName_second h5) (apart_hasName_second h6)
    | «alias» d h1 h2 h3 h4 => exact .alias d (apart_second h1) h2 h3 h4
  | refl _ => exact .refl _
  | symm _ _ _ ih => exact .symm _ _ ih
  | trans _ _ _ _ _ ih1 ih2 => exact .trans _ _ _ ih1 ih2

/-- what must be given: what each part needs -/
theorem Apart.given_iff {path : List Name} {x : Nat} : GivenVar (b.addApart i n sub) path x ↔ GivenVar b path x ∨ ∃ q, path = n :: q ∧ GivenVar sub q x := by
  refine ⟨fun ⟨⟨d, h1, h2⟩, h3⟩ => ?_, fun h => ?_⟩
  · rcases A.split h1 with ⟨d', g1, g2, _⟩ | ⟨q, rfl, g1⟩
    · refine Or.inl ⟨⟨d', g1, (Looks.of_stmts g2).live h2⟩, fun path' e m s y k1 k2 k3 k4 k5 k6 k7 => ?_⟩
      obtain ⟨e', l1, l2⟩ := A.first k1
      exact h3 path' e' m s y l1 ((Looks.of_stmts l2).has k2 k4 k5 k6) k3 k4 k5 ((Looks.of_stmts l2).live k6) (A.same_first k7)
    · exact Or.inr ⟨q, rfl, ⟨d, g1, h2⟩, fun path' e m s y k1 k2 k3 k4 k5 k6 k7 => h3 _ e m s y (apart_second k1) k2 k3 k4 k5 k6 (apart_same_second k7)⟩
  · rcases h with h | ⟨q, rfl, h⟩
    · exact A.given_first h
    · exact A.given_second h

end

theorem Apart.solution_first [Field K] {b : Body K F} {i : Bool} {n : Name} {sub : Body K F} (A : Apart b i n sub) {P : Power K} {den : F → List (Val K) → Nat → Val K} {ρ : List Name → Nat → Val K}
    (h : Prog.Solution P den (b.addApart i n sub) ρ) : Prog.Solution P den b ρ where
  expr := fun path d hd m j hi hl => by
    obtain ⟨d', g1, g2⟩ := A.first hd
    exact h.expr _ _ g1 m j ((Looks.of_stmts g2).has hi le_rfl (by simp [Stmt.count]) hl) ((Looks.of_stmts g2).live hl)
  call := fun path d hd m f args outs hi j hj hl => by
    obtain ⟨d', g1, g2⟩ := A.first hd
    exact h.call _ _ g1 m f args outs ((Looks.of_stmts g2).has hi (Nat.le_add_right m j) (by simpa [Stmt.count] using hj) hl) j hj ((Looks.of_stmts g2).live hl)
  index := fun path d hd m x key hi hl => by
    obtain ⟨d', g1, g2⟩ := A.first hd
    rw [← (Looks.of_stmts g2).shape hi hl]
    exact h.index _ _ g1 m x key ((Looks.of_stmts g2).has hi le_rfl (by simp [Stmt.count]) hl) ((Looks.of_stmts g2).live hl)
  output := fun path d hd y name shape val hi => by
    obtain ⟨d', g1, g2⟩ := A.first hd
    have := h.output _ _ g1 y name shape val ((Looks.of_stmts g2).output hi)
    exact ⟨fun key x idx shp hx => this.1 key x idx shp ((Looks.of_stmts g2).assigned hi hx),
      fun j hj => this.2 j fun key x idx shp hx => hj key x idx shp ((Looks.of_stmts g2.symm).assigned ((Looks.of_stmts g2).output hi) hx)⟩
  shared := fun path x path' y p h1 h2 => h.shared _ _ _ _ _ (A.hasName_first h1) (A.hasName_first h2)
  connected := fun path d hd s t p q hm h1 h2 path1 x path2 y h3 h4 => by
    obtain ⟨d', g1, g2⟩ := A.first hd
    exact h.connected _ _ g1 s t p q ((Looks.of_stmts g2).locals ▸ hm) (apart_denotes h1) (apart_denotes h2) _ _ _ _ (A.hasName_first h3) (A.hasName_first h4)

end Csdl.Prog
