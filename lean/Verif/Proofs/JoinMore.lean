import Verif.Spec.JoinMore
import Verif.Proofs.Join2
/-
Adding a connection.
-/
namespace Csdl.Prog
open Csdl Csdl.Arith
variable {K F : Type}

/-- a variable whose value must be given when more is joined must be given when less is -/
theorem SameMethods.given_of_more {b b' : Body K F} (h : SameMethods b b') (hj : JoinsAtLeast b b') {path : List Name} {x : Nat} (hg : GivenVar b' path x) : GivenVar b path x := by
  obtain ⟨⟨c, h1, h2⟩, h3⟩ := hg
  obtain ⟨c', h4, h5⟩ := h.2 path c h1
  refine ⟨⟨c', h4, h5.symm.live h2⟩, fun path' d n s y hd hn hcm h6 h7 hl he => ?_⟩
  obtain ⟨d', h8, h9⟩ := h.1 path' d hd
  exact h3 path' d' n s y h8 (h9.has hcm.plain hn) hcm h6 h7 (h9.live hl) (hj _ _ he)

variable {s t : Name}

theorem more_sameStatements {b : Body K F} : SameStatements b (b.thenConnect s t) := by
  unfold SameStatements
  obtain ⟨j, h⟩ := thenConnect_stmts s t b 0
  rw [h, List.filter_append]
  simp [Stmt.notConnect]

theorem more_toSubs (s t : Name) : ∀ b : Body K F, (b.thenConnect s t).toSubs = b.toSubs
  | .done => rfl
  | .stmt _ r => more_toSubs s t r
  | .add _ n p sub r => by simp [Body.thenConnect, Body.toSubs, more_toSubs s t r]

theorem promoted_of_vars {l l' : Local} {subs : Subs} (h : ∀ k, l.vars k = l'.vars k) {path : List Name} {k : VarKind} {w : VarInfo} {p : Name} (hp : PromotedAs (.mk l subs) path k w p) : PromotedAs (.mk l' subs) path k w p := by
  cases hp with
  | here h1 => exact .here (h _ ▸ h1)
  | up h1 h2 h3 => exact .up h1 h2 h3
  | stay h1 h2 h3 => exact .stay h1 h2 h3

theorem more_connections (s t : Name) (b : Body K F) : (b.thenConnect s t).locals.connections = b.locals.connections ∨ (b.thenConnect s t).locals.connections = b.locals.connections ++ [(s, t)] := by
  obtain ⟨j, h⟩ := thenConnect_stmts s t b 0
  simp only [Body.locals, h, List.foldl_append, List.foldl_cons, List.foldl_nil, stepConnections]
  split
  · exact Or.inl rfl
  · exact Or.inr rfl

theorem more_connection {b : Body K F} : (s, t) ∈ (b.thenConnect s t).locals.connections := by
  obtain ⟨j, h⟩ := thenConnect_stmts s t b 0
  simp only [Body.locals, h, List.foldl_append, List.foldl_cons, List.foldl_nil, stepConnections]
  split
  · assumption
  · simp

theorem SameStatements.hasName {b b' : Body K F} (h : SameMethods b b') (hp : ∀ {path k w p}, PromotedAs b.toModel path k w p → PromotedAs b'.toModel path k w p) {path : List Name} {x : Nat} {p : Name} (hn : HasName b path x p) :
    HasName b' path x p := by
  obtain ⟨c, nm, k, w, h1, h2, h3, h4, h5⟩ := hn
  obtain ⟨c', g1, g2⟩ := h.1 path c h1
  exact ⟨c', nm, k, w, g1, g2.live h2, g2.named.1 h3, hp h4, h5⟩


/-- what the models of the two programs at `path` have in common -/
structure MoreStep (s t : Name) (q path : List Name) (c c' : Body K F) : Prop where
  statements : SameStatements c c'
  ordered : ∃ l, c'.stmts 0 = c.stmts 0 ++ l
  names : c'.subs.map (·.1) = c.subs.map (·.1)
  connections : ∀ x ∈ c.locals.connections, x ∈ c'.locals.connections
  connections' : ∀ x ∈ c'.locals.connections, x ∈ c.locals.connections ∨ (path = q ∧ x = (s, t))
  related : c = c' ∨ ∃ r, q = path ++ r ∧ ConnectedAt s t r c c'

theorem MoreStep.same (q path : List Name) (c : Body K F) : MoreStep s t q path c c := ⟨rfl, ⟨[], by simp⟩, rfl, fun _ h => h, fun _ h => Or.inl h, Or.inl rfl⟩

theorem ConnectedAt.stmts {n : Name} {path : List Name} {b b' : Body K F} (h : ConnectedAt s t (n :: path) b b') : ∀ k, b'.stmts k = b.stmts k := by
  generalize e : n :: path = q at h
  induction h with
  | here => cases e
  | sub => intro k; rfl
  | stmt u _ ih => intro k; simp [Body.stmts, ih e]
  | add i m p sub _ ih => intro k; simp [Body.stmts, ih e]

theorem ConnectedAt.locals {n : Name} {path : List Name} {b b' : Body K F} (h : ConnectedAt s t (n :: path) b b') : b'.locals = b.locals := by
  have e : b'.shapes = b.shapes := by simp [Body.shapes, h.stmts]
  simp [Body.locals, h.stmts, e]

theorem ConnectedAt.names {q : List Name} {b b' : Body K F} (h : ConnectedAt s t q b b') : b'.subs.map (·.1) = b.subs.map (·.1) := by
  induction h with
  | here b => rw [thenConnect_subs]
  | sub => rfl
  | stmt u _ ih => exact ih
  | add i m p sub _ ih => simp [Body.subs, ih]

theorem ConnectedAt.step {q path : List Name} {b b' : Body K F} (h : ConnectedAt s t q b b') : MoreStep s t (path ++ q) path b b' := by
  have hn := h.names
  have hh := h
  cases q with
  | nil =>
    cases hh with
    | here =>
      obtain ⟨j, e⟩ := thenConnect_stmts s t b 0
      refine ⟨more_sameStatements, ⟨_, e⟩, hn, fun x hx => ?_, fun x hx => ?_, Or.inr ⟨[], rfl, h⟩⟩
      · rcases more_connections s t b with g | g <;> rw [g] <;> simp [hx]
      · rcases more_connections s t b with g | g <;> rw [g] at hx
        · exact Or.inl hx
        · exact (List.mem_append.1 hx).imp id fun h => ⟨(List.append_nil _).symm, List.mem_singleton.1 h⟩
  | cons n r =>
    have e := h.locals
    exact ⟨by simp [SameStatements, h.stmts], ⟨[], by simp [h.stmts]⟩, hn, fun x hx => e ▸ hx, fun x hx => Or.inl (e ▸ hx), Or.inr ⟨_, rfl, h⟩⟩

/-- the submodels of the two -/
theorem ConnectedAt.subs {q : List Name} {b b' : Body K F} (h : ConnectedAt s t q b b') :
    (∀ n p sub, (n, p, sub) ∈ b.subs → ∃ sub', (n, p, sub') ∈ b'.subs ∧ (sub = sub' ∨ ∃ r, q = n :: r ∧ ConnectedAt s t r sub sub')) ∧
    ∀ n p sub', (n, p, sub') ∈ b'.subs → ∃ sub, (n, p, sub) ∈ b.subs ∧ (sub = sub' ∨ ∃ r, q = n :: r ∧ ConnectedAt s t r sub sub') := by
  induction h with
  | here b => rw [thenConnect_subs]; exact ⟨fun n p sub h => ⟨sub, h, Or.inl rfl⟩, fun n p sub h => ⟨sub, h, Or.inl rfl⟩⟩
  | @sub i n p path sub sub' r h =>
    refine ⟨fun m p1 s1 h1 => ?_, fun m p1 s1 h1 => ?_⟩ <;> simp only [Body.subs, List.mem_cons, Prod.mk.injEq] at h1 ⊢ <;> rcases h1 with ⟨rfl, rfl, rfl⟩ | h1
    · exact ⟨sub', Or.inl ⟨rfl, rfl, rfl⟩, Or.inr ⟨path, rfl, h⟩⟩
    · exact ⟨s1, Or.inr h1, Or.inl rfl⟩
    · exact ⟨sub, Or.inl ⟨rfl, rfl, rfl⟩, Or.inr ⟨path, rfl, h⟩⟩
    · exact ⟨s1, Or.inr h1, Or.inl rfl⟩
  | stmt u _ ih => exact ih
  | add i m p sub _ ih =>
    refine ⟨fun m p1 s1 h1 => ?_, fun m p1 s1 h1 => ?_⟩ <;> simp only [Body.subs, List.mem_cons, Prod.mk.injEq] at h1 ⊢ <;> rcases h1 with ⟨rfl, rfl, rfl⟩ | h1
    · exact ⟨_, Or.inl ⟨rfl, rfl, rfl⟩, Or.inl rfl⟩
    · obtain ⟨s2, h2, h3⟩ := ih.1 _ _ _ h1; exact ⟨s2, Or.inr h2, h3⟩
    · exact ⟨_, Or.inl ⟨rfl, rfl, rfl⟩, Or.inl rfl⟩
    · obtain ⟨s2, h2, h3⟩ := ih.2 _ _ _ h1; exact ⟨s2, Or.inr h2, h3⟩

theorem MoreStep.under {n : Name} {q path : List Name} {c c' : Body K F} (h : MoreStep s t q path c c') : MoreStep s t (n :: q) (n :: path) c c' :=
  ⟨h.statements, h.ordered, h.names, h.connections, fun x hx => (h.connections' x hx).imp id fun ⟨h1, h2⟩ => ⟨congrArg _ h1, h2⟩, h.related.imp id fun ⟨r, h1, h2⟩ => ⟨r, congrArg _ h1, h2⟩⟩

theorem ConnectedAt.at {path : List Name} {c : Body K F} : ∀ {q : List Name} {b b' : Body K F}, ConnectedAt s t q b b' → BAt b path c → ∃ c', BAt b' path c' ∧ MoreStep s t q path c c' := by
  induction path with
  | nil => intro q b b' h hb; cases hb; exact ⟨b', .here _, h.step (path := [])⟩
  | cons n path ih =>
    intro q b b' h hb
    cases hb with
    | down h1 h2 =>
      obtain ⟨sub', g1, g2⟩ := h.subs.1 _ _ _ h1
      rcases g2 with rfl | ⟨r, rfl, g2⟩
      · exact ⟨c, .down g1 h2, .same _ _ _⟩
      · obtain ⟨c', h3, h4⟩ := ih g2 h2
        exact ⟨c', .down g1 h3, h4.under⟩

theorem ConnectedAt.at' {path : List Name} {c' : Body K F} : ∀ {q : List Name} {b b' : Body K F}, ConnectedAt s t q b b' → BAt b' path c' → ∃ c, BAt b path c ∧ MoreStep s t q path c c' := by
  induction path with
  | nil => intro q b b' h hb; cases hb; exact ⟨b, .here _, h.step (path := [])⟩
  | cons n path ih =>
    intro q b b' h hb
    cases hb with
    | down h1 h2 =>
      obtain ⟨sub, g1, g2⟩ := h.subs.2 _ _ _ h1
      rcases g2 with rfl | ⟨r, rfl, g2⟩
      · exact ⟨c', .down g1 h2, .same _ _ _⟩
      · obtain ⟨c, h3, h4⟩ := ih g2 h2
        exact ⟨c, .down g1 h3, h4.under⟩

/-- the connection is there -/
theorem ConnectedAt.added {q : List Name} {b b' : Body K F} (h : ConnectedAt s t q b b') : ∃ c', BAt b' q c' ∧ (s, t) ∈ c'.locals.connections := by
  induction h with
  | here b => exact ⟨_, .here _, more_connection⟩
  | sub i n p r _ ih =>
    obtain ⟨c', h1, h2⟩ := ih
    exact ⟨c', .down (List.mem_cons_self ..) h1, h2⟩
  | stmt u _ ih =>
    obtain ⟨c', h1, h2⟩ := ih
    cases h1 with
    | down h3 h4 => exact ⟨c', .down h3 h4, h2⟩
  | add i m p sub _ ih =>
    obtain ⟨c', h1, h2⟩ := ih
    cases h1 with
    | down h3 h4 => exact ⟨c', .down (List.mem_cons_of_mem _ h3) h4, h2⟩

theorem ConnectedAt.methods {q : List Name} {b b' : Body K F} (h : ConnectedAt s t q b b') : SameMethods b b' :=
  ⟨fun _ _ hc => (h.at hc).imp fun _ g => ⟨g.1, g.2.statements⟩, fun _ _ hc => (h.at' hc).imp fun _ g => ⟨g.1, g.2.statements⟩⟩

theorem ConnectedAt.vars {q : List Name} {b b' : Body K F} (h : ConnectedAt s t q b b') (k : VarKind) : b.locals.vars k = b'.locals.vars k :=
  (h.step (path := [])).statements.localVars k

theorem ConnectedAt.promoted {path : List Name} {k : VarKind} {w : VarInfo} : ∀ {p : Name} {q : List Name} {b b' : Body K F}, ConnectedAt s t q b b' → (PromotedAs b.toModel path k w p ↔ PromotedAs b'.toModel path k w p) := by
  induction path with
  | nil =>
    intro p q b b' h
    constructor <;> intro hp <;> unfold Body.toModel at hp ⊢ <;> cases hp with
    | here h1 => first | exact .here (h.vars k ▸ h1) | exact .here ((h.vars k).symm ▸ h1)
  | cons n path ih =>
    intro p q b b' h
    have key : ∀ {b b' : Body K F}, (∀ m p' sub, (m, p', sub) ∈ b.subs → ∃ sub', (m, p', sub') ∈ b'.subs ∧ ∀ {p}, PromotedAs sub.toModel path k w p → PromotedAs sub'.toModel path k w p) →
        PromotedAs b.toModel (n :: path) k w p → PromotedAs b'.toModel (n :: path) k w p := by
      intro b b' hs hp
      unfold Body.toModel at hp ⊢
      cases hp with
      | @up _ _ path k v p g h1 h2 h3 =>
        obtain ⟨sub, h4, h5⟩ := mem_toSubs.1 h1
        obtain ⟨sub', h6, h7⟩ := hs _ _ _ h4
        exact PromotedAs.up (s := ⟨g.name, g.promotes, sub'.toModel⟩) (mem_toSubs.2 ⟨sub', h6, rfl⟩) (h7 (h5 ▸ h2)) h3
      | @stay _ _ path k v p g h1 h2 h3 =>
        obtain ⟨sub, h4, h5⟩ := mem_toSubs.1 h1
        obtain ⟨sub', h6, h7⟩ := hs _ _ _ h4
        exact PromotedAs.stay (s := ⟨g.name, g.promotes, sub'.toModel⟩) (mem_toSubs.2 ⟨sub', h6, rfl⟩) (h7 (h5 ▸ h2)) h3
    constructor
    · refine key fun m p' sub hm => ?_
      obtain ⟨sub', h1, h2⟩ := h.subs.1 _ _ _ hm
      refine ⟨sub', h1, fun {p} hp => ?_⟩
      rcases h2 with rfl | ⟨r, _, h2⟩
      · exact hp
      · exact (ih h2).1 hp
    · refine key fun m p' sub' hm => ?_
      obtain ⟨sub, h1, h2⟩ := h.subs.2 _ _ _ hm
      refine ⟨sub, h1, fun {p} hp => ?_⟩
      rcases h2 with rfl | ⟨r, _, h2⟩
      · exact hp
      · exact (ih h2).2 hp

theorem ConnectedAt.issued {q : List Name} {b b' : Body K F} (h : ConnectedAt s t q b b') :
    (issuedPost Local.connections b.toModel).Sublist (issuedPost Local.connections b'.toModel) ∧ (issuedPostSubs Local.connections b.toSubs).Sublist (issuedPostSubs Local.connections b'.toSubs) := by
  induction h with
  | here b =>
    refine ⟨?_, by rw [more_toSubs]⟩
    unfold Body.toModel
    rw [more_toSubs]
    unfold issuedPost
    refine (List.Sublist.refl _).append (List.Sublist.map _ ?_)
    rcases more_connections s t b with h | h
    · rw [h]
    · rw [h]; exact List.sublist_append_left _ _
  | sub i n p r h ih =>
    have e := (ConnectedAt.sub i n p r h).locals
    have key := (ih.1.map fun px : List Name × (Name × Name) => (n :: px.1, px.2)).append (List.Sublist.refl (issuedPostSubs Local.connections r.toSubs))
    refine ⟨?_, key⟩
    unfold Body.toModel issuedPost
    rw [e]
    exact List.Sublist.append key (List.Sublist.refl _)
  | stmt u h ih =>
    have e := (ConnectedAt.stmt u h).locals
    refine ⟨?_, ih.2⟩
    unfold Body.toModel issuedPost
    rw [e]
    exact List.Sublist.append ih.2 (List.Sublist.refl _)
  | add i m p sub h ih =>
    have e := (ConnectedAt.add i m p sub h).locals
    have key := (List.Sublist.refl ((issuedPost Local.connections sub.toModel).map fun px : List Name × (Name × Name) => (m :: px.1, px.2))).append ih.2
    refine ⟨?_, key⟩
    unfold Body.toModel issuedPost
    rw [e]
    exact List.Sublist.append key (List.Sublist.refl _)

section more
variable {q : List Name} {b b' : Body K F} (h : ConnectedAt s t q b b')
include h

theorem ConnectedAt.denotes {x p : Name} : Denotes b.toModel x p ↔ Denotes b'.toModel x p := by
  constructor
  · rintro (g | g)
    · exact .promoted (h.promoted.1 g)
    · exact .full (h.promoted.1 g)
  · rintro (g | g)
    · exact .promoted (h.promoted.2 g)
    · exact .full (h.promoted.2 g)

theorem ConnectedAt.hasName {path : List Name} {x : Nat} {p : Name} : HasName b path x p ↔ HasName b' path x p :=
  ⟨SameStatements.hasName h.methods h.promoted.1, SameStatements.hasName h.methods.symm h.promoted.2⟩

/-- what is the same without the connection is the same with it -/
theorem ConnectedAt.same {u v : List Name × Nat} (hs : Same b u v) : Same b' u v := by
  cases hs with
  | name p h1 h2 => exact .name p (h.hasName.1 h1) (h.hasName.1 h2)
  | connection path c a d p r hc hst hp hq h1 h2 =>
    obtain ⟨c', g1, g2⟩ := h.at hc
    exact .connection path c' a d p r g1 (g2.connections _ hst) (h.denotes.1 hp) (h.denotes.1 hq) (h.hasName.1 h1) (h.hasName.1 h2)
  | «alias» c hc h1 h2 h3 =>
    obtain ⟨c', g1, g2⟩ := h.at hc
    exact .alias c' g1 (g2.statements.live h1) (g2.statements.live h2) (g2.statements.alias.1 h3)

/-- what is the same with the connection is the same without it, or is its two ends -/
theorem ConnectedAt.same' {u v : List Name × Nat} (hs : Same b' u v) :
    Same b u v ∨ ∃ p r, Denotes b.toModel (fullName q s) p ∧ Denotes b.toModel (fullName q t) r ∧ HasName b u.1 u.2 p ∧ HasName b v.1 v.2 r := by
  cases hs with
  | name p h1 h2 => exact Or.inl (.name p (h.hasName.2 h1) (h.hasName.2 h2))
  | connection path c' a d p r hc hst hp hq h1 h2 =>
    obtain ⟨c, g1, g2⟩ := h.at' hc
    rcases g2.connections' _ hst with h3 | ⟨rfl, h3⟩
    · exact Or.inl (.connection path c a d p r g1 h3 (h.denotes.2 hp) (h.denotes.2 hq) (h.hasName.2 h1) (h.hasName.2 h2))
    · cases h3
      exact Or.inr ⟨p, r, h.denotes.2 hp, h.denotes.2 hq, h.hasName.2 h1, h.hasName.2 h2⟩
  | «alias» c' hc h1 h2 h3 =>
    obtain ⟨c, g1, g2⟩ := h.at' hc
    exact Or.inl (.alias c g1 (g2.statements.symm.live h1) (g2.statements.symm.live h2) (g2.statements.alias.2 h3))

theorem ConnectedAt.joins : JoinsAtLeast b b' := by
  intro u v hs
  induction hs with
  | rel _ _ g => exact .rel _ _ (h.same g)
  | refl => exact .refl _
  | symm _ _ _ ih => exact .symm _ _ ih
  | trans _ _ _ _ _ ih1 ih2 => exact .trans _ _ _ ih1 ih2

theorem ConnectedAt.feeds {u v : List Name × Nat} (hf : Feeds b u v) : Feeds b' u v := by
  rcases hf with ⟨c, n, st, e, hb, hs, hc, h1, h2, hl, hx⟩ | ⟨c, name, shape, val, key, e, hb, hs, ha⟩
  · obtain ⟨c', g1, g2⟩ := h.methods.1 _ c hb
    exact Or.inl ⟨c', n, st, e, g1, g2.has hc.plain hs, hc, h1, h2, g2.live hl, hx⟩
  · obtain ⟨c', g1, g2⟩ := h.methods.1 _ c hb
    exact Or.inr ⟨c', name, shape, val, key, e, g1, g2.has rfl hs, g2.assigned ha⟩

/-- **A connection can be left out.** A program that is valid with the connection is valid without it. -/
theorem ConnectedAt.valid [Zero K] (hv : ValidProgram b') : ValidProgram b where
  methods := by
    intro path c hc
    obtain ⟨c', g1, g2⟩ := h.at hc
    have m := hv.methods path c' g1
    obtain ⟨l, e⟩ := g2.ordered
    refine ⟨fun L y L' hL => m.stmts L y (L' ++ l) (by rw [e, hL]; simp), fun y name shape val hy => ?_, g2.names ▸ m.subNames, fun x hx => ?_, ?_⟩
    · obtain ⟨key, x, ha⟩ := m.assigned y name shape val (g2.statements.has rfl hy)
      exact ⟨key, x, g2.statements.symm.assigned ha⟩
    · have hx' : x.1 ∈ c'.subs.map (·.1) := g2.names ▸ List.mem_map.2 ⟨x, hx, rfl⟩
      obtain ⟨x', h1, h2⟩ := List.mem_map.1 hx'
      exact h2 ▸ m.subAllowed x' h1
    · have e1 : c.locals.inputs = c'.locals.inputs := by simp [Body.locals, g2.statements.inputs]
      have e2 : c.locals.outputs = c'.locals.outputs := by simp [Body.locals, g2.statements.outputs, g2.statements.shapes]
      have e3 : c.subs = [] ↔ c'.subs = [] := by rw [← List.map_eq_nil_iff (f := (·.1)), ← List.map_eq_nil_iff (l := c'.subs) (f := (·.1)), g2.names]
      rw [e1, e2, Ne, Ne, Ne, e3]
      exact m.nonEmpty
  names := by
    refine ⟨fun path c hc => ?_, fun path c hc => ?_, fun path c hc => ?_, fun path c hc => ?_⟩ <;> obtain ⟨c', g1, g2⟩ := h.at hc <;>
      have e1 : c.locals.sources = c'.locals.sources := g2.statements.localVars .source <;> have e2 : c.locals.declared = c'.locals.declared := g2.statements.localVars .target
    · exact e1 ▸ hv.names.sources path c' g1
    · rw [e1, e2]
      exact hv.names.declared path c' g1
    · rw [e1, e2]
      exact hv.names.notAuto path c' g1
    · intro x hx
      have hx' : x.1 ∈ c'.subs.map (·.1) := g2.names ▸ List.mem_map.2 ⟨x, hx, rfl⟩
      obtain ⟨x', h1, h2⟩ := List.mem_map.1 hx'
      rw [e1, e2, ← h2]
      exact hv.names.subs path c' g1 x' h1
  oneSource := by
    intro path c hc
    obtain ⟨c', g1, g2⟩ := h.at hc
    rcases g2.related with rfl | ⟨r, _, g3⟩
    · exact hv.oneSource path c g1
    · exact fun p path1 v1 path2 v2 h1 h2 => hv.oneSource path c' g1 p path1 v1 path2 v2 (g3.promoted.1 h1) (g3.promoted.1 h2)
  sizes := by
    intro path c hc
    obtain ⟨c', g1, g2⟩ := h.at hc
    rcases g2.related with rfl | ⟨r, _, g3⟩
    · exact hv.sizes path c g1
    · exact fun p k1 path1 v1 k2 path2 v2 h1 h2 => hv.sizes path c' g1 p k1 path1 v1 k2 path2 v2 (g3.promoted.1 h1) (g3.promoted.1 h2)
  promotes := by
    intro path c hc n l sub hs x hx
    obtain ⟨c', g1, g2⟩ := h.at hc
    rcases g2.related with rfl | ⟨r, _, g3⟩
    · exact hv.promotes path c g1 n l sub hs x hx
    · obtain ⟨sub', h1, h2⟩ := g3.subs.1 _ _ _ hs
      obtain ⟨h3, path', k, v, h4⟩ := hv.promotes path c' g1 n l sub' h1 x hx
      rcases h2 with rfl | ⟨_, _, h2⟩
      · exact ⟨h3, path', k, v, h4⟩
      · exact ⟨h3, path', k, v, h2.promoted.2 h4⟩
  connections := by
    intro path c a d hc hm
    obtain ⟨c', g1, g2⟩ := h.at hc
    obtain ⟨p, r, h1, h2, ⟨p3, w3, h3⟩, ⟨p4, x4, h4⟩, h5, h6⟩ := hv.connections path c' a d g1 (g2.connections _ hm)
    refine ⟨p, r, h.denotes.2 h1, h.denotes.2 h2, ⟨p3, w3, h.promoted.2 h3⟩, ⟨p4, x4, h.hasName.2 h4⟩, fun path' c' w hb hw hp => ?_, fun k path w k' path' w' g1 g2 => h6 k path w k' path' w' (h.promoted.1 g1) (h.promoted.1 g2)⟩
    obtain ⟨c'', g1, g2⟩ := h.at hb
    have e2 : c'.locals.outputs = c''.locals.outputs := by simp [Body.locals, g2.statements.outputs, g2.statements.shapes]
    exact h5 path' c'' w g1 (e2 ▸ hw) (h.promoted.1 hp)
  oneConnection := (hv.oneConnection.sublist h.issued.1).imp fun g q h1 h2 => g q (h.denotes.1 h1) (h.denotes.1 h2)
  noChain := ⟨fun i hi p h1 h2 => hv.noChain.1 i (h.issued.1.subset hi) p (h.denotes.1 h1) (h.denotes.1 h2),
    (hv.noChain.2.sublist h.issued.1).imp fun g p h1 h2 => g p (h.denotes.1 h1) (h.denotes.1 h2)⟩
  acyclic := by
    rintro ⟨q, hq⟩
    exact hv.acyclic ⟨q, Relation.TransGen.mono (fun a c ⟨a', h1, h2⟩ => ⟨a', h.joins _ _ h1, h.feeds h2⟩) q q hq⟩

end more
end Csdl.Prog
