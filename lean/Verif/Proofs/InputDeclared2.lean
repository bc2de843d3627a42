import Verif.Proofs.InputDeclared
/-
Declaring a variable that was an input joins the same variables.
-/
namespace Csdl.Prog
open Csdl Csdl.Arith
variable {K F : Type}

theorem mayDeclare_connect {s s' : Stmt K F} (h : s.MayDeclare s') : s.notConnect = s'.notConnect ∧ s.count = s'.count ∧ ∀ cs, stepConnections cs s = stepConnections cs s' := by
  rcases h with rfl | ⟨_, _, _, _, rfl, rfl⟩
  · exact ⟨rfl, rfl, fun _ => rfl⟩
  · exact ⟨rfl, rfl, fun _ => rfl⟩

theorem InputsDeclared.stmts {b b' : Body K F} (h : InputsDeclared b b') : ∀ m, List.Forall₂ (fun s s' : Nat × Stmt K F => s.1 = s'.1 ∧ Stmt.MayDeclare s.2 s'.2) (b.stmts m) (b'.stmts m) := by
  induction h with
  | done => intro m; exact .nil
  | stmt hs _ ih => intro m; exact .cons ⟨rfl, hs⟩ ((mayDeclare_connect hs).2.1 ▸ ih _)
  | add i n p _ _ _ ih => intro m; exact ih m

theorem InputsDeclared.methods0 {b b' : Body K F} (h : InputsDeclared b b') : DeclaresInputs b b' := by
  unfold DeclaresInputs
  have key : ∀ {L L' : List (Nat × Stmt K F)}, List.Forall₂ (fun s s' : Nat × Stmt K F => s.1 = s'.1 ∧ Stmt.MayDeclare s.2 s'.2) L L' →
      List.Forall₂ (fun s s' : Nat × Stmt K F => s.1 = s'.1 ∧ Stmt.MayDeclare s.2 s'.2) (L.filter fun s => s.2.notConnect) (L'.filter fun s => s.2.notConnect) := by
    intro L L' hL
    induction hL with
    | nil => exact .nil
    | cons hx _ ih =>
      rw [List.filter_cons, List.filter_cons, (mayDeclare_connect hx.2).1]
      split
      · exact .cons hx ih
      · exact ih
  exact key (h.stmts 0)

theorem InputsDeclared.connections {b b' : Body K F} (h : InputsDeclared b b') : b.locals.connections = b'.locals.connections := by
  have key : ∀ {L L' : List (Nat × Stmt K F)}, List.Forall₂ (fun s s' : Nat × Stmt K F => s.1 = s'.1 ∧ Stmt.MayDeclare s.2 s'.2) L L' → ∀ cs : List (Name × Name),
      L.foldl (fun cs s => stepConnections cs s.2) cs = L'.foldl (fun cs s => stepConnections cs s.2) cs := by
    intro L L' hL
    induction hL with
    | nil => intro cs; rfl
    | cons hx _ ih => intro cs; rw [List.foldl_cons, List.foldl_cons, (mayDeclare_connect hx.2).2.2, ih]
  exact key (h.stmts 0) []

theorem InputsDeclared.subs {b b' : Body K F} (h : InputsDeclared b b') :
    (∀ n p sub, (n, p, sub) ∈ b.subs → ∃ sub', (n, p, sub') ∈ b'.subs ∧ InputsDeclared sub sub') ∧ ∀ n p sub', (n, p, sub') ∈ b'.subs → ∃ sub, (n, p, sub) ∈ b.subs ∧ InputsDeclared sub sub' := by
  induction h with
  | done => exact ⟨fun _ _ _ h => (List.not_mem_nil h).elim, fun _ _ _ h => (List.not_mem_nil h).elim⟩
  | stmt _ _ ih => exact ih
  | @add i n p sub sub' r r' hs _ _ ih =>
    refine ⟨fun m p1 s1 h1 => ?_, fun m p1 s1 h1 => ?_⟩ <;> simp only [Body.subs, List.mem_cons, Prod.mk.injEq] at h1 ⊢ <;> rcases h1 with ⟨rfl, rfl, rfl⟩ | h1
    · exact ⟨_, Or.inl ⟨rfl, rfl, rfl⟩, hs⟩
    · obtain ⟨s2, h2, h3⟩ := ih.1 _ _ _ h1; exact ⟨s2, Or.inr h2, h3⟩
    · exact ⟨_, Or.inl ⟨rfl, rfl, rfl⟩, hs⟩
    · obtain ⟨s2, h2, h3⟩ := ih.2 _ _ _ h1; exact ⟨s2, Or.inr h2, h3⟩

theorem InputsDeclared.at {path : List Name} {c : Body K F} : ∀ {b b' : Body K F}, InputsDeclared b b' → BAt b path c → ∃ c', BAt b' path c' ∧ InputsDeclared c c' := by
  induction path with
  | nil => intro b b' h hb; cases hb; exact ⟨b', .here _, h⟩
  | cons n path ih =>
    intro b b' h hb
    cases hb with
    | down h1 h2 =>
      obtain ⟨sub', g1, g2⟩ := h.subs.1 _ _ _ h1
      obtain ⟨c', h3, h4⟩ := ih g2 h2
      exact ⟨c', .down g1 h3, h4⟩

theorem InputsDeclared.at' {path : List Name} {c' : Body K F} : ∀ {b b' : Body K F}, InputsDeclared b b' → BAt b' path c' → ∃ c, BAt b path c ∧ InputsDeclared c c' := by
  induction path with
  | nil => intro b b' h hb; cases hb; exact ⟨b, .here _, h⟩
  | cons n path ih =>
    intro b b' h hb
    cases hb with
    | down h1 h2 =>
      obtain ⟨sub, g1, g2⟩ := h.subs.2 _ _ _ h1
      obtain ⟨c, h3, h4⟩ := ih g2 h2
      exact ⟨c, .down g1 h3, h4⟩

theorem InputsDeclared.methods {b b' : Body K F} (h : InputsDeclared b b') : DeclaringMethods b b' :=
  ⟨fun _ _ hc => (h.at hc).imp fun _ g => ⟨g.1, g.2.methods0⟩, fun _ _ hc => (h.at' hc).imp fun _ g => ⟨g.1, g.2.methods0⟩⟩

/-- the names of a method -/
theorem InputsDeclared.vars {b b' : Body K F} (h : InputsDeclared b b') {w : VarInfo} : (∃ k, w ∈ b.locals.vars k) ↔ ∃ k, w ∈ b'.locals.vars k := by
  have e : ∀ c : Body K F, (∃ k, w ∈ c.locals.vars k) ↔ (∃ x, (x, w.name, w.shape) ∈ (c.stmts 0).filterMap inputOf ++ (c.stmts 0).filterMap declaredOf) ∨ w ∈ c.locals.outputs := by
    intro c
    have k : (∃ k, w ∈ c.locals.vars k) ↔ (w ∈ c.locals.inputs ∨ w ∈ c.locals.outputs) ∨ w ∈ c.locals.declared := by
      constructor
      · rintro ⟨k, hk⟩
        cases k with
        | source => exact Or.inl (List.mem_append.1 hk)
        | target => exact Or.inr hk
      · rintro (hk | hk)
        · exact ⟨.source, List.mem_append.2 hk⟩
        · exact ⟨.target, hk⟩
    rw [k]
    simp only [Body.locals, List.mem_map, List.mem_append, Prod.exists]
    constructor
    · rintro ((⟨x, n, s, h1, rfl⟩ | h1) | ⟨x, n, s, h1, rfl⟩)
      · exact Or.inl ⟨x, Or.inl h1⟩
      · exact Or.inr h1
      · exact Or.inl ⟨x, Or.inr h1⟩
    · rintro (⟨x, h1 | h1⟩ | h1)
      · exact Or.inl (Or.inl ⟨x, _, _, h1, rfl⟩)
      · exact Or.inr ⟨x, _, _, h1, rfl⟩
      · exact Or.inl (Or.inr h1)
  rw [e, e]
  have eo : b.locals.outputs = b'.locals.outputs := by simp [Body.locals, h.methods0.outputs, h.methods0.shapes]
  rw [eo]
  refine or_congr (exists_congr fun x => ?_) Iff.rfl
  have key : ∀ {L L' : List (Nat × Stmt K F)}, List.Forall₂ (fun s s' : Nat × Stmt K F => s.1 = s'.1 ∧ Stmt.MayDeclare s.2 s'.2) L L' → ∀ y : Nat × Name × Shape,
      y ∈ L.filterMap inputOf ++ L.filterMap declaredOf ↔ y ∈ L'.filterMap inputOf ++ L'.filterMap declaredOf := by
    intro L L' hL y
    induction hL with
    | nil => exact Iff.rfl
    | @cons a c L L' hx _ ih =>
      obtain ⟨n, s⟩ := a
      obtain ⟨m, s'⟩ := c
      obtain rfl : n = m := hx.1
      simp only [List.mem_append] at ih ⊢
      rcases hx.2 with e1 | ⟨nm, sh, v, d, e1, e2⟩
      · obtain rfl : s' = s := e1
        cases h1 : inputOf (n, s') <;> cases h2 : declaredOf (n, s') <;> simp only [List.filterMap_cons, h1, h2, List.mem_cons] <;> tauto
      · obtain rfl : s = _ := e1
        obtain rfl : s' = _ := e2
        simp only [List.filterMap_cons, inputOf, declaredOf, List.mem_cons]
        tauto
  exact key (h.stmts 0) _

/-- what has a promoted name in one has it in the other -/
theorem InputsDeclared.promoted {path : List Name} {w : VarInfo} : ∀ {p : Name} {b b' : Body K F}, InputsDeclared b b' → ((∃ k, PromotedAs b.toModel path k w p) ↔ ∃ k, PromotedAs b'.toModel path k w p) := by
  induction path with
  | nil =>
    intro p b b' h
    have key : ∀ {b b' : Body K F}, (∀ w : VarInfo, (∃ k, w ∈ b.locals.vars k) → ∃ k, w ∈ b'.locals.vars k) → (∃ k, PromotedAs b.toModel [] k w p) → ∃ k, PromotedAs b'.toModel [] k w p := by
      rintro b b' hv ⟨k, hp⟩
      unfold Body.toModel at hp ⊢
      cases hp with
      | here h1 =>
        obtain ⟨k', h2⟩ := hv w ⟨k, h1⟩
        exact ⟨k', .here h2⟩
    exact ⟨key fun w => h.vars.1, key fun w => h.vars.2⟩
  | cons n path ih =>
    intro p b b' h
    have key : ∀ {b b' : Body K F}, (∀ m p' sub, (m, p', sub) ∈ b.subs → ∃ sub', (m, p', sub') ∈ b'.subs ∧ ∀ {p}, (∃ k, PromotedAs sub.toModel path k w p) → ∃ k, PromotedAs sub'.toModel path k w p) →
        (∃ k, PromotedAs b.toModel (n :: path) k w p) → ∃ k, PromotedAs b'.toModel (n :: path) k w p := by
      rintro b b' hs ⟨k, hp⟩
      unfold Body.toModel at hp ⊢
      cases hp with
      | @up _ _ path k v p g h1 h2 h3 =>
        obtain ⟨sub, h4, h5⟩ := mem_toSubs.1 h1
        obtain ⟨sub', h6, h7⟩ := hs _ _ _ h4
        obtain ⟨k', h8⟩ := h7 ⟨k, h5 ▸ h2⟩
        exact ⟨k', PromotedAs.up (s := ⟨g.name, g.promotes, sub'.toModel⟩) (mem_toSubs.2 ⟨sub', h6, rfl⟩) h8 h3⟩
      | @stay _ _ path k v p g h1 h2 h3 =>
        obtain ⟨sub, h4, h5⟩ := mem_toSubs.1 h1
        obtain ⟨sub', h6, h7⟩ := hs _ _ _ h4
        obtain ⟨k', h8⟩ := h7 ⟨k, h5 ▸ h2⟩
        exact ⟨k', PromotedAs.stay (s := ⟨g.name, g.promotes, sub'.toModel⟩) (mem_toSubs.2 ⟨sub', h6, rfl⟩) h8 h3⟩
    constructor
    · refine key fun m p' sub hm => ?_
      obtain ⟨sub', h1, h2⟩ := h.subs.1 _ _ _ hm
      exact ⟨sub', h1, fun {p} hp => (ih h2).1 hp⟩
    · refine key fun m p' sub' hm => ?_
      obtain ⟨sub, h1, h2⟩ := h.subs.2 _ _ _ hm
      exact ⟨sub, h1, fun {p} hp => (ih h2).2 hp⟩

theorem InputsDeclared.denotes {b b' : Body K F} (h : InputsDeclared b b') {x p : Name} : Denotes b.toModel x p ↔ Denotes b'.toModel x p := by
  constructor
  · rintro (g | g) <;> obtain ⟨k, g'⟩ := h.promoted.1 ⟨_, g⟩
    · exact .promoted g'
    · exact .full g'
  · rintro (g | g) <;> obtain ⟨k, g'⟩ := h.promoted.2 ⟨_, g⟩
    · exact .promoted g'
    · exact .full g'

/-- the variable `u` matters in the second program -/
def Stays (b' : Body K F) (u : List Name × Nat) : Prop := ∃ c, BAt b' u.1 c ∧ c.Live u.2

theorem InputsDeclared.hasName' {b b' : Body K F} (h : InputsDeclared b b') {path : List Name} {x : Nat} {p : Name} (hn : HasName b' path x p) : HasName b path x p ∧ Stays b' (path, x) := by
  obtain ⟨c', nm, k, w, h1, h2, h3, h4, h5⟩ := hn
  obtain ⟨c, g1, g2⟩ := h.at' h1
  obtain ⟨k', g3⟩ := h.promoted.2 ⟨k, h4⟩
  exact ⟨⟨c, nm, k', w, g1, g2.methods0.live' h2, g2.methods0.named.2 h3, g3, h5⟩, c', h1, h2⟩

theorem InputsDeclared.hasName {b b' : Body K F} (h : InputsDeclared b b') (hd : ∀ {path c c'}, BAt b' path c → BAt b' path c' → c = c') {path : List Name} {x : Nat} {p : Name}
    (hn : HasName b path x p) (hl : Stays b' (path, x)) : HasName b' path x p := by
  obtain ⟨c, nm, k, w, h1, h2, h3, h4, h5⟩ := hn
  obtain ⟨c', g1, g2⟩ := h.at h1
  obtain ⟨d, g4, g5⟩ := hl
  obtain rfl := hd g1 g4
  obtain ⟨k', g3⟩ := h.promoted.1 ⟨k, h4⟩
  exact ⟨c', nm, k', w, g1, g5, g2.methods0.named.1 h3, g3, h5⟩

/-- the variable `x` is `z`, or `+` of one that is ... -/
def Down (c : Body K F) (z x : Nat) : Prop := Relation.ReflTransGen (fun y x => c.Has x (.expr (.pos y))) z x

theorem down_alias {c : Body K F} {z : Nat} {s0 : Stmt K F} (hz : c.Has z s0) (hs : s0.isNamed = true) {x y : Nat} (ha : Alias (c.stmts 0) x y) : Down c z x ↔ Down c z y := by
  have one : s0.count = 1 := by cases s0 <;> first | rfl | cases hs
  have uniq : ∀ {n : Nat} {s : Stmt K F}, c.Has n s → s.count = 1 → n = z → s = s0 := fun h1 h2 e => by
    subst e
    exact (stmt_of_number h1 hz (Nat.le_refl _) (by omega) (Nat.le_refl _) (by omega)).2
  have notIndex : ∀ {x u : Nat} {k : Key}, c.Has x (.index u k) → ¬ Down c z x := by
    intro x u k hx hd
    rcases Relation.ReflTransGen.cases_tail hd with e | ⟨y, _, h⟩
    · have := uniq hx rfl e
      subst this
      cases hs
    · have := (stmt_of_number hx h (Nat.le_refl _) (by simp [Stmt.count]) (Nat.le_refl _) (by simp [Stmt.count])).2
      cases this
  induction ha with
  | refl => exact Iff.rfl
  | symm _ ih => exact ih.symm
  | trans _ _ h1 h2 => exact h1.trans h2
  | @plus x y hx =>
    constructor
    · intro hd
      rcases Relation.ReflTransGen.cases_tail hd with e | ⟨y', h1, h⟩
      · have := uniq hx rfl e
        subst this
        cases hs
      · have := (stmt_of_number hx h (Nat.le_refl _) (by simp [Stmt.count]) (Nat.le_refl _) (by simp [Stmt.count])).2
        cases this
        exact h1
    · intro hd; exact hd.tail hx
  | part h1 h2 _ _ _ => exact ⟨fun hd => (notIndex h1 hd).elim, fun hd => (notIndex h2 hd).elim⟩

theorem down_live {c : Body K F} {z x : Nat} (h : Down c z x) (hl : c.Live x) : c.Live z := by
  induction h with
  | refl => exact hl
  | @tail y x _ h1 ih => exact ih (.operand hl h1 (Nat.le_refl _) (by simp [Stmt.count]) (by simp [Stmt.operands, Instr.first]))

end Csdl.Prog
