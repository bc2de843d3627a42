import Verif.Proofs.Join
import Verif.Proofs.Print2
/-
Promoting a variable or connecting it.
-/
namespace Csdl.Prog
open Csdl Csdl.Arith
variable {K F : Type}

theorem thenConnect_subs (s t : Name) : ∀ b : Body K F, (b.thenConnect s t).subs = b.subs
  | .done => rfl
  | .stmt _ r => thenConnect_subs s t r
  | .add _ n p sub r => by simp [Body.thenConnect, Body.subs, thenConnect_subs s t r]

theorem thenConnect_stmts (s t : Name) : ∀ (b : Body K F) (k : Nat), ∃ j, (b.thenConnect s t).stmts k = b.stmts k ++ [(j, .connect s t)]
  | .done, k => ⟨k, rfl⟩
  | .stmt u r, k => by
    obtain ⟨j, h⟩ := thenConnect_stmts s t r (k + u.count)
    exact ⟨j, by simp [Body.thenConnect, Body.stmts, h]⟩
  | .add _ n p sub r, k => by
    obtain ⟨j, h⟩ := thenConnect_stmts s t r k
    exact ⟨j, by simp [Body.thenConnect, Body.stmts, h]⟩

theorem Unpromoted.stmts {n a : Name} {b b' : Body K F} (h : Unpromoted n a b b') : ∀ k, b'.stmts k = b.stmts k := by
  induction h with
  | here i sub r _ => intro k; rfl
  | stmt s _ ih => intro k; simp [Body.stmts, ih]
  | add i m p sub _ ih => intro k; simp [Body.stmts, ih]

theorem Unpromoted.subs {n a : Name} {b b' : Body K F} (h : Unpromoted n a b b') : ∃ L1 l sub L2, a ∈ l ∧ b.subs = L1 ++ (n, some l, sub) :: L2 ∧ b'.subs = L1 ++ (n, some (l.filter (· ≠ a)), sub) :: L2 := by
  induction h with
  | @here i l sub r ha => exact ⟨[], l, sub, r.subs, ha, rfl, rfl⟩
  | stmt s _ ih => exact ih
  | add i m p sub _ ih =>
    obtain ⟨L1, l, sub', L2, h1, h2, h3⟩ := ih
    exact ⟨(m, p, sub) :: L1, l, sub', L2, h1, by simp [Body.subs, h2], by simp [Body.subs, h3]⟩

/-- what is known about the two programs -/
structure Joined [Zero K] (n a : Name) (b b' : Body K F) : Prop where
  valid : ValidProgram b
  valid' : ValidProgram b'
  step : ConnectedInstead n a b b'

section joined
variable [Zero K] {n a : Name} {b b' : Body K F} (J : Joined n a b b')
include J

theorem Joined.subs : ∃ L1 l sub L2, a ∈ l ∧ b.subs = L1 ++ (n, some l, sub) :: L2 ∧ b'.subs = L1 ++ (n, some (l.filter (· ≠ a)), sub) :: L2 := by
  obtain ⟨b1, h, rfl | rfl⟩ := J.step
  · rw [thenConnect_subs]; exact h.subs
  · rw [thenConnect_subs]; exact h.subs

theorem Joined.stmts : ∃ j, b'.stmts 0 = b.stmts 0 ++ [(j, .connect a (prependNamespace n a))] ∨ b'.stmts 0 = b.stmts 0 ++ [(j, .connect (prependNamespace n a) a)] := by
  obtain ⟨b1, h, rfl | rfl⟩ := J.step
  · obtain ⟨j, hj⟩ := thenConnect_stmts a (prependNamespace n a) b1 0
    exact ⟨j, Or.inl (by rw [hj, h.stmts])⟩
  · obtain ⟨j, hj⟩ := thenConnect_stmts (prependNamespace n a) a b1 0
    exact ⟨j, Or.inr (by rw [hj, h.stmts])⟩

theorem Joined.sameStatements : SameStatements b b' := by
  unfold SameStatements
  obtain ⟨j, h | h⟩ := J.stmts <;> rw [h, List.filter_append] <;> simp [Stmt.notConnect]

/-- the submodels -/
theorem Joined.sub_iff {m : Name} {sub : Body K F} : (∃ p, (m, p, sub) ∈ b.subs) ↔ ∃ p, (m, p, sub) ∈ b'.subs := by
  obtain ⟨L1, l, sub', L2, _, h1, h2⟩ := J.subs
  rw [h1, h2]
  simp only [List.mem_append, List.mem_cons, Prod.mk.injEq]
  constructor
  · rintro ⟨p, h | ⟨rfl, _, rfl⟩ | h⟩
    · exact ⟨p, Or.inl h⟩
    · exact ⟨_, Or.inr (Or.inl ⟨rfl, rfl, rfl⟩)⟩
    · exact ⟨p, Or.inr (Or.inr h)⟩
  · rintro ⟨p, h | ⟨rfl, _, rfl⟩ | h⟩
    · exact ⟨p, Or.inl h⟩
    · exact ⟨_, Or.inr (Or.inl ⟨rfl, rfl, rfl⟩)⟩
    · exact ⟨p, Or.inr (Or.inr h)⟩

theorem Joined.sameMethods : SameMethods b b' := by
  constructor
  · intro path c hc
    cases hc with
    | here => exact ⟨b', .here _, J.sameStatements⟩
    | down h1 h2 =>
      obtain ⟨p', h3⟩ := J.sub_iff.1 ⟨_, h1⟩
      exact ⟨c, .down h3 h2, rfl⟩
  · intro path c hc
    cases hc with
    | here => exact ⟨b, .here _, J.sameStatements⟩
    | down h1 h2 =>
      obtain ⟨p', h3⟩ := J.sub_iff.2 ⟨_, h1⟩
      exact ⟨c, .down h3 h2, rfl⟩

/-- the names that a submodel promotes, before and after -/
theorem Joined.promotes {m : Name} {p p' : Option (List Name)} {sub sub' : Body K F} (h : (m, p, sub) ∈ b.subs) (h' : (m, p', sub') ∈ b'.subs) :
    sub = sub' ∧ (m ≠ n → p = p') ∧ (m = n → ∃ l, a ∈ l ∧ p = some l ∧ p' = some (l.filter (· ≠ a))) := by
  obtain ⟨L1, l, s0, L2, hl, h1, h2⟩ := J.subs
  have d := (J.valid.methods [] b (.here _)).subNames
  rw [h1] at h d
  rw [h2] at h'
  simp only [List.map_append, List.map_cons, List.nodup_append, List.nodup_cons] at d
  obtain ⟨d1, ⟨d2, d3⟩, d4⟩ := d
  simp only [List.mem_append, List.mem_cons, Prod.mk.injEq] at h h'
  have hL1 : ∀ {q : Option (List Name) × Body K F}, (m, q) ∈ L1 → m ≠ n := fun h e => d4 m (List.mem_map.2 ⟨_, h, rfl⟩) n (by simp) e
  have hL2 : ∀ {q : Option (List Name) × Body K F}, (m, q) ∈ L2 → m ≠ n := fun h e => d2 (e ▸ List.mem_map.2 ⟨_, h, rfl⟩)
  have u1 : ∀ {L : List (Name × Option (List Name) × Body K F)}, (L.map (·.1)).Nodup → ∀ {q q'}, (m, q) ∈ L → (m, q') ∈ L → q = q' := by
    intro L hd q q' h h'
    have := List.inj_on_of_nodup_map hd h h' rfl
    exact (Prod.mk.inj this).2
  rcases h with h | ⟨rfl, rfl, rfl⟩ | h
  · rcases h' with h' | ⟨e, _⟩ | h'
    · obtain ⟨rfl, rfl⟩ := Prod.mk.inj (u1 d1 h h')
      exact ⟨rfl, fun _ => rfl, fun e => absurd e (hL1 h)⟩
    · exact absurd e (hL1 h)
    · exact absurd rfl (d4 m (List.mem_map.2 ⟨_, h, rfl⟩) m (by simp only [List.mem_cons, List.mem_map]; exact Or.inr ⟨_, h', rfl⟩))
  · rcases h' with h' | ⟨_, rfl, rfl⟩ | h'
    · exact absurd rfl (hL1 h')
    · exact ⟨rfl, fun e => absurd rfl e, fun _ => ⟨l, hl, rfl, rfl⟩⟩
    · exact absurd rfl (hL2 h')
  · rcases h' with h' | ⟨e, _⟩ | h'
    · exact absurd rfl (d4 m (List.mem_map.2 ⟨_, h', rfl⟩) m (by simp only [List.mem_cons, List.mem_map]; exact Or.inr ⟨_, h, rfl⟩))
    · exact absurd e (hL2 h)
    · obtain ⟨rfl, rfl⟩ := Prod.mk.inj (u1 d3 h h')
      exact ⟨rfl, fun _ => rfl, fun e => absurd e (hL2 h)⟩

theorem Joined.dotFree : DotFree b.toModel := dotFree_body J.valid.methods J.valid.names
theorem Joined.dotFree' : DotFree b'.toModel := dotFree_body J.valid'.methods J.valid'.names

theorem Joined.goodName {m : Name} {p : Option (List Name)} {sub : Body K F} (h : (m, p, sub) ∈ b.subs) : GoodName m := by
  have := (J.dotFree [] _ _ (.here _)).2.1 ⟨m, p, sub.toModel⟩ (mem_toSubs.2 ⟨sub, h, rfl⟩)
  exact this

theorem Joined.goodN : GoodName n := by
  obtain ⟨L1, l, sub, L2, _, h1, _⟩ := J.subs
  exact J.goodName (p := some l) (sub := sub) (by rw [h1]; simp)

/-- the names of a variable in the main model, before and after -/
theorem Joined.promoted {path : List Name} {k : VarKind} {w : VarInfo} {p : Name} (h : PromotedAs b.toModel path k w p) :
    (path.head? = some n ∧ p = a ∧ PromotedAs b'.toModel path k w (prependNamespace n a)) ∨ (¬ (path.head? = some n ∧ p = a) ∧ PromotedAs b'.toModel path k w p) := by
  unfold Body.toModel at h
  cases h with
  | here hv => exact Or.inr ⟨by simp, .here (J.sameStatements.localVars k ▸ hv)⟩
  | @up _ _ path _ _ p s hs hp hpr =>
    obtain ⟨sub, h1, h2⟩ := mem_toSubs.1 hs
    obtain ⟨q', h3⟩ := J.sub_iff.1 ⟨_, h1⟩
    obtain ⟨_, h4, h5⟩ := J.promotes h1 h3
    by_cases hn : s.name = n
    · obtain ⟨l, _, hl, hl'⟩ := h5 hn
      rw [hl] at hpr
      by_cases ha : p = a
      · subst ha
        refine Or.inl ⟨by simp [hn], rfl, ?_⟩
        have := PromotedAs.stay (l := b'.locals) (subs := b'.toSubs) (s := ⟨s.name, q', sub.toModel⟩) (mem_toSubs.2 ⟨sub, h3, rfl⟩) (h2 ▸ hp) (by rw [hl']; simp [IsPromoted])
        rw [← hn]
        exact this
      · exact Or.inr ⟨fun h => ha h.2, .up (s := ⟨s.name, q', sub.toModel⟩) (mem_toSubs.2 ⟨sub, h3, rfl⟩) (h2 ▸ hp) (by
          rw [hl']
          have hpr : p ∈ l := hpr
          simp [IsPromoted, hpr, ha])⟩
    · exact Or.inr ⟨fun h => hn (by simpa using h.1), .up (s := ⟨s.name, q', sub.toModel⟩) (mem_toSubs.2 ⟨sub, h3, rfl⟩) (h2 ▸ hp) (by rw [← h4 hn]; exact hpr)⟩
  | @stay _ _ path _ _ p s hs hp hpr =>
    obtain ⟨sub, h1, h2⟩ := mem_toSubs.1 hs
    obtain ⟨q', h3⟩ := J.sub_iff.1 ⟨_, h1⟩
    obtain ⟨_, h4, h5⟩ := J.promotes h1 h3
    have hnp : ¬ IsPromoted q' p := by
      by_cases hn : s.name = n
      · obtain ⟨l, _, hl, hl'⟩ := h5 hn
        rw [hl'] 
        rw [hl] at hpr
        intro h
        have h : p ∈ l.filter (· ≠ a) := h
        exact hpr (List.mem_filter.1 h).1
      · rw [← h4 hn]; exact hpr
    refine Or.inr ⟨?_, .stay (s := ⟨s.name, q', sub.toModel⟩) (mem_toSubs.2 ⟨sub, h3, rfl⟩) (h2 ▸ hp) hnp⟩
    rintro ⟨hn, e⟩
    obtain ⟨l, hal, _⟩ := h5 (by simpa using hn)
    have hda : '.' ∉ a := by
      obtain ⟨L1, l, sub, L2, hl, e1, _⟩ := J.subs
      exact (J.valid.promotes [] b (.here _) n l sub (by rw [e1]; simp) a hl).1
    exact hda (e ▸ dot_mem_prepend (J.goodName h1).1)

theorem Joined.promoted' {path : List Name} {k : VarKind} {w : VarInfo} {p : Name} (h : PromotedAs b'.toModel path k w p) :
    (path.head? = some n ∧ p = prependNamespace n a ∧ PromotedAs b.toModel path k w a) ∨ (p ≠ prependNamespace n a ∧ ¬ (path.head? = some n ∧ p = a) ∧ PromotedAs b.toModel path k w p) := by
  unfold Body.toModel at h
  cases h with
  | here hv =>
    have hd := (J.dotFree' [] _ _ (.here _)).1 k _ hv
    exact Or.inr ⟨fun e => hd (e ▸ dot_mem_prepend J.goodN.1), by simp, .here (J.sameStatements.localVars k ▸ hv)⟩
  | @up _ _ path _ _ p s hs hp hpr =>
    obtain ⟨sub, h1, h2⟩ := mem_toSubs.1 hs
    have hdot : '.' ∉ p := by
      cases hq : s.promotes with
      | none => rw [hq] at hpr; exact hpr
      | some l => rw [hq] at h1 hpr; exact (J.valid'.promotes [] b' (.here _) _ l sub h1 p hpr).1
    have hne : p ≠ prependNamespace n a := fun e => hdot (e ▸ dot_mem_prepend J.goodN.1)
    obtain ⟨q, h3⟩ := J.sub_iff.2 ⟨_, h1⟩
    obtain ⟨_, h4, h5⟩ := J.promotes h3 h1
    by_cases hn : s.name = n
    · obtain ⟨l, _, hl, hl'⟩ := h5 hn
      rw [hl'] at hpr
      have hpr : p ∈ l.filter (· ≠ a) := hpr
      obtain ⟨m1, m2⟩ := List.mem_filter.1 hpr
      exact Or.inr ⟨hne, fun h => (of_decide_eq_true m2) h.2, .up (s := ⟨s.name, q, sub.toModel⟩) (mem_toSubs.2 ⟨sub, h3, rfl⟩) (h2 ▸ hp) (by rw [hl]; exact m1)⟩
    · exact Or.inr ⟨hne, fun h => hn (by simpa using h.1), .up (s := ⟨s.name, q, sub.toModel⟩) (mem_toSubs.2 ⟨sub, h3, rfl⟩) (h2 ▸ hp) (by rw [h4 hn]; exact hpr)⟩
  | @stay _ _ path _ _ p s hs hp hpr =>
    obtain ⟨sub, h1, h2⟩ := mem_toSubs.1 hs
    obtain ⟨q, h3⟩ := J.sub_iff.2 ⟨_, h1⟩
    obtain ⟨_, h4, h5⟩ := J.promotes h3 h1
    have hda : '.' ∉ a := by
      obtain ⟨L1, l, sub, L2, hl, e1, _⟩ := J.subs
      exact (J.valid.promotes [] b (.here _) n l sub (by rw [e1]; simp) a hl).1
    have hnd : ¬ ((s.name :: path).head? = some n ∧ prependNamespace s.name p = a) := fun h => hda (h.2 ▸ dot_mem_prepend (J.goodName h3).1)
    by_cases hn : s.name = n
    · obtain ⟨l, hal, hl, hl'⟩ := h5 hn
      rw [hl'] at hpr
      by_cases ha : p = a
      · subst ha
        exact Or.inl ⟨by simp [hn], by rw [hn], .up (s := ⟨s.name, q, sub.toModel⟩) (mem_toSubs.2 ⟨sub, h3, rfl⟩) (h2 ▸ hp) (by rw [hl]; exact hal)⟩
      · have hpl : p ∉ l := fun h => hpr (by simp [IsPromoted, h, ha])
        exact Or.inr ⟨fun e => ha (prepend_inj (J.goodName h3) J.goodN e).2, hnd, .stay (s := ⟨s.name, q, sub.toModel⟩) (mem_toSubs.2 ⟨sub, h3, rfl⟩) (h2 ▸ hp) (by rw [hl]; exact hpl)⟩
    · exact Or.inr ⟨fun e => hn (prepend_inj (J.goodName h3) J.goodN e).1, hnd, .stay (s := ⟨s.name, q, sub.toModel⟩) (mem_toSubs.2 ⟨sub, h3, rfl⟩) (h2 ▸ hp) (by rw [h4 hn]; exact hpr)⟩

theorem Joined.hasName {path : List Name} {x : Nat} {p : Name} (h : HasName b path x p) :
    (path.head? = some n ∧ p = a ∧ HasName b' path x (prependNamespace n a)) ∨ HasName b' path x p := by
  obtain ⟨c, name, k, w, h1, h2, h3, h4, h5⟩ := h
  obtain ⟨c', g1, g2⟩ := J.sameMethods.1 path c h1
  rcases J.promoted h4 with ⟨e1, e2, h⟩ | ⟨_, h⟩
  · exact Or.inl ⟨e1, e2, c', name, k, w, g1, g2.live h2, g2.named.1 h3, h, h5⟩
  · exact Or.inr ⟨c', name, k, w, g1, g2.live h2, g2.named.1 h3, h, h5⟩

theorem Joined.hasName' {path : List Name} {x : Nat} {p : Name} (h : HasName b' path x p) : (p = prependNamespace n a ∧ HasName b path x a) ∨ (p ≠ prependNamespace n a ∧ HasName b path x p) := by
  obtain ⟨c, name, k, w, h1, h2, h3, h4, h5⟩ := h
  obtain ⟨c', g1, g2⟩ := J.sameMethods.2 path c h1
  rcases J.promoted' h4 with ⟨_, e, h⟩ | ⟨e, _, h⟩
  · exact Or.inl ⟨e, c', name, k, w, g1, g2.symm.live h2, g2.symm.named.1 h3, h, h5⟩
  · exact Or.inr ⟨e, c', name, k, w, g1, g2.symm.live h2, g2.symm.named.1 h3, h, h5⟩

theorem Joined.connection : (a, prependNamespace n a) ∈ b'.locals.connections ∨ (prependNamespace n a, a) ∈ b'.locals.connections := by
  obtain ⟨j, h | h⟩ := J.stmts
  · exact Or.inl (mem_connections.2 ((Body.connects_iff 0).2 ⟨j, by rw [h]; simp⟩))
  · exact Or.inr (mem_connections.2 ((Body.connects_iff 0).2 ⟨j, by rw [h]; simp⟩))

omit J in
/-- an input or output matters -/
theorem source_hasName {b : Body K F} {path : List Name} {w : VarInfo} {p : Name} (h : PromotedAs b.toModel path .source w p) : ∃ x, HasName b path x p := by
  have key : ∀ {m : Model} {path : List Name} {k : VarKind} {w : VarInfo} {p : Name}, PromotedAs m path k w p → ∀ {d : Body K F}, m = d.toModel → ∃ e, BAt d path e ∧ w ∈ e.locals.vars k := by
    intro m path k w p hp
    induction hp with
    | here hv => intro d e; cases e; exact ⟨d, .here _, hv⟩
    | up hs _ _ ih =>
      intro d e; cases e
      obtain ⟨sub, q1, q2⟩ := mem_toSubs.1 hs
      obtain ⟨e, q3, q4⟩ := ih q2
      exact ⟨e, .down q1 q3, q4⟩
    | stay hs _ _ ih =>
      intro d e; cases e
      obtain ⟨sub, q1, q2⟩ := mem_toSubs.1 hs
      obtain ⟨e, q3, q4⟩ := ih q2
      exact ⟨e, .down q1 q3, q4⟩
  obtain ⟨c, h1, h2⟩ := key h rfl
  have h2 : w ∈ c.locals.inputs ++ c.locals.outputs := h2
  rcases List.mem_append.1 h2 with h2 | h2
  · obtain ⟨x, hx, rfl⟩ := List.mem_map.1 h2
    exact ⟨x.1, c, _, _, _, h1, .input hx, Or.inl ⟨_, Or.inl hx⟩, h, rfl⟩
  · obtain ⟨x, hx, rfl⟩ := List.mem_map.1 h2
    exact ⟨x.1, c, _, _, _, h1, .output hx, Or.inr hx, h, rfl⟩

/-- after: both names denote variables that matter, and these are the same variable -/
theorem Joined.ends : (∃ path x, HasName b' path x a) ∧ (∃ path x, HasName b' path x (prependNamespace n a)) ∧
    ∀ path x path' y, HasName b' path x a → HasName b' path' y (prependNamespace n a) → Relation.EqvGen (Same b') (path, x) (path', y) := by
  have hu := resolves_body J.valid'.methods J.valid'.names J.valid'.oneSource J.valid'.sizes J.valid'.promotes
  obtain ⟨r, hr⟩ := hu
  have key : ∀ {x p q : Name}, Denotes b'.toModel x p → Denotes b'.toModel x q → p = q := fun h1 h2 => denotes_unique J.dotFree' hr h1 h2
  have hda : '.' ∉ a := by
    obtain ⟨L1, l, sub, L2, hl, e1, _⟩ := J.subs
    exact (J.valid.promotes [] b (.here _) n l sub (by rw [e1]; simp) a hl).1
  -- a dot-free name is a promoted name only if it denotes itself
  have self : ∀ {p : Name}, Denotes b'.toModel a p → p = a := by
    intro p h
    generalize hx : a = x at h
    cases h with
    | promoted _ => rfl
    | @full path k v p hp =>
      cases path with
      | nil =>
        have : v.name = p := by unfold Body.toModel at hp; cases hp; rfl
        rw [← this]; rfl
      | cons m path =>
        exfalso
        obtain ⟨g, _⟩ := promoted_good _ J.dotFree' hp
        exact hda (hx ▸ dot_mem_prepend (g m (by simp)).1)
  -- a name of the submodel that is not promoted
  have selfN : ∀ {p : Name}, Denotes b'.toModel (prependNamespace n a) p → p = prependNamespace n a := by
    intro p h
    obtain ⟨L1, l, sub, L2, hl, e1, e2⟩ := J.subs
    obtain ⟨_, path', k, v, hp⟩ := J.valid.promotes [] b (.here _) n l sub (by rw [e1]; simp) a hl
    have : PromotedAs b'.toModel (n :: path') k v (prependNamespace n a) :=
      .stay (s := ⟨n, some (l.filter (· ≠ a)), sub.toModel⟩) (mem_toSubs.2 ⟨sub, by rw [e2]; simp, rfl⟩) hp (by simp [IsPromoted])
    exact key h (.promoted this)
  have fn : ∀ x : Name, fullName [] x = x := fun _ => rfl
  rcases J.connection with hc | hc
  · obtain ⟨p, q, h1, h2, ⟨path, w, h3⟩, h4, _⟩ := J.valid'.connections [] b' _ _ (.here _) hc
    rw [fn] at h1 h2
    obtain rfl := self h1
    obtain rfl := selfN h2
    obtain ⟨x, hx⟩ := source_hasName h3
    exact ⟨⟨path, x, hx⟩, h4, fun path1 x path2 y k1 k2 => .rel _ _ (.connection [] b' _ _ _ _ (.here _) hc h1 h2 k1 k2)⟩
  · obtain ⟨p, q, h1, h2, ⟨path, w, h3⟩, h4, _⟩ := J.valid'.connections [] b' _ _ (.here _) hc
    rw [fn] at h1 h2
    obtain rfl := selfN h1
    obtain rfl := self h2
    obtain ⟨x, hx⟩ := source_hasName h3
    exact ⟨h4, ⟨path, x, hx⟩, fun path1 x path2 y k1 k2 => .symm _ _ (.rel _ _ (.connection [] b' _ _ _ _ (.here _) hc h1 h2 k2 k1))⟩

/-- variables with one name before are the same variable after -/
theorem Joined.same_name {path path' : List Name} {x y : Nat} {p : Name} (h1 : HasName b path x p) (h2 : HasName b path' y p) : Relation.EqvGen (Same b') (path, x) (path', y) := by
  obtain ⟨_, _, e⟩ := J.ends
  rcases J.hasName h1 with ⟨_, rfl, k1⟩ | k1
  · rcases J.hasName h2 with ⟨_, _, k2⟩ | k2
    · exact .rel _ _ (.name _ k1 k2)
    · exact .symm _ _ (e _ _ _ _ k2 k1)
  · rcases J.hasName h2 with ⟨_, rfl, k2⟩ | k2
    · exact e _ _ _ _ k1 k2
    · exact .rel _ _ (.name _ k1 k2)

/-- what a name denotes, before and after -/
theorem Joined.denotes {x p : Name} (h : Denotes b.toModel x p) : Denotes b'.toModel x p ∨ (p = a ∧ Denotes b'.toModel x (prependNamespace n a)) := by
  cases h with
  | promoted hp =>
    rcases J.promoted hp with ⟨_, rfl, _⟩ | ⟨_, h⟩
    · obtain ⟨⟨path, x, c, nm, k, w, _, _, _, hp, _⟩, _⟩ := J.ends
      exact Or.inl (.promoted hp)
    · exact Or.inl (.promoted h)
  | full hp =>
    rcases J.promoted hp with ⟨_, rfl, h⟩ | ⟨_, h⟩
    · exact Or.inr ⟨rfl, .full h⟩
    · exact Or.inl (.full h)

/-- a variable with the name a connection's end denotes after -/
theorem Joined.endOf {x p p' : Name} (h : Denotes b.toModel x p) (h' : Denotes b'.toModel x p') : p' = p ∨ (p = a ∧ p' = prependNamespace n a) := by
  obtain ⟨r, hr⟩ := resolves_body J.valid'.methods J.valid'.names J.valid'.oneSource J.valid'.sizes J.valid'.promotes
  rcases J.denotes h with g | ⟨rfl, g⟩
  · exact Or.inl (denotes_unique J.dotFree' hr h' g)
  · exact Or.inr ⟨rfl, denotes_unique J.dotFree' hr h' g⟩

/-- the connections of before -/
theorem Joined.connections {path : List Name} {c : Body K F} (hc : BAt b path c) : ∃ c', BAt b' path c' ∧ ∀ s t, (s, t) ∈ c.locals.connections → (s, t) ∈ c'.locals.connections := by
  cases hc with
  | here =>
    refine ⟨b', .here _, fun s t h => ?_⟩
    obtain ⟨m, hm⟩ := (Body.connects_iff 0).1 (mem_connections.1 h)
    refine mem_connections.2 ((Body.connects_iff 0).2 ⟨m, ?_⟩)
    obtain ⟨j, e | e⟩ := J.stmts <;> rw [e] <;> exact List.mem_append_left _ hm
  | down h1 h2 =>
    obtain ⟨p', h3⟩ := J.sub_iff.1 ⟨_, h1⟩
    exact ⟨c, .down h3 h2, fun s t h => h⟩

theorem Joined.connections' {path : List Name} {c : Body K F} (hc : BAt b' path c) {s t : Name} (h : (s, t) ∈ c.locals.connections) :
    (∃ c', BAt b path c' ∧ (s, t) ∈ c'.locals.connections) ∨ (path = [] ∧ ((s = a ∧ t = prependNamespace n a) ∨ (s = prependNamespace n a ∧ t = a))) := by
  cases hc with
  | here =>
    obtain ⟨m, hm⟩ := (Body.connects_iff 0).1 (mem_connections.1 h)
    obtain ⟨j, e | e⟩ := J.stmts <;> rw [e] at hm <;> simp only [List.mem_append, List.mem_singleton, Prod.mk.injEq, Stmt.connect.injEq] at hm
    · rcases hm with hm | ⟨_, rfl, rfl⟩
      · exact Or.inl ⟨b, .here _, mem_connections.2 ((Body.connects_iff 0).2 ⟨m, hm⟩)⟩
      · exact Or.inr ⟨rfl, Or.inl ⟨rfl, rfl⟩⟩
    · rcases hm with hm | ⟨_, rfl, rfl⟩
      · exact Or.inl ⟨b, .here _, mem_connections.2 ((Body.connects_iff 0).2 ⟨m, hm⟩)⟩
      · exact Or.inr ⟨rfl, Or.inr ⟨rfl, rfl⟩⟩
  | down h1 h2 =>
    obtain ⟨p', h3⟩ := J.sub_iff.2 ⟨_, h1⟩
    exact Or.inl ⟨c, .down h3 h2, h⟩

/-- a variable with this name, whichever of the two names it has now -/
theorem Joined.nameBefore {path : List Name} {x : Nat} {p p' : Name} (hp : p' = p ∨ (p = a ∧ p' = prependNamespace n a)) (hpb : ∃ path k w, PromotedAs b.toModel path k w p) (h : HasName b' path x p') : HasName b path x p := by
  rcases J.hasName' h with ⟨e, g⟩ | ⟨hne, g⟩
  · rcases hp with rfl | ⟨rfl, _⟩
    · exfalso
      obtain ⟨path1, k, w, hp⟩ := hpb
      rcases J.promoted hp with ⟨_, ha, hq⟩ | ⟨_, hq⟩
      · rw [e] at ha
        obtain ⟨L1, l, sub, L2, hl, e1, _⟩ := J.subs
        exact (J.valid.promotes [] b (.here _) n l sub (by rw [e1]; simp) a hl).1 (ha ▸ dot_mem_prepend J.goodN.1)
      · rcases J.promoted' hq with ⟨h0, _, hq'⟩ | ⟨hne, _⟩
        · have := promoted_det _ J.dotFree hp hq' rfl
          rw [e] at this
          obtain ⟨L1, l, sub, L2, hl, e1, _⟩ := J.subs
          exact (J.valid.promotes [] b (.here _) n l sub (by rw [e1]; simp) a hl).1 (this ▸ dot_mem_prepend J.goodN.1)
        · exact hne e
    · exact g
  · rcases hp with rfl | ⟨rfl, e⟩
    · exact g
    · exact absurd e hne

theorem Joined.sameJoins : SameJoins b b' := by
  have hprom : ∀ {x p : Name}, Denotes b.toModel x p → ∃ path k w, PromotedAs b.toModel path k w p := fun h => by
    cases h with
    | promoted hp => exact ⟨_, _, _, hp⟩
    | full hp => exact ⟨_, _, _, hp⟩
  have live : ∀ {path : List Name} {c : Body K F}, BAt b path c → ∃ c', BAt b' path c' ∧ SameStatements c c' := fun h => J.sameMethods.1 _ _ h
  intro u v
  constructor
  · intro h
    induction h with
    | refl _ => exact .refl _
    | symm _ _ _ ih => exact ih.symm
    | trans _ _ _ _ _ h1 h2 => exact h1.trans _ _ _ h2
    | rel u v h =>
      cases h with
      | name p h1 h2 => exact J.same_name h1 h2
      | @connection path1 path2 x y path c s t p q hc hst hp hq h1 h2 =>
        obtain ⟨c', hc', hcs⟩ := J.connections hc
        have hst' := hcs s t hst
        obtain ⟨p', q', d1, d2, ⟨ps, w, d3⟩, ⟨pt, z, d4⟩, _⟩ := J.valid'.connections path c' s t hc' hst'
        obtain ⟨xs, hxs⟩ := source_hasName d3
        have e1 := J.endOf hp d1
        have e2 := J.endOf hq d2
        have k1 := J.nameBefore e1 (hprom hp) hxs
        have k2 := J.nameBefore e2 (hprom hq) d4
        exact (J.same_name h1 k1).trans _ _ _ ((Relation.EqvGen.rel _ _ (.connection path c' s t p' q' hc' hst' d1 d2 hxs d4)).trans _ _ _ (J.same_name k2 h2))
      | «alias» c hc h1 h2 h3 =>
        obtain ⟨c', g1, g2⟩ := live hc
        exact .rel _ _ (.alias c' g1 (g2.live h1) (g2.live h2) (g2.alias.1 h3))
  · intro h
    have nm : ∀ {path path' : List Name} {x y : Nat} {p : Name}, HasName b' path x p → HasName b' path' y p → Relation.EqvGen (Same b) (path, x) (path', y) := by
      intro path path' x y p h1 h2
      rcases J.hasName' h1 with ⟨e1, k1⟩ | ⟨e1, k1⟩ <;> rcases J.hasName' h2 with ⟨e2, k2⟩ | ⟨e2, k2⟩
      · exact .rel _ _ (.name _ k1 k2)
      · exact absurd e1 e2
      · exact absurd e2 e1
      · exact .rel _ _ (.name _ k1 k2)
    induction h with
    | refl _ => exact .refl _
    | symm _ _ _ ih => exact ih.symm
    | trans _ _ _ _ _ h1 h2 => exact h1.trans _ _ _ h2
    | rel u v h =>
      cases h with
      | name p h1 h2 => exact nm h1 h2
      | @connection path1 path2 x y path c' s t p' q' hc' hst' hp' hq' h1 h2 =>
        rcases J.connections' hc' hst' with ⟨c, hc, hst⟩ | ⟨rfl, e⟩
        · obtain ⟨p, q, d1, d2, _⟩ := J.valid.connections path c s t hc hst
          exact .rel _ _ (.connection path c s t p q hc hst d1 d2 (J.nameBefore (J.endOf d1 hp') (hprom d1) h1) (J.nameBefore (J.endOf d2 hq') (hprom d2) h2))
        · obtain ⟨⟨pa, xa, ha⟩, ⟨pn, xn, hn⟩, _⟩ := J.ends
          obtain ⟨r, hr⟩ := resolves_body J.valid'.methods J.valid'.names J.valid'.oneSource J.valid'.sizes J.valid'.promotes
          have da : Denotes b'.toModel a a := by obtain ⟨_, _, _, _, _, _, _, hp, _⟩ := ha; exact .promoted hp
          have dn : Denotes b'.toModel (prependNamespace n a) (prependNamespace n a) := by obtain ⟨_, _, _, _, _, _, _, hp, _⟩ := hn; exact .promoted hp
          have toA : ∀ {path : List Name} {x : Nat}, HasName b' path x (prependNamespace n a) → HasName b path x a := fun h => by
            rcases J.hasName' h with ⟨_, k⟩ | ⟨e, _⟩
            · exact k
            · exact absurd rfl e
          have toA' : ∀ {path : List Name} {x : Nat}, HasName b' path x a → HasName b path x a := fun h => by
            rcases J.hasName' h with ⟨_, k⟩ | ⟨_, k⟩ <;> exact k
          rcases e with ⟨rfl, rfl⟩ | ⟨rfl, rfl⟩
          · rw [denotes_unique J.dotFree' hr hp' da] at h1
            rw [denotes_unique J.dotFree' hr hq' dn] at h2
            exact .rel _ _ (.name _ (toA' h1) (toA h2))
          · rw [denotes_unique J.dotFree' hr hp' dn] at h1
            rw [denotes_unique J.dotFree' hr hq' da] at h2
            exact .rel _ _ (.name _ (toA h1) (toA' h2))
      | «alias» c' hc h1 h2 h3 =>
        obtain ⟨c, g1, g2⟩ := J.sameMethods.2 _ _ hc
        exact .rel _ _ (.alias c g1 (g2.symm.live h1) (g2.symm.live h2) (g2.symm.alias.1 h3))

end joined

end Csdl.Prog
