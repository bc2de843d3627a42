import Verif.Proofs.Print3
/-
Adding an output to a valid program: solutions and acceptance.
-/
namespace Csdl.Prog
open Csdl Csdl.Arith
variable {K F : Type}

/-- where a connection was issued -/
theorem issued_at {b : Body K F} {i : List Name × Name × Name} (h : i ∈ issuedPost Local.connections b.toModel) : ∃ c, BAt b i.1 c ∧ (i.2.1, i.2.2) ∈ c.locals.connections := by
  obtain ⟨path, s, t⟩ := i
  obtain ⟨l, subs, h1, h2⟩ := (mem_issuedPost _ path (s, t)).1 h
  obtain ⟨c, hc, e⟩ := BAt.locals h1
  unfold Body.toModel at e
  injection e with e1 e2
  subst e1
  exact ⟨c, hc, h2⟩

section adding
variable [Zero K] {f : F} {args : List Nat} {sh : Shape} {nm : Name} {c0 c0' b b' : Body K F} {path0 : List Name} (A : Adding f args sh nm c0 c0' b path0 b')
include A

theorem Adding.hasName {path : List Name} {x : Nat} {p : Name} (h : HasName b path x p) : HasName b' path x p := by
  obtain ⟨c, name, k, w, h1, h2, h3, h4, h5⟩ := h
  obtain ⟨c', g1, _, g3, g4, _⟩ := A.mono h1
  exact ⟨c', name, k, w, g1, g3 h2, g4 h3, A.promoted h4, h5⟩

omit [Zero K] A in
theorem Named.of_stmts {c c' : Body K F} (e : c'.stmts 0 = c.stmts 0) {x : Nat} {name : Name} (h : c'.Named x name) : c.Named x name := by unfold Body.Named at *; rw [← e]; exact h

omit [Zero K] A in
theorem live_of_stmts {c c' : Body K F} (e : c'.stmts 0 = c.stmts 0) {x : Nat} (h : c'.Live x) : c.Live x := by
  induction h with
  | input h => exact .input (by rw [← e]; exact h)
  | output h => exact .output (by rw [← e]; exact h)
  | operand _ h1 h2 h3 h4 ih => exact .operand ih (by unfold Body.Has at *; rw [← e]; exact h1) h2 h3 h4
  | result _ h1 h2 h3 h4 h5 ih => exact .result ih (by unfold Body.Has at *; rw [← e]; exact h1) h2 h3 h4 h5
  | part _ h1 h2 h3 ih => exact .part ih (by unfold Body.Has at *; rw [← e]; exact h1) (by unfold Body.Has at *; rw [← e]; exact h2) (by rw [← e]; exact h3)
  | assigned h => exact .assigned (by unfold Body.Has at *; rw [← e]; exact h)
  | same _ h1 h2 ih => exact .same ih (by unfold Body.Named at *; rw [← e]; exact h1) (by unfold Body.Named at *; rw [← e]; exact h2)

theorem Adding.live' {y : Nat} (h : c0'.Live y) : c0.Live y ∨ y = numVars (c0.stmts 0) := A.grew.live' A.ok0 A.live A.new.fresh.1 h

/-- a variable with a name is a variable of before with this name, or the new one -/
theorem Adding.hasName' {path : List Name} {x : Nat} {p : Name} (h : HasName b' path x p) : HasName b path x p ∨ (path = path0 ∧ x = numVars (c0.stmts 0) ∧ PromotedAs b'.toModel path0 .source ⟨nm, sh⟩ p) := by
  obtain ⟨c', name, k, w, h1, h2, h3, h4, rfl⟩ := h
  obtain ⟨c, g1, ⟨rfl, rfl, rfl⟩ | ⟨hne, e, _⟩⟩ := A.method' h1
  · rcases A.grew.named.1 h3 with h3 | ⟨rfl, hw⟩
    · have hlt := A.ok0.named_lt h3
      rcases A.live' h2 with h2 | rfl
      · rcases A.promoted' h4 with h4 | ⟨_, _, rfl⟩
        · exact Or.inl ⟨c, w.name, k, w, g1, h2, h3, h4, rfl⟩
        · obtain ⟨n, s, k1, k2⟩ := A.ok0.named_defines A.grew h3
          exact absurd k2 (A.new.fresh.1 n s k1)
      · omega
    · rcases A.promoted' h4 with h4' | ⟨_, rfl, rfl⟩
      · -- an old variable of the model at this path with the new name
        exfalso
        have : ∀ {m : Model} {path : List Name} {k : VarKind} {w : VarInfo} {p : Name}, PromotedAs m path k w p → ∀ {d : Body K F}, m = d.toModel → ∃ e, BAt d path e ∧ w ∈ e.locals.vars k := by
          intro m path k w p hp
          induction hp with
          | here hv => intro d e; cases e; exact ⟨d, .here _, hv⟩
          | up hs _ _ ih =>
            intro d e; cases e
            obtain ⟨sub, q1, q2⟩ := mem_toSubs.1 hs
            obtain ⟨e, q3, q4⟩ := ih q2
            exact ⟨e, .down q1 q3, q4⟩
          | stay hs _ _ ih =>
            intro d e; cases e
            obtain ⟨sub, q1, q2⟩ := mem_toSubs.1 hs
            obtain ⟨e, q3, q4⟩ := ih q2
            exact ⟨e, .down q1 q3, q4⟩
        obtain ⟨d, q1, q2⟩ := this h4' rfl
        obtain ⟨d', _, ⟨_, rfl, _⟩ | ⟨hne, _⟩⟩ := A.method q1
        · refine A.ok0.not_var A.new.fresh.1 w ?_ hw
          cases k with
          | source => exact List.mem_append_left _ q2
          | target => exact List.mem_append_right _ q2
        · exact hne rfl
      · exact Or.inr ⟨rfl, rfl, h4⟩
  · rcases A.promoted' h4 with h4 | ⟨rfl, _⟩
    · exact Or.inl ⟨c, w.name, k, w, g1, live_of_stmts e h2, Named.of_stmts e h3, h4, rfl⟩
    · exact absurd rfl hne

/-- a variable with a name that another variable had before -/
theorem Adding.hasName_old {path path' : List Name} {x : Nat} {k : VarKind} {w : VarInfo} {p : Name} (hp : PromotedAs b.toModel path' k w p) (h : HasName b' path x p) : HasName b path x p := by
  rcases A.hasName' h with h | ⟨_, _, h⟩
  · exact h
  · exact absurd hp (A.clash0 h)

theorem Adding.connections {path : List Name} {c' : Body K F} (hc : BAt b' path c') : ∃ c, BAt b path c ∧ c'.locals.connections = c.locals.connections := by
  obtain ⟨c, g1, ⟨rfl, rfl, rfl⟩ | ⟨_, _, el⟩⟩ := A.method' hc
  · exact ⟨c, g1, A.grew.connections⟩
  · exact ⟨c, g1, by rw [el]⟩

/-- the ends of connections denote what they denoted -/
theorem Adding.ends {path : List Name} {c : Body K F} {s t : Name} (hc : BAt b path c) (hst : (s, t) ∈ c.locals.connections) :
    (∀ p, Denotes b'.toModel (fullName path s) p → Denotes b.toModel (fullName path s) p) ∧ ∀ p, Denotes b'.toModel (fullName path t) p → Denotes b.toModel (fullName path t) p := by
  obtain ⟨p, q, h1, h2, _⟩ := A.valid.connections path c s t hc hst
  exact ⟨fun p' h => A.denotes' h1 h, fun q' h => A.denotes' h2 h⟩

theorem Adding.same {u v : List Name × Nat} (h : Same b' u v) : Relation.EqvGen (Same b) u v := by
  cases h with
  | @name path path' x y p h1 h2 =>
    rcases A.hasName' h1 with g1 | ⟨rfl, rfl, g1⟩
    · obtain ⟨c, name, k, w, _, _, _, hp, _⟩ := id g1
      exact .rel _ _ (.name p g1 (A.hasName_old hp h2))
    · rcases A.hasName' h2 with g2 | ⟨rfl, rfl, _⟩
      · obtain ⟨c, name, k, w, _, _, _, hp, _⟩ := g2
        exact absurd hp (A.clash0 g1)
      · exact .refl _
  | @connection path1 path2 x y path c' s t p q h1 h2 h3 h4 h5 h6 =>
    obtain ⟨c, g1, g2⟩ := A.connections h1
    rw [g2] at h2
    obtain ⟨e1, e2⟩ := A.ends g1 h2
    obtain ⟨_, _, _, hp⟩ := denotes_isPromoted (e1 p h3)
    obtain ⟨_, _, _, hq⟩ := denotes_isPromoted (e2 q h4)
    exact .rel _ _ (.connection path c s t p q g1 h2 (e1 p h3) (e2 q h4) (A.hasName_old hp h5) (A.hasName_old hq h6))
  | @«alias» path x y c' h1 h2 h3 h4 =>
    obtain ⟨c, g1, ⟨rfl, rfl, rfl⟩ | ⟨_, e, _⟩⟩ := A.method' h1
    · have ha := (A.grew.alias A.ok0).1 h4
      rcases A.ok0.alias_lt ha with rfl | ⟨l1, l2⟩
      · exact .refl _
      · rcases A.live' h2 with h2 | rfl
        · rcases A.live' h3 with h3 | rfl
          · exact .rel _ _ (.alias c g1 h2 h3 ha)
          · omega
        · omega
    · exact .rel _ _ (.alias c g1 (live_of_stmts e h2) (live_of_stmts e h3) (e ▸ h4))

theorem Adding.sameAll {u v : List Name × Nat} (h : Relation.EqvGen (Same b') u v) : Relation.EqvGen (Same b) u v := by
  induction h with
  | rel _ _ h => exact A.same h
  | refl _ => exact .refl _
  | symm _ _ _ ih => exact ih.symm
  | trans _ _ _ _ _ h1 h2 => exact h1.trans _ _ _ h2

theorem Adding.unique_at {c : Body K F} (hc : BAt b path0 c) : c = c0 := by
  obtain ⟨_, _, ⟨_, rfl, _⟩ | ⟨hne, _⟩⟩ := A.method hc
  · rfl
  · exact absurd rfl hne

/-- before, the new variable was not the same as another one -/
theorem Adding.alone {u v : List Name × Nat} (h : Relation.EqvGen (Same b) u v) : u = (path0, numVars (c0.stmts 0)) ↔ v = (path0, numVars (c0.stmts 0)) := by
  have hn : ∀ {p}, ¬ HasName b path0 (numVars (c0.stmts 0)) p := by
    rintro p ⟨c, name, k, w, h1, h2, h3, _⟩
    rw [A.unique_at h1] at h3
    exact absurd (A.ok0.named_lt h3) (by omega)
  induction h with
  | rel u v h =>
    cases h with
    | name p h1 h2 => exact ⟨fun e => by cases e; exact absurd h1 hn, fun e => by cases e; exact absurd h2 hn⟩
    | connection path c' s t p q _ _ _ _ h5 h6 => exact ⟨fun e => by cases e; exact absurd h5 hn, fun e => by cases e; exact absurd h6 hn⟩
    | «alias» c' h1 h2 h3 _ =>
      constructor
      · intro e; cases e; rw [A.unique_at h1] at h2; exact absurd (A.ok0.live_lt h2) (by omega)
      · intro e; cases e; rw [A.unique_at h1] at h3; exact absurd (A.ok0.live_lt h3) (by omega)
  | refl _ => exact Iff.rfl
  | symm _ _ _ ih => exact ih.symm
  | trans _ _ _ _ _ h1 h2 => exact h1.trans h2

theorem Adding.given {path : List Name} {x : Nat} (h : GivenVar b path x) : GivenVar b' path x := by
  obtain ⟨⟨c, h1, h2⟩, h3⟩ := h
  obtain ⟨c', g1, _, g3, _⟩ := A.mono h1
  refine ⟨⟨c', g1, g3 h2⟩, fun path' d' n s y k1 k2 k3 k4 k5 k6 k7 => ?_⟩
  have k7 := A.sameAll k7
  obtain ⟨d, j1, ⟨rfl, rfl, rfl⟩ | ⟨_, e, _⟩⟩ := A.method' k1
  · rcases A.grew.has' k2 with k2 | ⟨rfl, rfl⟩ | ⟨_, rfl⟩
    · have := has_bound k2
      rcases A.live' k6 with k6 | rfl
      · exact h3 path' d n s y j1 k2 k3 k4 k5 k6 k7
      · omega
    · simp only [Stmt.count, List.length_singleton] at k5
      obtain rfl : y = numVars (d.stmts 0) := by omega
      have := (A.alone k7).2 rfl
      cases this
      rw [A.unique_at h1] at h2
      exact absurd (A.ok0.live_lt h2) (by omega)
    · exact k3
  · exact h3 path' d n s y j1 (by unfold Body.Has at *; rw [← e]; exact k2) k3 k4 k5 (live_of_stmts e k6) k7

theorem Adding.feeds {q r : List Name × Nat} (h : Feeds b' q r) : (Feeds b q r ∨ r = (path0, numVars (c0.stmts 0))) ∧ q ≠ (path0, numVars (c0.stmts 0)) := by
  obtain ⟨q1, q2⟩ := q
  obtain ⟨r1, r2⟩ := r
  rcases h with ⟨c', n, s, rfl, h2, h3, h4, h5, h6, h7, h8⟩ | ⟨c', name, shape, val, key, rfl, h2, h3, h4⟩
  · obtain ⟨c, g1, ⟨rfl, rfl, rfl⟩ | ⟨hne, e, _⟩⟩ := A.method' h2
    · rcases A.grew.has' h3 with h3 | ⟨rfl, rfl⟩ | ⟨_, rfl⟩
      · have hb := has_bound h3
        have ho := A.ok0.operand_lt h3 h8
        refine ⟨Or.inl (Or.inl ⟨c, n, s, rfl, g1, h3, h4, h5, h6, ?_, h8⟩), by simp only [ne_eq, Prod.mk.injEq, not_and]; intro _; omega⟩
        rcases A.live' h7 with h7 | h7
        · exact h7
        · dsimp only at h6 h7; omega
      · simp only [Stmt.count, List.length_singleton] at h6
        have ho := A.ok0.live_lt (A.live _ h8)
        exact ⟨Or.inr (by simp only [Prod.mk.injEq, true_and]; dsimp only at h5; omega), by simp only [ne_eq, Prod.mk.injEq, not_and]; intro _; omega⟩
      · exact h4.elim
    · refine ⟨Or.inl (Or.inl ⟨c, n, s, rfl, g1, by unfold Body.Has at *; rw [← e]; exact h3, h4, h5, h6, live_of_stmts e h7, h8⟩), ?_⟩
      simp only [ne_eq, Prod.mk.injEq, not_and]
      exact fun h => absurd h hne
  · obtain ⟨c, g1, ⟨rfl, rfl, rfl⟩ | ⟨hne, e, _⟩⟩ := A.method' h2
    · have h4 := (A.grew.assigned A.ok0).1 h4
      rcases A.grew.has' h3 with h3 | ⟨_, h⟩ | ⟨_, h⟩
      · refine ⟨Or.inl (Or.inr ⟨c, name, shape, val, key, rfl, g1, h3, h4⟩), ?_⟩
        obtain ⟨n, z, h5, _⟩ := h4
        have := A.ok0.live_lt (.assigned h5)
        simp only [ne_eq, Prod.mk.injEq, not_and]
        intro _
        dsimp only at this
        omega
      · cases h
      · cases h
    · refine ⟨Or.inl (Or.inr ⟨c, name, shape, val, key, rfl, g1, by unfold Body.Has at *; rw [← e]; exact h3, by unfold Body.Assigned Body.Has at *; rw [← e]; exact h4⟩), ?_⟩
      simp only [ne_eq, Prod.mk.injEq, not_and]
      exact fun h => absurd h hne

theorem Adding.acyclic : ¬ CircularProgram b' := by
  rintro ⟨q, hq⟩
  refine A.valid.acyclic ⟨q, ?_⟩
  have hstep : ∀ {a c : List Name × Nat}, (∃ a', Relation.EqvGen (Same b') a a' ∧ Feeds b' a' c) → a ≠ (path0, numVars (c0.stmts 0)) ∧ ((∃ a', Relation.EqvGen (Same b) a a' ∧ Feeds b a' c) ∨ c = (path0, numVars (c0.stmts 0))) := by
    rintro a c ⟨a', h1, h2⟩
    obtain ⟨g1, g2⟩ := A.feeds h2
    have h1 := A.sameAll h1
    exact ⟨fun e => g2 ((A.alone h1).1 e), g1.imp (fun h => ⟨a', h1, h⟩) id⟩
  have key : ∀ {c : List Name × Nat}, Relation.TransGen (fun a c => ∃ a', Relation.EqvGen (Same b') a a' ∧ Feeds b' a' c) q c →
      Relation.TransGen (fun a c => ∃ a', Relation.EqvGen (Same b) a a' ∧ Feeds b a' c) q c ∨ c = (path0, numVars (c0.stmts 0)) := by
    intro c h
    induction h with
    | single h => exact (hstep h).2.imp (fun h => .single h) id
    | tail _ h ih =>
      obtain ⟨h1, h2⟩ := hstep h
      rcases ih with ih | ih
      · exact h2.imp (fun h => ih.tail h) id
      · exact absurd ih h1
  rcases key hq with h | h
  · exact h
  · obtain ⟨c, h1, _⟩ := Relation.TransGen.head'_iff.1 hq
    exact absurd h (hstep h1).1

theorem Adding.validProgram : ValidProgram b' where
  methods := A.methods
  names := A.names
  oneSource := A.oneSource
  sizes := A.sizes
  promotes := A.promotes
  connections := by
    intro path c' s t hc hst
    obtain ⟨c, g1, g2⟩ := A.connections hc
    rw [g2] at hst
    obtain ⟨p, q, h1, h2, ⟨pp, w, h3⟩, ⟨pq, x, h4⟩, h5, h6⟩ := A.valid.connections path c s t g1 hst
    obtain ⟨_, _, _, _, _, _, _, hq, _⟩ := id h4
    refine ⟨p, q, A.denotes h1, A.denotes h2, ⟨pp, w, A.promoted h3⟩, ⟨pq, x, A.hasName h4⟩, fun path' d' w hd hw hp => ?_, fun k path1 w k' path2 w' k1 k2 => ?_⟩
    · rcases A.promoted' hp with hp' | ⟨rfl, _, rfl⟩
      · obtain ⟨d, j1, ⟨rfl, rfl, rfl⟩ | ⟨_, _, el⟩⟩ := A.method' hd
        · rw [A.grew.localOutputs A.ok0, List.mem_append, List.mem_singleton] at hw
          rcases hw with hw | rfl
          · exact h5 path' d w j1 hw hp'
          · exact A.clash0 hp hq
        · rw [el] at hw
          exact h5 path' d w j1 hw hp'
      · exact A.clash0 hp hq
    · rcases A.promoted' k1 with k1 | ⟨rfl, rfl, rfl⟩
      · rcases A.promoted' k2 with k2 | ⟨rfl, rfl, rfl⟩
        · exact h6 k path1 w k' path2 w' k1 k2
        · exact absurd hq (A.clash0 k2)
      · exact absurd h3 (A.clash0 k1)
  oneConnection := by
    rw [A.rep.issuedAll A.grew.toSubs A.grew.connections.symm]
    refine List.Pairwise.imp_of_mem ?_ A.valid.oneConnection
    intro i j hi hj h q h1 h2
    obtain ⟨c, k1, k2⟩ := issued_at hi
    obtain ⟨d, k3, k4⟩ := issued_at hj
    exact h q ((A.ends k1 k2).2 q h1) ((A.ends k3 k4).2 q h2)
  noChain := by
    unfold NoChain
    rw [A.rep.issuedAll A.grew.toSubs A.grew.connections.symm]
    refine ⟨fun i hi p h1 h2 => ?_, List.Pairwise.imp_of_mem ?_ A.valid.noChain.2⟩
    · obtain ⟨c, k1, k2⟩ := issued_at hi
      exact A.valid.noChain.1 i hi p ((A.ends k1 k2).1 p h1) ((A.ends k1 k2).2 p h2)
    · intro i j hi hj h q h1 h2
      obtain ⟨c, k1, k2⟩ := issued_at hi
      obtain ⟨d, k3, k4⟩ := issued_at hj
      exact h q ((A.ends k3 k4).1 q h1) ((A.ends k1 k2).2 q h2)
  acyclic := A.acyclic

theorem Adding.assigns (h : b'.Assigns) : b.Assigns := by
  obtain ⟨path, c', n, z, key, x, h1, h2⟩ := h
  obtain ⟨c, g1, ⟨rfl, rfl, rfl⟩ | ⟨_, e, _⟩⟩ := A.method' h1
  · rcases A.grew.has' h2 with h2 | ⟨_, h⟩ | ⟨_, h⟩
    · exact ⟨path, c, n, z, key, x, g1, h2⟩
    · cases h
    · cases h
  · exact ⟨path, c, n, z, key, x, g1, by unfold Body.Has at *; rw [← e]; exact h2⟩

end adding

theorem Adding.solution [Field K] {f : F} {args : List Nat} {sh : Shape} {nm : Name} {c0 c0' b b' : Body K F} {path0 : List Name} (A : Adding f args sh nm c0 c0' b path0 b')
    {P : Power K} {den : F → List (Val K) → Nat → Val K} {ρ : List Name → Nat → Val K} (h : Solution P den b' ρ) : Solution P den b ρ where
  expr := by
    intro path c hc n i h1 h2
    obtain ⟨c', g1, g2, g3, _⟩ := A.mono hc
    exact h.expr path c' g1 n i (g2 h1) (g3 h2)
  call := by
    intro path c hc n f' args' outs h1 j hj h2
    obtain ⟨c', g1, g2, g3, _⟩ := A.mono hc
    exact h.call path c' g1 n f' args' outs (g2 h1) j hj (g3 h2)
  index := by
    intro path c hc n x key h1 h2
    obtain ⟨c', g1, g2, g3, _, _, _, _, g8⟩ := A.mono hc
    have hm := A.valid.methods path c hc
    rw [h.index path c' g1 n x key (g2 h1) (g3 h2), g8 (by have := hm.operand_lt h1 (y := x) (by simp [Stmt.operands]); have := has_bound h1; omega)]
  output := by
    intro path c hc y name shape val h1
    obtain ⟨c', g1, g2, _, _, _, g6, _⟩ := A.mono hc
    obtain ⟨k1, k2⟩ := h.output path c' g1 y name shape val (g2 h1)
    exact ⟨fun key x idx shp ha => k1 key x idx shp (g6.2 ha), fun i hi => k2 i fun key x idx shp ha => hi key x idx shp (g6.1 ha)⟩
  shared := fun path x path' y p h1 h2 => h.shared path x path' y p (A.hasName h1) (A.hasName h2)
  connected := by
    intro path c hc s t p q hst hp hq path1 x path2 y h1 h2
    obtain ⟨c', g1, _, _, _, g5, _⟩ := A.mono hc
    exact h.connected path c' g1 s t p q (g5 ▸ hst) (A.denotes hp) (A.denotes hq) path1 x path2 y (A.hasName h1) (A.hasName h2)

end Csdl.Prog
