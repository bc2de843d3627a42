import Verif.Spec.Dead
import Verif.Proofs.Refactor3
import Verif.Proofs.Print4
/-
Computations whose results are not used (C102): two programs that look the same in everything that matters have the same solutions.
-/
namespace Csdl.Prog
open Csdl Csdl.Arith
variable {K F : Type}

/-- what matters in the method `d` is also there, and the same, in the method `d'` -/
structure Looks (d d' : Body K F) : Prop where
  live : ∀ {x}, d.Live x → d'.Live x
  named : ∀ {x name}, d.Named x name → d'.Named x name
  assigned : ∀ {y name shape val key x}, d.Has y (.output name shape val) → d.Assigned y key x → d'.Assigned y key x
  has : ∀ {n s y}, d.Has n s → n ≤ y → y < n + s.count → d.Live y → d'.Has n s
  output : ∀ {n name shape val}, d.Has n (.output name shape val) → d'.Has n (.output name shape val)
  aliases : ∀ {x y}, d.Live x → d.Live y → Alias (d.stmts 0) x y → Alias (d'.stmts 0) x y
  shape : ∀ {n x k}, d.Has n (.index x k) → d.Live n → d'.shapes.getD x [] = d.shapes.getD x []
  locals : d.locals = d'.locals

theorem Looks.of_stmts {d d' : Body K F} (e : d.stmts 0 = d'.stmts 0) : Looks d d' where
  live := live_of_stmts e
  named := Named.of_stmts e
  assigned := fun _ ⟨n, z, h1, h2⟩ => ⟨n, z, by unfold Body.Has at *; rw [← e]; exact h1, e ▸ h2⟩
  has := fun h _ _ _ => by unfold Body.Has at *; rw [← e]; exact h
  output := fun h => by unfold Body.Has at *; rw [← e]; exact h
  aliases := fun _ _ h => e ▸ h
  shape := fun _ _ => by unfold Body.shapes; rw [e]
  locals := by simp only [Body.locals, Body.shapes, e]

/-- what matters in the program `b` is also there, and the same, in the program `b'` -/
structure Alike (b b' : Body K F) : Prop where
  model : b.toModel = b'.toModel
  methods : ∀ {path d}, BAt b path d → ∃ d', BAt b' path d' ∧ Looks d d' ∧ Looks d' d

section
variable {b b' : Body K F} (A : Alike b b')
include A

theorem Alike.hasName {path : List Name} {x : Nat} {p : Name} (h : HasName b path x p) : HasName b' path x p := by
  obtain ⟨d, name, k, w, h1, h2, h3, h4, h5⟩ := h
  obtain ⟨d', g1, g2, _⟩ := A.methods h1
  exact ⟨d', name, k, w, g1, g2.live h2, g2.named h3, A.model ▸ h4, h5⟩

theorem Alike.same {e f : List Name × Nat} (h : Same b e f) : Same b' e f := by
  cases h with
  | name p h1 h2 => exact .name p (A.hasName h1) (A.hasName h2)
  | connection path d s t p p' h1 h2 h3 h4 h5 h6 =>
    obtain ⟨d', g1, g2, _⟩ := A.methods h1
    exact .connection path d' s t p p' g1 (g2.locals ▸ h2) (A.model ▸ h3) (A.model ▸ h4) (A.hasName h5) (A.hasName h6)
  | «alias» d h1 h2 h3 h4 =>
    obtain ⟨d', g1, g2, _⟩ := A.methods h1
    exact .alias d' g1 (g2.live h2) (g2.live h3) (g2.aliases h2 h3 h4)

theorem Alike.sameAll {e f : List Name × Nat} (h : Relation.EqvGen (Same b) e f) : Relation.EqvGen (Same b') e f := by
  induction h with
  | rel _ _ h => exact .rel _ _ (A.same h)
  | refl _ => exact .refl _
  | symm _ _ _ ih => exact .symm _ _ ih
  | trans _ _ _ _ _ ih1 ih2 => exact .trans _ _ _ ih1 ih2

theorem Alike.feeds {e f : List Name × Nat} (h : Feeds b e f) : Feeds b' e f := by
  rcases h with ⟨d, n, s, h1, h2, h3, h4, h5, h6, h7, h8⟩ | ⟨d, name, shape, val, key, h1, h2, h3, h4⟩
  · obtain ⟨d', g1, g2, _⟩ := A.methods h2
    exact Or.inl ⟨d', n, s, h1, g1, g2.has h3 h5 h6 h7, h4, h5, h6, g2.live h7, h8⟩
  · obtain ⟨d', g1, g2, _⟩ := A.methods h2
    exact Or.inr ⟨d', name, shape, val, key, h1, g1, g2.output h3, g2.assigned h3 h4⟩

theorem Alike.circular (h : CircularProgram b) : CircularProgram b' := by
  obtain ⟨q, h⟩ := h
  refine ⟨q, ?_⟩
  have : ∀ q q', Relation.TransGen (fun a c => ∃ a', Relation.EqvGen (Same b) a a' ∧ Feeds b a' c) q q' → Relation.TransGen (fun a c => ∃ a', Relation.EqvGen (Same b') a a' ∧ Feeds b' a' c) q q' := by
    intro q q' h
    induction h with
    | single h => obtain ⟨a, h1, h2⟩ := h; exact .single ⟨a, A.sameAll h1, A.feeds h2⟩
    | tail _ h ih => obtain ⟨a, h1, h2⟩ := h; exact .tail ih ⟨a, A.sameAll h1, A.feeds h2⟩
  exact this q q h

theorem Alike.given (A' : Alike b' b) {path : List Name} {x : Nat} (h : GivenVar b path x) : GivenVar b' path x := by
  obtain ⟨⟨d, h1, h2⟩, h3⟩ := h
  obtain ⟨d', g1, g2, _⟩ := A.methods h1
  refine ⟨⟨d', g1, g2.live h2⟩, fun path' e' n s y k1 k2 k3 k4 k5 k6 k7 => ?_⟩
  obtain ⟨e, j1, j2, _⟩ := A'.methods k1
  exact h3 path' e n s y j1 (j2.has k2 k4 k5 k6) k3 k4 k5 (j2.live k6) (A'.sameAll k7)

theorem Alike.solution [Field K] {P : Power K} {den : F → List (Val K) → Nat → Val K} {ρ : List Name → Nat → Val K} (h : Prog.Solution P den b' ρ) : Prog.Solution P den b ρ where
  expr := fun path d hd n i hi hl => by
    obtain ⟨d', g1, g2, _⟩ := A.methods hd
    exact h.expr _ _ g1 n i (g2.has hi le_rfl (by simp [Stmt.count]) hl) (g2.live hl)
  call := fun path d hd n f args outs hi j hj hl => by
    obtain ⟨d', g1, g2, _⟩ := A.methods hd
    exact h.call _ _ g1 n f args outs (g2.has hi (Nat.le_add_right n j) (by simpa [Stmt.count] using hj) hl) j hj (g2.live hl)
  index := fun path d hd n x key hi hl => by
    obtain ⟨d', g1, g2, _⟩ := A.methods hd
    rw [← g2.shape hi hl]
    exact h.index _ _ g1 n x key (g2.has hi le_rfl (by simp [Stmt.count]) hl) (g2.live hl)
  output := fun path d hd y name shape val hi => by
    obtain ⟨d', g1, g2, g3⟩ := A.methods hd
    have := h.output _ _ g1 y name shape val (g2.output hi)
    exact ⟨fun key x idx shp hx => this.1 key x idx shp (g2.assigned hi hx), fun i hj => this.2 i fun key x idx shp hx => hj key x idx shp (g3.assigned (g2.output hi) hx)⟩
  shared := fun path x path' y p h1 h2 => h.shared _ _ _ _ _ (A.hasName h1) (A.hasName h2)
  connected := fun path d hd s t p q hm h1 h2 path1 x path2 y h3 h4 => by
    obtain ⟨d', g1, g2, _⟩ := A.methods hd
    exact h.connected _ _ g1 s t p q (g2.locals ▸ hm) (A.model ▸ h1) (A.model ▸ h2) _ _ _ _ (A.hasName h3) (A.hasName h4)

end

/-- if one method is replaced by one that looks the same, the programs are alike -/
theorem alike_of_replaced [Zero K] {c c' b b' : Body K F} {q : List Name} (hv : NamesValid b) (h : Replaced c c' b q b') (h1 : Looks c c') (h2 : Looks c' c) (hs : c.subs = c'.subs) (hm : MethodOk c') :
    Alike b b' ∧ Alike b' b ∧ NamesValid b' := by
  have hi : SameInterface c c' := ⟨h1.locals, hs, fun name => ⟨fun ⟨x, g1, g2⟩ => ⟨x, h1.live g1, h1.named g2⟩, fun ⟨x, g1, g2⟩ => ⟨x, h2.live g1, h2.named g2⟩⟩⟩
  have hv' := hv.replaced h hi hm
  have R : Refactored c c' b q b' := ⟨hv, hv', h, hi⟩
  have key : ∀ {c c' b b' : Body K F}, Refactored c c' b q b' → Looks c c' → Looks c' c → Alike b b' := by
    intro c c' b b' R h1 h2
    refine ⟨R.toModel, fun {path d} hd => ?_⟩
    by_cases hp : path = q
    · subst hp
      rw [R.atq hd]
      exact ⟨c', R.step.symm.bat, h1, h2⟩
    · obtain ⟨d', k1, k2⟩ := R.other hd hp
      exact ⟨d', k1, .of_stmts k2, .of_stmts k2.symm⟩
  exact ⟨key R h1 h2, key R.symm h2 h1, hv'⟩

theorem ValidProgram.alike [Zero K] {c c' b b' : Body K F} {q : List Name} (hv : ValidProgram b) (h : Replaced c c' b q b') (h1 : Looks c c') (h2 : Looks c' c) (hs : c.subs = c'.subs) (hm : MethodOk c') : ValidProgram b' := by
  obtain ⟨A, A', hv'⟩ := alike_of_replaced hv.namesValid h h1 h2 hs hm
  have hi : SameInterface c c' := ⟨h1.locals, hs, fun name => ⟨fun ⟨x, g1, g2⟩ => ⟨x, h1.live g1, h1.named g2⟩, fun ⟨x, g1, g2⟩ => ⟨x, h2.live g1, h2.named g2⟩⟩⟩
  have R : Refactored c c' b q b' := ⟨hv.namesValid, hv', h, hi⟩
  refine ⟨hv'.methods, hv'.names, hv'.oneSource, hv'.sizes, hv'.promotes, fun path d s t hd hst => ?_, ?_, ?_, fun hc => hv.acyclic (A'.circular hc)⟩
  · obtain ⟨d', k1, k2⟩ := R.symm.locals hd
    exact R.connectionOk (hv.connections path d' s t k1 (k2 ▸ hst))
  · rw [← R.toModel]
    exact hv.oneConnection
  · rw [← R.toModel]
    exact hv.noChain

end Csdl.Prog
