import Verif.Spec.InputDeclared
import Verif.Proofs.Join2
import Verif.Props.Defaults
/-
Declaring a variable that was an input.
-/
namespace Csdl.Prog
open Csdl Csdl.Arith
variable {K F : Type}

/-- statements create variables with different numbers -/
theorem stmts_apart : ∀ (b : Body K F) (m : Nat), (b.stmts m).Pairwise (fun a c => a.1 + a.2.count ≤ c.1) ∧ ∀ a ∈ b.stmts m, m ≤ a.1
  | .done, m => ⟨.nil, by simp [Body.stmts]⟩
  | .add _ _ _ _ r, m => stmts_apart r m
  | .stmt s r, m => by
    obtain ⟨h1, h2⟩ := stmts_apart r (m + s.count)
    refine ⟨List.pairwise_cons.2 ⟨fun a ha => h2 a ha, h1⟩, fun a ha => ?_⟩
    rcases List.mem_cons.1 ha with rfl | ha
    · exact Nat.le_refl _
    · exact (Nat.le_add_right _ _).trans (h2 a ha)

theorem pairwise_cases {L : List (Nat × Stmt K F)} (h : L.Pairwise fun a c => a.1 + a.2.count ≤ c.1) {a c : Nat × Stmt K F} (ha : a ∈ L) (hc : c ∈ L) : a = c ∨ a.1 + a.2.count ≤ c.1 ∨ c.1 + c.2.count ≤ a.1 := by
  induction L with
  | nil => cases ha
  | cons x L ih =>
    obtain ⟨h1, h2⟩ := List.pairwise_cons.1 h
    rcases List.mem_cons.1 ha with ea | ha <;> rcases List.mem_cons.1 hc with ec | hc
    · exact Or.inl (ea.trans ec.symm)
    · exact Or.inr (Or.inl (ea ▸ h1 _ hc))
    · exact Or.inr (Or.inr (ec ▸ h1 _ ha))
    · exact ih h2 ha hc

theorem forall2_left {α β : Type} {R : α → β → Prop} {L : List α} {L' : List β} (h : List.Forall₂ R L L') {a : α} (ha : a ∈ L) : ∃ c ∈ L', R a c := by
  induction h with
  | nil => cases ha
  | cons h _ ih =>
    rcases List.mem_cons.1 ha with rfl | ha
    · exact ⟨_, List.mem_cons_self .., h⟩
    · obtain ⟨c, h1, h2⟩ := ih ha
      exact ⟨c, List.mem_cons_of_mem _ h1, h2⟩

theorem stmt_of_number {b : Body K F} {n m y : Nat} {s s' : Stmt K F} (h1 : b.Has n s) (h2 : b.Has m s') (a1 : n ≤ y) (a2 : y < n + s.count) (c1 : m ≤ y) (c2 : y < m + s'.count) : n = m ∧ s = s' := by
  have key : (n, s) = (m, s') ∨ n + s.count ≤ m ∨ m + s'.count ≤ n := pairwise_cases (stmts_apart b 0).1 h1 h2
  rcases key with h | h | h
  · exact Prod.mk.inj h
  · exact absurd (h.trans c1) (by omega)
  · exact absurd (h.trans a1) (by omega)

theorem plainOf_eq (L : List (Nat × Stmt K F)) : plainOf L = L.filter fun s => s.2.notConnect := by
  unfold plainOf
  congr 1

/-- the statement creates an input or declares a variable -/
def Stmt.isNamed : Stmt K F → Bool
  | .input _ _ _ | .declare _ _ _ => true
  | _ => false

section one
variable {c c' : Body K F} (h : DeclaresInputs c c')
include h

theorem DeclaresInputs.plain : List.Forall₂ (fun s s' : Nat × Stmt K F => s.1 = s'.1 ∧ Stmt.MayDeclare s.2 s'.2) (plainOf (c.stmts 0)) (plainOf (c'.stmts 0)) := by
  rw [plainOf_eq, plainOf_eq]; exact h

theorem DeclaresInputs.to {n : Nat} {s : Stmt K F} (hs : s.plain = true) (hh : c.Has n s) : ∃ s', c'.Has n s' ∧ Stmt.MayDeclare s s' := by
  obtain ⟨⟨m, s'⟩, h1, h2, h3⟩ := forall2_left h.plain (mem_plainOf.2 ⟨hh, hs⟩)
  obtain rfl : n = m := h2
  exact ⟨s', (mem_plainOf.1 h1).1, h3⟩

theorem DeclaresInputs.from {n : Nat} {s' : Stmt K F} (hs : s'.plain = true) (hh : c'.Has n s') : ∃ s, c.Has n s ∧ Stmt.MayDeclare s s' := by
  obtain ⟨⟨m, s⟩, h1, h2, h3⟩ := forall2_left h.plain.flip (mem_plainOf.2 ⟨hh, hs⟩)
  obtain rfl : m = n := h2
  exact ⟨s, (mem_plainOf.1 h1).1, h3⟩

theorem DeclaresInputs.has {n : Nat} {s : Stmt K F} (hs : s.plain = true) (hn : s.isNamed = false) : c.Has n s ↔ c'.Has n s := by
  constructor <;> intro hh
  · obtain ⟨s', h1, rfl | ⟨_, _, _, _, rfl, _⟩⟩ := h.to hs hh
    · exact h1
    · cases hn
  · obtain ⟨s', h1, rfl | ⟨_, _, _, _, _, rfl⟩⟩ := h.from hs hh
    · exact h1
    · cases hn

theorem DeclaresInputs.shapes : c.shapes = c'.shapes := by
  rw [Body.shapes, Body.shapes, ← shapesOf_plain, ← shapesOf_plain (c'.stmts 0)]
  have key : ∀ {L L' : List (Nat × Stmt K F)}, List.Forall₂ (fun s s' : Nat × Stmt K F => s.1 = s'.1 ∧ Stmt.MayDeclare s.2 s'.2) L L' → ∀ ss : List Shape,
      L.foldl (fun ss s => stepShapes ss s.2) ss = L'.foldl (fun ss s => stepShapes ss s.2) ss := by
    intro L L' hL
    induction hL with
    | nil => intro ss; rfl
    | @cons x y L L' hx _ ih =>
      intro ss
      obtain ⟨n, s⟩ := x
      obtain ⟨m, s'⟩ := y
      rcases hx.2 with e | ⟨_, _, _, _, e1, e2⟩
      · obtain rfl : s' = s := e
        exact ih _
      · obtain rfl : s = _ := e1
        obtain rfl : s' = _ := e2
        exact ih _
  exact key h.plain []

theorem DeclaresInputs.outputs : (c.stmts 0).filterMap outputOf = (c'.stmts 0).filterMap outputOf := by
  rw [← filterMap_plain outputOf (fun _ _ _ => rfl), ← filterMap_plain outputOf (fun _ _ _ => rfl) (c'.stmts 0)]
  have key : ∀ {L L' : List (Nat × Stmt K F)}, List.Forall₂ (fun s s' : Nat × Stmt K F => s.1 = s'.1 ∧ Stmt.MayDeclare s.2 s'.2) L L' → L.filterMap outputOf = L'.filterMap outputOf := by
    intro L L' hL
    induction hL with
    | nil => rfl
    | @cons x y L L' hx _ ih =>
      obtain ⟨n, s⟩ := x
      obtain ⟨m, s'⟩ := y
      obtain rfl : n = m := hx.1
      rcases hx.2 with e | ⟨_, _, _, _, e1, e2⟩
      · obtain rfl : s' = s := e
        rw [List.filterMap_cons, List.filterMap_cons, ih]
      · obtain rfl : s = _ := e1
        obtain rfl : s' = _ := e2
        exact ih
  exact key h.plain

theorem DeclaresInputs.alias {x y : Nat} : Alias (c.stmts 0) x y ↔ Alias (c'.stmts 0) x y := by
  have hsh : shapesOf (c.stmts 0) = shapesOf (c'.stmts 0) := h.shapes
  constructor <;> intro ha
  · induction ha with
    | refl x => exact .refl x
    | symm _ ih => exact .symm ih
    | trans _ _ h1 h2 => exact .trans h1 h2
    | plus hx => exact .plus ((h.has rfl rfl).1 hx)
    | part h1 h2 _ h3 ih => exact .part ((h.has rfl rfl).1 h1) ((h.has rfl rfl).1 h2) ih (hsh ▸ h3)
  · induction ha with
    | refl x => exact .refl x
    | symm _ ih => exact .symm ih
    | trans _ _ h1 h2 => exact .trans h1 h2
    | plus hx => exact .plus ((h.has rfl rfl).2 hx)
    | part h1 h2 _ h3 ih => exact .part ((h.has rfl rfl).2 h1) ((h.has rfl rfl).2 h2) ih (hsh.symm ▸ h3)

theorem DeclaresInputs.assigned {y : Nat} {key : Key} {x : Nat} : c.Assigned y key x ↔ c'.Assigned y key x := by
  constructor
  · rintro ⟨n, z, h1, h2⟩; exact ⟨n, z, (h.has rfl rfl).1 h1, h.alias.1 h2⟩
  · rintro ⟨n, z, h1, h2⟩; exact ⟨n, z, (h.has rfl rfl).2 h1, h.alias.2 h2⟩

omit h in
theorem named_cases {x : Nat} {name : Name} (hx : c.Named x name) : (∃ s : Stmt K F, c.Has x s ∧ s.isNamed = true) ∨ (x, name) ∈ (c.stmts 0).filterMap outputOf := by
  rcases hx with ⟨sh, hx | hx⟩ | hx
  · obtain ⟨⟨n, s⟩, h1, h2⟩ := List.mem_filterMap.1 hx
    cases s <;> simp only [inputOf, reduceCtorEq, Option.some.injEq, Prod.mk.injEq] at h2
    obtain ⟨rfl, _, _⟩ := h2
    exact Or.inl ⟨_, h1, rfl⟩
  · obtain ⟨⟨n, s⟩, h1, h2⟩ := List.mem_filterMap.1 hx
    cases s <;> simp only [declaredOf, reduceCtorEq, Option.some.injEq, Prod.mk.injEq] at h2
    obtain ⟨rfl, _, _⟩ := h2
    exact Or.inl ⟨_, h1, rfl⟩
  · exact Or.inr hx

theorem DeclaresInputs.named {x : Nat} {name : Name} : c.Named x name ↔ c'.Named x name := by
  constructor
  · rintro (⟨sh, hx | hx⟩ | hx)
    · obtain ⟨⟨n, s⟩, h1, h2⟩ := List.mem_filterMap.1 hx
      cases s <;> simp only [inputOf, reduceCtorEq, Option.some.injEq, Prod.mk.injEq] at h2
      obtain ⟨rfl, rfl, rfl⟩ := h2
      obtain ⟨s', h3, rfl | ⟨_, _, _, _, e, rfl⟩⟩ := h.to rfl h1
      · exact Or.inl ⟨_, Or.inl (List.mem_filterMap.2 ⟨_, h3, rfl⟩)⟩
      · cases e
        exact Or.inl ⟨_, Or.inr (List.mem_filterMap.2 ⟨_, h3, rfl⟩)⟩
    · obtain ⟨⟨n, s⟩, h1, h2⟩ := List.mem_filterMap.1 hx
      cases s <;> simp only [declaredOf, reduceCtorEq, Option.some.injEq, Prod.mk.injEq] at h2
      obtain ⟨rfl, rfl, rfl⟩ := h2
      obtain ⟨s', h3, rfl | ⟨_, _, _, _, e, rfl⟩⟩ := h.to rfl h1
      · exact Or.inl ⟨_, Or.inr (List.mem_filterMap.2 ⟨_, h3, rfl⟩)⟩
      · cases e
    · exact Or.inr (h.outputs ▸ hx)
  · rintro (⟨sh, hx | hx⟩ | hx)
    · obtain ⟨⟨n, s⟩, h1, h2⟩ := List.mem_filterMap.1 hx
      cases s <;> simp only [inputOf, reduceCtorEq, Option.some.injEq, Prod.mk.injEq] at h2
      obtain ⟨rfl, rfl, rfl⟩ := h2
      obtain ⟨s', h3, e | ⟨_, _, _, _, _, e⟩⟩ := h.from rfl h1
      · subst e
        exact Or.inl ⟨_, Or.inl (List.mem_filterMap.2 ⟨_, h3, rfl⟩)⟩
      · cases e
    · obtain ⟨⟨n, s⟩, h1, h2⟩ := List.mem_filterMap.1 hx
      cases s <;> simp only [declaredOf, reduceCtorEq, Option.some.injEq, Prod.mk.injEq] at h2
      obtain ⟨rfl, rfl, rfl⟩ := h2
      obtain ⟨s', h3, e | ⟨_, _, _, _, e', e⟩⟩ := h.from rfl h1
      · subst e
        exact Or.inl ⟨_, Or.inr (List.mem_filterMap.2 ⟨_, h3, rfl⟩)⟩
      · cases e
        subst e'
        exact Or.inl ⟨_, Or.inl (List.mem_filterMap.2 ⟨_, h3, rfl⟩)⟩
    · exact Or.inr (h.outputs ▸ hx)

/-- what matters in the second matters in the first -/
theorem DeclaresInputs.live' {x : Nat} (hl : c'.Live x) : c.Live x := by
  have back : ∀ {n : Nat} {s' : Stmt K F} {y : Nat}, c'.Has n s' → n ≤ y → y < n + s'.count → ∃ s, c.Has n s ∧ s.count = s'.count ∧ s.operands = s'.operands := by
    intro n s' y h1 h2 h3
    have hp : s'.plain = true := by cases s' <;> first | rfl | (simp only [Stmt.count] at h3; omega)
    obtain ⟨s, h4, e | ⟨_, _, _, _, e', e⟩⟩ := h.from hp h1
    · subst e; exact ⟨_, h4, rfl, rfl⟩
    · subst e e'; exact ⟨_, h4, rfl, rfl⟩
  induction hl with
  | input h0 =>
    obtain ⟨⟨n, s⟩, h1, h2⟩ := List.mem_filterMap.1 h0
    cases s <;> simp only [inputOf, reduceCtorEq, Option.some.injEq, Prod.mk.injEq] at h2
    obtain ⟨rfl, rfl, rfl⟩ := h2
    obtain ⟨s', h3, e | ⟨_, _, _, _, _, e⟩⟩ := h.from rfl h1
    · subst e; exact .input (List.mem_filterMap.2 ⟨_, h3, rfl⟩)
    · cases e
  | output h1 => exact .output (h.outputs ▸ h1)
  | operand _ h1 h2 h3 h4 ih =>
    obtain ⟨s, g1, g2, g3⟩ := back h1 h2 h3
    exact .operand ih g1 h2 (g2 ▸ h3) (g3 ▸ h4)
  | result _ h1 h2 h3 h4 h5 ih =>
    obtain ⟨s, g1, g2, g3⟩ := back h1 h2 h3
    exact .result ih g1 h2 (g2 ▸ h3) h4 (g2 ▸ h5)
  | part _ h1 h2 h3 ih => exact .part ih ((h.has rfl rfl).2 h1) ((h.has rfl rfl).2 h2) (h.alias.2 h3)
  | assigned h1 => exact .assigned ((h.has rfl rfl).2 h1)
  | same _ h1 h2 ih => exact .same ih (h.named.2 h1) (h.named.2 h2)

/-- what matters in the first matters in the second, or is an input or declared -/
theorem DeclaresInputs.live {x : Nat} (hl : c.Live x) : c'.Live x ∨ ∃ s : Stmt K F, c.Has x s ∧ s.isNamed = true := by
  have one : ∀ {s : Stmt K F}, s.isNamed = true → s.count = 1 ∧ s.operands = [] := fun {s} hs => by cases s <;> first | exact ⟨rfl, rfl⟩ | cases hs
  have uniq : ∀ {y n : Nat} {s0 s : Stmt K F}, c.Has y s0 → s0.isNamed = true → c.Has n s → n ≤ y → y < n + s.count → n = y ∧ s = s0 := fun h0 hn h1 h2 h3 =>
    stmt_of_number h1 h0 h2 h3 (Nat.le_refl _) (by rw [(one hn).1]; omega)
  have fwd : ∀ {n : Nat} {s : Stmt K F} {y : Nat}, c.Has n s → n ≤ y → y < n + s.count → ∃ s', c'.Has n s' ∧ s.count = s'.count ∧ s.operands = s'.operands := by
    intro n s y h1 h2 h3
    have hp : s.plain = true := by cases s <;> first | rfl | (simp only [Stmt.count] at h3; omega)
    obtain ⟨s', h4, e | ⟨_, _, _, _, e', e⟩⟩ := h.to hp h1
    · subst e; exact ⟨_, h4, rfl, rfl⟩
    · subst e e'; exact ⟨_, h4, rfl, rfl⟩
  induction hl with
  | input h0 =>
    obtain ⟨⟨n, s⟩, h1, h2⟩ := List.mem_filterMap.1 h0
    cases s <;> simp only [inputOf, reduceCtorEq, Option.some.injEq, Prod.mk.injEq] at h2
    obtain ⟨rfl, rfl, rfl⟩ := h2
    exact Or.inr ⟨_, h1, rfl⟩
  | output h1 => exact Or.inl (.output (h.outputs ▸ h1))
  | operand _ h1 h2 h3 h4 ih =>
    rcases ih with ih | ⟨s0, i1, i2⟩
    · obtain ⟨s, g1, g2, g3⟩ := fwd h1 h2 h3
      exact Or.inl (.operand ih g1 h2 (g2 ▸ h3) (g3 ▸ h4))
    · obtain ⟨rfl, rfl⟩ := uniq i1 i2 h1 h2 h3
      rw [(one i2).2] at h4
      cases h4
  | result _ h1 h2 h3 h4 h5 ih =>
    rcases ih with ih | ⟨s0, i1, i2⟩
    · obtain ⟨s, g1, g2, g3⟩ := fwd h1 h2 h3
      exact Or.inl (.result ih g1 h2 (g2 ▸ h3) h4 (g2 ▸ h5))
    · obtain ⟨e1, e2⟩ := uniq i1 i2 h1 h2 h3
      rw [e2, (one i2).1] at h5
      refine Or.inr ⟨_, ?_, i2⟩
      convert i1 using 1
      omega
  | part _ h1 h2 h3 ih =>
    rcases ih with ih | ⟨s0, i1, i2⟩
    · exact Or.inl (.part ih ((h.has rfl rfl).1 h1) ((h.has rfl rfl).1 h2) (h.alias.1 h3))
    · obtain ⟨_, rfl⟩ := uniq i1 i2 h1 (Nat.le_refl _) (by simp [Stmt.count])
      cases i2
  | assigned h1 => exact Or.inl (.assigned ((h.has rfl rfl).1 h1))
  | same _ h1 h2 ih =>
    rcases named_cases h2 with g | g
    · exact Or.inr g
    · exact Or.inl (.output (h.outputs ▸ g))

end one

theorem computes_not_named {s : Stmt K F} (h : s.Computes) : s.isNamed = false := by cases s <;> first | rfl | exact h.elim

/-- values that solve the program with inputs solve the program that declares them -/
theorem DeclaringMethods.solution [Field K] {P : Power K} {den : F → List (Val K) → Nat → Val K} {ρ : List Name → Nat → Val K} {b b' : Body K F} (h : DeclaringMethods b b') (hs : Solution P den b ρ)
    (hj : ∀ u v, Same b' u v → ρ u.1 u.2 = ρ v.1 v.2) : Solution P den b' ρ where
  expr := by
    intro path c hc n i hn hl
    obtain ⟨c', h1, h2⟩ := h.2 path c hc
    exact hs.expr path c' h1 n i ((h2.has rfl rfl).2 hn) (h2.live' hl)
  call := by
    intro path c hc n f args outs hn j hj hl
    obtain ⟨c', h1, h2⟩ := h.2 path c hc
    exact hs.call path c' h1 n f args outs ((h2.has rfl rfl).2 hn) j hj (h2.live' hl)
  index := by
    intro path c hc n x key hn hl
    obtain ⟨c', h1, h2⟩ := h.2 path c hc
    rw [← h2.shapes]
    exact hs.index path c' h1 n x key ((h2.has rfl rfl).2 hn) (h2.live' hl)
  output := by
    intro path c hc y name shape val hn
    obtain ⟨c', h1, h2⟩ := h.2 path c hc
    obtain ⟨h3, h4⟩ := hs.output path c' h1 y name shape val ((h2.has rfl rfl).2 hn)
    exact ⟨fun key x idx shp ha => h3 key x idx shp (h2.assigned.2 ha), fun i hi => h4 i fun key x idx shp ha => hi key x idx shp (h2.assigned.1 ha)⟩
  shared := fun path x path' y p h1 h2 => hj (path, x) (path', y) (.name p h1 h2)
  connected := fun path c hc s t p q hst hp hq path1 x path2 y h1 h2 => hj (path1, x) (path2, y) (.connection path c s t p q hc hst hp hq h1 h2)

theorem DeclaringMethods.given {b b' : Body K F} (h : DeclaringMethods b b') (hj : SameJoinsOfLive b b') {path : List Name} {x : Nat} (hg : GivenVar b' path x) : GivenVar b path x := by
  obtain ⟨⟨c', h1, h2⟩, h3⟩ := hg
  obtain ⟨c, h4, h5⟩ := h.2 path c' h1
  refine ⟨⟨c, h4, h5.live' h2⟩, fun path' d n s y hd hn hcm h6 h7 hl he => ?_⟩
  obtain ⟨d', h8, h9⟩ := h.1 path' d hd
  have hl' : d'.Live y := by
    rcases h9.live hl with g | ⟨s0, g1, g2⟩
    · exact g
    · obtain ⟨_, rfl⟩ := stmt_of_number hn g1 h6 h7 (Nat.le_refl _) (by cases s0 <;> first | (simp [Stmt.count]; done) | cases g2)
      rw [computes_not_named hcm] at g2
      cases g2
  exact h3 path' d' n s y h8 ((h9.has hcm.plain (computes_not_named hcm)).1 hn) hcm h6 h7 hl' ((hj (path, x) (path', y) ⟨c', h1, h2⟩ ⟨d', h8, hl'⟩).1 he)

/-- in the program with declared variables, what is the same is the same in the other -/
theorem SameJoinsOfLive.rel {b b' : Body K F} (hj : SameJoinsOfLive b b') {u v : List Name × Nat} (h : Same b' u v) : Relation.EqvGen (Same b) u v := by
  have l : (∃ c, BAt b' u.1 c ∧ c.Live u.2) ∧ ∃ c, BAt b' v.1 c ∧ c.Live v.2 := by
    cases h with
    | name p h1 h2 =>
      obtain ⟨c, _, _, _, g1, g2, _⟩ := h1
      obtain ⟨d, _, _, _, g3, g4, _⟩ := h2
      exact ⟨⟨c, g1, g2⟩, d, g3, g4⟩
    | connection path c a d p q hc hst hp hq h1 h2 =>
      obtain ⟨c, _, _, _, g1, g2, _⟩ := h1
      obtain ⟨d, _, _, _, g3, g4, _⟩ := h2
      exact ⟨⟨c, g1, g2⟩, d, g3, g4⟩
    | «alias» c hc h1 h2 h3 => exact ⟨⟨c, hc, h1⟩, c, hc, h2⟩
  exact (hj u v l.1 l.2).2 (.rel _ _ h)

end Csdl.Prog
