import Verif.Proofs.InputDeclared2
import Verif.Props.DefaultsSame
/-
Declaring a variable that was an input joins the same variables, continued.
-/
namespace Csdl.Prog
open Csdl Csdl.Arith
variable {K F : Type}

/-- the name of an input or declared variable that is not registered -/
theorem input_name_unique {c : Body K F} {x : Nat} {s0 : Stmt K F} (h0 : c.Has x s0) (hs : s0.isNamed = true) (ho : ∀ name, (x, name) ∉ (c.stmts 0).filterMap outputOf) {n n' : Name} (h : c.Named x n) (h' : c.Named x n') : n = n' := by
  have one : ∀ {s : Stmt K F}, s.isNamed = true → s.count = 1 := fun {s} hs => by cases s <;> first | rfl | cases hs
  have key : ∀ {n : Name}, c.Named x n → s0.defines = some n ∨ ∃ sh v, s0 = .declare n sh v := by
    rintro n (⟨sh, hx | hx⟩ | hx)
    · obtain ⟨⟨m, s⟩, h1, h2⟩ := List.mem_filterMap.1 hx
      cases s <;> simp only [inputOf, reduceCtorEq, Option.some.injEq, Prod.mk.injEq] at h2
      obtain ⟨rfl, rfl, rfl⟩ := h2
      have := (stmt_of_number h1 h0 (Nat.le_refl _) (by simp [Stmt.count]) (Nat.le_refl _) (by rw [one hs]; omega)).2
      subst this
      exact Or.inl rfl
    · obtain ⟨⟨m, s⟩, h1, h2⟩ := List.mem_filterMap.1 hx
      cases s <;> simp only [declaredOf, reduceCtorEq, Option.some.injEq, Prod.mk.injEq] at h2
      obtain ⟨rfl, rfl, rfl⟩ := h2
      have := (stmt_of_number h1 h0 (Nat.le_refl _) (by simp [Stmt.count]) (Nat.le_refl _) (by rw [one hs]; omega)).2
      subst this
      exact Or.inr ⟨_, _, rfl⟩
    · exact (ho _ hx).elim
  rcases key h with h1 | ⟨_, _, h1⟩ <;> rcases key h' with h2 | ⟨_, _, h2⟩
  · exact Option.some.inj (h1.symm.trans h2)
  · subst h2; exact (Option.some.inj h1).symm
  · subst h1; exact Option.some.inj h2
  · subst h1; cases h2; rfl

section chain
variable [Field K] [DecidableEq K] {b b' : Body K F} (h : InputsDeclared b b') (hv : ValidProgram b) (hv' : ValidProgram b')
include h hv hv'

/-- the variables that stand for `u` in the second program: `u` itself, and those that have a name of `u` -/
def Stands (b b' : Body K F) (w u : List Name × Nat) : Prop := (w = u ∧ Stays b' u) ∨ ∃ p, HasName b u.1 u.2 p ∧ HasName b' w.1 w.2 p

omit hv in
theorem InputsDeclared.keeps {u : List Name × Nat} {p : Name} (hn : HasName b u.1 u.2 p) (hl : Stays b' u) : HasName b' u.1 u.2 p := h.hasName hv'.batOne hn hl

omit hv' in
/-- a variable that matters only in the first program has one name -/
theorem InputsDeclared.oneName {u : List Name × Nat} (hl : ¬ Stays b' u) {p q : Name} (h1 : HasName b u.1 u.2 p) (h2 : HasName b u.1 u.2 q) : p = q := by
  obtain ⟨c, n1, k1, w1, a1, a2, a3, a4, a5⟩ := h1
  obtain ⟨d, n2, k2, w2, b1, b2, b3, b4, b5⟩ := h2
  obtain rfl := hv.batOne a1 b1
  obtain ⟨c', g1, g2⟩ := h.at a1
  have hn : ∃ s, c.Has u.2 s ∧ s.isNamed = true := (g2.methods0.live a2).resolve_left fun g => hl ⟨c', g1, g⟩
  obtain ⟨s0, g3, g4⟩ := hn
  obtain rfl := input_name_unique g3 g4 (fun name ho => hl ⟨c', g1, .output (g2.methods0.outputs ▸ ho)⟩) a3 b3
  exact promoted_det _ (dotFree_body hv.methods hv.names) a4 b4 (a5.trans b5.symm)

theorem InputsDeclared.stands_same {u w w' : List Name × Nat} (h1 : Stands b b' w u) (h2 : Stands b b' w' u) : Relation.EqvGen (Same b') w w' := by
  rcases h1 with ⟨rfl, g1⟩ | ⟨p, g1, g2⟩ <;> rcases h2 with ⟨rfl, g3⟩ | ⟨q, g3, g4⟩
  · exact .refl _
  · exact .rel _ _ (.name q (h.keeps hv' g3 g1) g4)
  · exact .rel _ _ (.name p g2 (h.keeps hv' g1 g3))
  · by_cases hs : Stays b' u
    · exact .trans _ u _ (.rel _ _ (.name p g2 (h.keeps hv' g1 hs))) (.rel _ _ (.name q (h.keeps hv' g3 hs) g4))
    · obtain rfl := h.oneName hv hs g1 g3
      exact .rel _ _ (.name p g2 g4)

/-- the ends of connections have names of variables that matter in the second program -/
theorem InputsDeclared.ends {path : List Name} {c : Body K F} {s t p q : Name} (hc : BAt b path c) (hst : (s, t) ∈ c.locals.connections) (hp : Denotes b.toModel (fullName path s) p) (hq : Denotes b.toModel (fullName path t) q) :
    ∃ w w', HasName b' w.1 w.2 p ∧ HasName b' w'.1 w'.2 q ∧ Same b' w w' := by
  obtain ⟨c', g1, g2⟩ := h.at hc
  have hst' : (s, t) ∈ c'.locals.connections := g2.connections ▸ hst
  obtain ⟨p', q', h1, h2, ⟨p3, w3, h3⟩, ⟨p4, x4, h4⟩, _⟩ := hv'.connections path c' s t g1 hst'
  obtain ⟨r, hr⟩ := resolves_body hv'.methods hv'.names hv'.oneSource hv'.sizes hv'.promotes
  have hd := dotFree_body hv'.methods hv'.names
  obtain rfl := denotes_unique hd hr (h.denotes.1 hp) h1
  obtain rfl := denotes_unique hd hr (h.denotes.1 hq) h2
  obtain ⟨x3, h5⟩ := source_hasName h3
  exact ⟨(p3, x3), (p4, x4), h5, h4, .connection path c' s t p q g1 hst' h1 h2 h5 h4⟩

/-- what is the same in the first program has the same representatives in the second -/
theorem InputsDeclared.stands_step {u v : List Name × Nat} (hs : Same b u v) :
    u = v ∨ ∃ w w', Stands b b' w u ∧ Stands b b' w' v ∧ Relation.EqvGen (Same b') w w' ∨ ((∀ w, ¬ Stands b b' w u) ∧ ∀ w, ¬ Stands b b' w v) := by
  cases hs with
  | @name path path' x y p h1 h2 =>
    refine Or.inr ?_
    by_cases hu : ∃ w, Stands b b' w (path, x)
    · obtain ⟨w, hw⟩ := hu
      rcases hw with ⟨rfl, g⟩ | ⟨q, g1, g2⟩
      · exact ⟨_, _, Or.inl ⟨Or.inl ⟨rfl, g⟩, Or.inr ⟨p, h2, h.keeps hv' h1 g⟩, .refl _⟩⟩
      · by_cases hl : Stays b' (path, x)
        · exact ⟨(path, x), (path, x), Or.inl ⟨Or.inl ⟨rfl, hl⟩, Or.inr ⟨p, h2, h.keeps hv' h1 hl⟩, .refl _⟩⟩
        · obtain rfl := h.oneName hv hl h1 g1
          exact ⟨w, w, Or.inl ⟨Or.inr ⟨p, h1, g2⟩, Or.inr ⟨p, h2, g2⟩, .refl _⟩⟩
    · refine ⟨(path, x), (path, x), Or.inr ⟨fun w hw => hu ⟨w, hw⟩, fun w hw => ?_⟩⟩
      rcases hw with ⟨rfl, g⟩ | ⟨q, g1, g2⟩
      · exact hu ⟨_, Or.inr ⟨p, h1, h.keeps hv' h2 g⟩⟩
      · by_cases hl : Stays b' (path', y)
        · exact hu ⟨_, Or.inr ⟨p, h1, h.keeps hv' h2 hl⟩⟩
        · obtain rfl := h.oneName hv hl h2 g1
          exact hu ⟨w, Or.inr ⟨p, h1, g2⟩⟩
  | connection path c s t p q hc hst hp hq h1 h2 =>
    obtain ⟨w, w', g1, g2, g3⟩ := h.ends hv hv' hc hst hp hq
    exact Or.inr ⟨w, w', Or.inl ⟨Or.inr ⟨p, h1, g1⟩, Or.inr ⟨q, h2, g2⟩, .rel _ _ g3⟩⟩
  | @«alias» path x y c hc h1 h2 h3 =>
    obtain ⟨c', g1, g2⟩ := h.at hc
    have half : ∀ {x y : Nat}, c.Live x → c.Live y → Alias (c.stmts 0) x y → c'.Live y → c'.Live x ∨ x = y := by
      intro x y hx hy ha hl
      rcases g2.methods0.live hx with g | ⟨s0, g3, g4⟩
      · exact Or.inl g
      · have hd : Down c x y := (down_alias g3 g4 ha).1 Relation.ReflTransGen.refl
        have hd' : Down c' x y := Relation.ReflTransGen.mono (fun _ _ hh => (g2.methods0.has rfl rfl).1 hh) _ _ hd
        exact Or.inl (down_live hd' hl)
    have both : c'.Live x ∧ c'.Live y ∨ x = y := by
      rcases g2.methods0.live h1 with a1 | ⟨s0, a1, a2⟩
      · rcases half h2 h1 h3.symm a1 with a2 | a2
        · exact Or.inl ⟨a1, a2⟩
        · exact Or.inr a2.symm
      · rcases g2.methods0.live h2 with a3 | ⟨s1, a3, a4⟩
        · rcases half h1 h2 h3 a3 with a4 | a4
          · exact Or.inl ⟨a4, a3⟩
          · exact Or.inr a4
        · have hd : Down c x y := (down_alias a1 a2 h3).1 Relation.ReflTransGen.refl
          rcases Relation.ReflTransGen.cases_tail hd with e | ⟨z, _, hz⟩
          · exact Or.inr e.symm
          · have one : s1.count = 1 := by cases s1 <;> first | rfl | cases a4
            have := (stmt_of_number hz a3 (Nat.le_refl _) (by simp [Stmt.count]) (Nat.le_refl _) (by omega)).2
            subst this
            cases a4
    rcases both with ⟨a1, a2⟩ | rfl
    · exact Or.inr ⟨(path, x), (path, y), Or.inl ⟨Or.inl ⟨rfl, c', g1, a1⟩, Or.inl ⟨rfl, c', g1, a2⟩, .rel _ _ (.alias c' g1 a1 a2 (g2.methods0.alias.1 h3))⟩⟩
    · exact Or.inl rfl

theorem InputsDeclared.stands {u v : List Name × Nat} (hs : Relation.EqvGen (Same b) u v) :
    ((∃ w, Stands b b' w u) ↔ ∃ w, Stands b b' w v) ∧ ∀ w w', Stands b b' w u → Stands b b' w' v → Relation.EqvGen (Same b') w w' := by
  induction hs with
  | rel u v hs =>
    rcases h.stands_step hv hv' hs with rfl | ⟨w, w', ⟨g1, g2, g3⟩ | ⟨g1, g2⟩⟩
    · exact ⟨Iff.rfl, fun w w' => h.stands_same hv hv'⟩
    · exact ⟨⟨fun _ => ⟨w', g2⟩, fun _ => ⟨w, g1⟩⟩, fun a a' ha ha' => .trans _ _ _ (h.stands_same hv hv' ha g1) (.trans _ _ _ g3 (h.stands_same hv hv' g2 ha'))⟩
    · exact ⟨⟨fun ⟨a, ha⟩ => (g1 a ha).elim, fun ⟨a, ha⟩ => (g2 a ha).elim⟩, fun a _ ha _ => (g1 a ha).elim⟩
  | refl u => exact ⟨Iff.rfl, fun w w' => h.stands_same hv hv'⟩
  | symm u v _ ih => exact ⟨ih.1.symm, fun w w' h1 h2 => .symm _ _ (ih.2 w' w h2 h1)⟩
  | trans u z v _ _ ih1 ih2 =>
    refine ⟨ih1.1.trans ih2.1, fun w w' h1 h2 => ?_⟩
    obtain ⟨a, ha⟩ := ih1.1.1 ⟨w, h1⟩
    exact .trans _ _ _ (ih1.2 w a h1 ha) (ih2.2 a w' ha h2)

omit [Field K] [DecidableEq K] hv hv' in
theorem InputsDeclared.same' {u v : List Name × Nat} (hs : Same b' u v) : Same b u v := by
  cases hs with
  | name p h1 h2 => exact .name p (h.hasName' h1).1 (h.hasName' h2).1
  | connection path c' s t p q hc hst hp hq h1 h2 =>
    obtain ⟨c, g1, g2⟩ := h.at' hc
    exact .connection path c s t p q g1 (g2.connections ▸ hst) (h.denotes.2 hp) (h.denotes.2 hq) (h.hasName' h1).1 (h.hasName' h2).1
  | «alias» c' hc h1 h2 h3 =>
    obtain ⟨c, g1, g2⟩ := h.at' hc
    exact .alias c g1 (g2.methods0.live' h1) (g2.methods0.live' h2) (g2.methods0.alias.2 h3)

/-- the same variables that matter are joined -/
theorem InputsDeclared.joins : SameJoinsOfLive b b' := by
  intro u v hu hv1
  constructor
  · intro hs
    exact (h.stands hv hv' hs).2 u v (Or.inl ⟨rfl, hu⟩) (Or.inl ⟨rfl, hv1⟩)
  · intro hs
    induction hs with
    | rel _ _ g => exact .rel _ _ (h.same' g)
    | refl => exact .refl _
    | symm _ _ h0 ih => exact .symm _ _ (ih hv1 hu)
    | trans x y z h1 h2 ih1 ih2 =>
      have hy : ∃ c, BAt b' y.1 c ∧ c.Live y.2 := (LiveAt_same h1).1 hu
      exact .trans _ _ _ (ih1 hu hy) (ih2 hy hv1)

end chain
end Csdl.Prog
