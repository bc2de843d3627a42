import Verif.Proofs.Apart2
import Verif.Proofs.DefaultsSame
/-
Proofs for C103, default values.
-/
namespace Csdl.Prog
open Csdl Csdl.Arith
variable {K F : Type}

section
variable [Zero K] {b : Body K F} {i : Bool} {n : Name} {sub : Body K F} (A : Apart b i n sub)
include A

theorem Apart.target_first {q : Name} (h : TargetName b.toModel q) : TargetName (b.addApart i n sub).toModel q := by
  obtain ⟨path, c, a, d, h1, h2, h3⟩ := target_iff.1 h
  obtain ⟨c', g1, g2⟩ := A.first h1
  exact target_iff.2 ⟨path, c', a, d, g1, (Looks.of_stmts g2).locals ▸ h2, apart_denotes h3⟩

omit A in
theorem apart_target_second {q : Name} (h : TargetName sub.toModel q) : TargetName (b.addApart i n sub).toModel (prependNamespace n q) := by
  obtain ⟨path, c, a, d, h1, h2, h3⟩ := target_iff.1 h
  exact target_iff.2 ⟨n :: path, c, a, d, apart_second h1, h2, by rw [fullName_cons]; exact apart_denotes_sub h3⟩

omit A in
theorem has_of_stmts {c c' : Body K F} (h : c.stmts 0 = c'.stmts 0) {y : Nat} {s : Stmt K F} (hy : c.Has y s) : c'.Has y s := by
  unfold Body.Has at *; rw [← h]; exact hy

omit A in
theorem last_of_stmts {c c' : Body K F} (h : c.stmts 0 = c'.stmts 0) {name : Name} {y : Nat} (hy : c.LastDeclared name y) : c'.LastDeclared name y :=
  fun y' shape val hh => hy y' shape val (has_of_stmts h.symm hh)

/-- same variables as one of the main part -/
theorem Apart.same_out {path path' : List Name} {x y : Nat} (hx : Outside n (path, x)) (h : SameVar (b.addApart i n sub) path x path' y) : SameVar b path x path' y ∧ Outside n (path', y) := by
  rcases A.sameAll h with ⟨h1, _, h3⟩ | ⟨e0, f0, e, _⟩
  · exact ⟨h1, h3⟩
  · rw [e] at hx; exact (not_outside hx).elim

/-- same variables as one of the submodel -/
theorem Apart.same_in {path path' : List Name} {x y : Nat} (h : SameVar (b.addApart i n sub) (n :: path) x path' y) : ∃ q, path' = n :: q ∧ SameVar sub path x q y := by
  rcases A.sameAll h with ⟨_, h2, _⟩ | ⟨e0, f0, e, f, h⟩
  · exact (h2 path rfl).elim
  · obtain ⟨e1, e2⟩ := Prod.mk.inj e
    obtain ⟨f1, f2⟩ := Prod.mk.inj f
    refine ⟨f0.1, f1, ?_⟩
    unfold SameVar
    rw [e2, f2, (List.cons.inj e1).2]
    exact h

theorem Apart.default_first {path : List Name} {x : Nat} {v : Option (Val K)} (hx : Outside n (path, x)) (h : DefaultOf (b.addApart i n sub) path x v) : DefaultOf b path x v := by
  cases h with
  | input hb hy hs hno =>
    obtain ⟨s1, s2⟩ := A.same_out hx hs
    rcases A.split hb with ⟨c', g1, g2, _⟩ | ⟨q, rfl, _⟩
    · exact .input g1 (has_of_stmts g2 hy) s1 fun p hp ht => hno p (A.hasName_first hp) (A.target_first ht)
    · exact (s2 q rfl).elim
  | declare hb hy hs hl hin hbest =>
    obtain ⟨s1, s2⟩ := A.same_out hx hs
    rcases A.split hb with ⟨c', g1, g2, _⟩ | ⟨q, rfl, _⟩
    · refine .declare g1 (has_of_stmts g2 hy) s1 (last_of_stmts g2 hl) (fun path2 b2 z nm s w k1 k2 k3 => ?_) fun path2 b2 z nm s w k1 k2 k3 => ?_
      · obtain ⟨c2, j1, j2⟩ := A.first k1
        exact hin path2 c2 z nm s w j1 (has_of_stmts j2 k2) (A.same_first k3)
      · obtain ⟨c2, j1, j2⟩ := A.first k1
        obtain ⟨m1, m2, m3⟩ := hbest path2 c2 z nm s w j1 (has_of_stmts j2 k2) (A.same_first k3)
        exact ⟨m1, fun e hl2 => m2 e (last_of_stmts j2 hl2), m3⟩
    · exact (s2 q rfl).elim

theorem Apart.default_second {path : List Name} {x : Nat} {v : Option (Val K)} (hu : UntiedDefaults sub) (h : DefaultOf (b.addApart i n sub) (n :: path) x v) : DefaultOf sub path x v := by
  cases h with
  | input hb hy hs hno =>
    obtain ⟨q, rfl, s1⟩ := A.same_in hs
    rcases A.split hb with ⟨c', _, _, g3⟩ | ⟨q', e, g1⟩
    · exact (g3 q rfl).elim
    · obtain rfl := (List.cons.inj e).2
      exact .input g1 hy s1 fun p hp ht => hno _ (apart_hasName_second hp) (apart_target_second ht)
  | declare hb hy hs hl hin hbest =>
    obtain ⟨q, rfl, s1⟩ := A.same_in hs
    rcases A.split hb with ⟨c', _, _, g3⟩ | ⟨q', e, g1⟩
    · exact (g3 q rfl).elim
    · obtain rfl := (List.cons.inj e).2
      refine .declare g1 hy s1 hl (fun path2 b2 z nm s w k1 k2 k3 => ?_) fun path2 b2 z nm s w k1 k2 k3 => ?_
      · exact hin _ b2 z nm s w (apart_second k1) k2 (apart_same_second k3)
      · obtain ⟨m1, m2, _⟩ := hbest _ b2 z nm s w (apart_second k1) k2 (apart_same_second k3)
        simp only [List.length_cons] at m1 m2
        refine ⟨by omega, fun e hl2 hw => ?_, fun e => Or.inl (List.length_eq_zero_iff.1 (by rw [e] at m1; simp only [List.length_nil] at m1; omega))⟩
        by_cases hlen : path2.length = q.length
        · exact m2 (by omega) hl2 hw
        · have h0 : q.length = 0 := by omega
          have h1 : path2.length = 1 := by omega
          obtain rfl := List.length_eq_zero_iff.1 h0
          obtain ⟨m, rfl⟩ := List.length_eq_one_iff.1 h1
          cases v with
          | some v => rfl
          | none =>
            cases g1
            rw [hu _ _ _ m b2 z nm s w hy hl k1 k2 hl2 (.trans _ _ _ (.symm _ _ s1) k3)] at hw
            cases hw

end

end Csdl.Prog
