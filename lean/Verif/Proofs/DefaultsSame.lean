import Verif.Spec.DefaultsSame
import Verif.Proofs.Rename3
import Verif.Proofs.Dead
import Verif.Props.Defaults
/-
Default values in renamed programs and in programs that look alike.
-/
namespace Csdl.Prog
open Csdl Csdl.Arith
variable {K F : Type}

theorem at_of_bat {b : Body K F} {path : List Name} {c : Body K F} (h : BAt b path c) : At b.toModel path c.toModel := by
  induction h with
  | here b => exact .here _
  | @down b n p sub path c hs _ ih => exact .down (s := ⟨n, p, sub.toModel⟩) (mem_toSubs.2 ⟨sub, hs, rfl⟩) ih

theorem target_iff {b : Body K F} {q : Name} : TargetName b.toModel q ↔ ∃ path c a d, BAt b path c ∧ (a, d) ∈ c.locals.connections ∧ Denotes b.toModel (fullName path d) q := by
  constructor
  · rintro ⟨path, l, subs, a, d, h1, h2, h3⟩
    obtain ⟨c, h4, h5⟩ := BAt.locals h1
    obtain ⟨rfl, rfl⟩ := Model.mk.inj h5
    exact ⟨path, c, a, d, h4, h2, h3⟩
  · rintro ⟨path, c, a, d, h1, h2, h3⟩
    exact ⟨path, c.locals, c.toSubs, a, d, at_of_bat h1, h2, h3⟩

section
variable {r : Name ≃ Name} (R : Renaming r) {b : Body K F}
include R

theorem target_rename {q : Name} (h : TargetName b.toModel q) : TargetName (b.rename r).toModel (r q) := by
  obtain ⟨path, c, a, d, h1, h2, h3⟩ := target_iff.1 h
  exact target_iff.2 ⟨_, _, _, _, bat_rename r _ h1, connections_mem_rename h2, (denotes_full R).2 h3⟩

theorem target_inv {q : Name} (h : TargetName (b.rename r).toModel (r q)) : TargetName b.toModel q := by
  have := target_rename R.symm h
  rwa [Body.rename_symm, r.symm_apply_apply] at this

omit R in
theorem lastDeclared_rename {name : Name} {y : Nat} (h : b.LastDeclared name y) : (b.rename r).LastDeclared (r name) y := by
  intro y' shape val hh
  have := has_rename r.symm _ hh
  rw [Body.rename_symm] at this
  simp only [Stmt.rename, r.symm_apply_apply] at this
  exact h _ _ _ this

theorem default_rename {path : List Name} {x : Nat} {v : Option (Val K)} (h : DefaultOf b path x v) : DefaultOf (b.rename r) (path.map r) x v := by
  have back : ∀ {path2 : List Name} {z : Nat}, SameVar (b.rename r) (path.map r) x path2 z → SameVar b path x (path2.map r.symm) z := by
    intro path2 z h
    have := eqv_rename R.symm h
    rw [Body.rename_symm] at this
    simpa only [renP, map_symm'] using this
  cases h with
  | input h1 h2 h3 h4 =>
    refine .input (bat_rename r _ h1) (has_rename r _ h2) (eqv_rename R h3) fun p hp ht => ?_
    obtain ⟨path0, p0, e1, rfl, hp0⟩ := hasName_inv R hp
    rw [← List.map_injective_iff.2 r.injective e1] at hp0
    exact h4 _ hp0 (target_inv R ht)
  | @declare path' b' y name shape v h1 h2 h3 h4 h5 h6 =>
    refine .declare (bat_rename r _ h1) (has_rename r _ h2) (eqv_rename R h3) (lastDeclared_rename h4) ?_ ?_
    · intro path2 b2 z nm s w g1 g2 g3
      have k1 := bat_rename r.symm _ g1
      rw [Body.rename_symm] at k1
      exact h5 _ _ _ _ _ _ k1 (has_rename r.symm _ g2) (back g3)
    · intro path2 b2 z nm s w g1 g2 g3
      have k1 := bat_rename r.symm _ g1
      rw [Body.rename_symm] at k1
      have := h6 _ _ _ _ _ _ k1 (has_rename r.symm _ g2) (back g3)
      simp only [List.length_map] at this ⊢
      exact ⟨this.1, fun e hl => this.2.1 e (lastDeclared_rename (r := r.symm) hl), fun e => (this.2.2 (by rw [e]; rfl)).imp (fun e' => by rw [e']; rfl) id⟩

theorem default_inv {path : List Name} {x : Nat} {v : Option (Val K)} (h : DefaultOf (b.rename r) (path.map r) x v) : DefaultOf b path x v := by
  have := default_rename R.symm h
  rwa [Body.rename_symm, map_symm'] at this

end

section
variable {b b' : Body K F} (A : Alike b b') (A' : Alike b' b)
include A A'

theorem Alike.target {q : Name} : TargetName b.toModel q ↔ TargetName b'.toModel q := by rw [A.model]

omit A A' in
theorem Looks.lastDeclared {d d' : Body K F} (h : Looks d d') (h' : Looks d' d) {name : Name} {y : Nat} {shape : Shape} {val : Option (Val K)} (hy : d.Has y (.declare name shape val)) (hl : d.Live y)
    (hd : d.LastDeclared name y) : d'.LastDeclared name y := by
  intro y' shape' val' hh
  have n1 : d'.Named y name := h.named (Or.inl ⟨shape, Or.inr (mem_declaredOf.2 ⟨val, hy⟩)⟩)
  have n2 : d'.Named y' name := Or.inl ⟨shape', Or.inr (mem_declaredOf.2 ⟨val', hh⟩)⟩
  exact hd _ _ _ (h'.has hh le_rfl (by simp [Stmt.count]) (.same (h.live hl) n1 n2))

theorem Alike.defaults [Field K] [DecidableEq K] (hu : ∀ {path : List Name} {c c' : Body K F}, BAt b path c → BAt b path c' → c = c') (hu' : ∀ {path : List Name} {c c' : Body K F}, BAt b' path c → BAt b' path c' → c = c')
    {path : List Name} {x : Nat} {v : Option (Val K)} (hx : ∃ d, BAt b path d ∧ d.Live x) (h : DefaultOf b path x v) : DefaultOf b' path x v := by
  have liveOf : ∀ {path' : List Name} {c : Body K F} {y : Nat}, SameVar b path x path' y → BAt b path' c → c.Live y := by
    intro path' c y hs hc
    obtain ⟨d, h1, h2⟩ := (LiveAt_same hs).1 hx
    rw [hu hc h1]
    exact h2
  cases h with
  | @input path' c y name shape v h1 h2 h3 h4 =>
    obtain ⟨c', g1, g2, _⟩ := A.methods h1
    exact .input g1 (g2.has h2 le_rfl (by simp [Stmt.count]) (liveOf h3 h1)) (A.sameAll h3) fun p hp ht => h4 p (A'.hasName hp) ((A.target A').2 ht)
  | @declare path' c y name shape v h1 h2 h3 h4 h5 h6 =>
    obtain ⟨c', g1, g2, g3⟩ := A.methods h1
    have hl := liveOf h3 h1
    refine .declare g1 (g2.has h2 le_rfl (by simp [Stmt.count]) hl) (A.sameAll h3) (g2.lastDeclared g3 h2 hl h4) ?_ ?_
    · intro path2 b2 z nm s w k1 k2 k3
      obtain ⟨c2, j1, j2, j3⟩ := A'.methods k1
      have k3' := A'.sameAll k3
      have hl2 := j3.live (liveOf k3' j1)
      exact h5 _ _ _ _ _ _ j1 (j2.has k2 le_rfl (by simp [Stmt.count]) hl2) k3'
    · intro path2 b2 z nm s w k1 k2 k3
      obtain ⟨c2, j1, j2, j3⟩ := A'.methods k1
      have k3' := A'.sameAll k3
      have hl2 := j3.live (liveOf k3' j1)
      have := h6 _ _ _ _ _ _ j1 (j2.has k2 le_rfl (by simp [Stmt.count]) hl2) k3'
      exact ⟨this.1, fun e hd => this.2.1 e (j2.lastDeclared j3 k2 hl2 hd), this.2.2⟩

end
end Csdl.Prog
