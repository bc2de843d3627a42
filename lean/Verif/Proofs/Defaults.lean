import Verif.Spec.Defaults
import Verif.Proofs.Program9
import Verif.Proofs.Program11
import Verif.Props.Compile
/-
Which variable of a program the node that represents it belongs to, and its value.
-/
namespace Csdl.Prog
open Csdl Csdl.Arith
variable {K F : Type} [Field K] [DecidableEq K]
variable {objs : List (PObj K F)} {b : Body K F} {root : OModel} {Ls : List (List Name × Slot K F)}

omit [Field K] [DecidableEq K] in
theorem stmts_bound (b : Body K F) : ∀ n, ∀ y ∈ b.stmts n, n ≤ y.1 := by
  induction b with
  | done => intro n y hy; cases hy
  | stmt s rest ih =>
    intro n y hy
    rw [Body.stmts, List.mem_cons] at hy
    rcases hy with rfl | hy
    · exact Nat.le_refl _
    · exact Nat.le_trans (Nat.le_add_right _ _) (ih _ y hy)
  | add i nm p sub rest _ ih => intro n y hy; exact ih n y hy

omit [Field K] [DecidableEq K] in
/-- declarations are numbered in the order of the statements -/
theorem declared_sorted (b : Body K F) : ∀ n, ((b.stmts n).filterMap declaredOf).Pairwise fun a c => a.1 < c.1 := by
  induction b with
  | done => intro n; exact List.Pairwise.nil
  | stmt s rest ih =>
    intro n
    rw [Body.stmts, List.filterMap_cons]
    cases s with
    | declare nm sh v =>
      refine List.pairwise_cons.2 ⟨?_, ih _⟩
      intro c hc
      obtain ⟨⟨k, t⟩, h1, h2⟩ := List.mem_filterMap.1 hc
      have := stmts_bound rest _ _ h1
      cases t <;> simp [declaredOf] at h2
      obtain ⟨rfl, _⟩ := h2
      simp only [Stmt.count] at this
      show n < k
      omega
    | _ => exact ih _
  | add i nm p sub rest _ ih => intro n; exact ih n

/-- a variable that matters, and the first variable of its object -/
theorem Ctx.first_live {path : List Name} {s : Slot K F} {m : OModel} (c : Ctx objs b path s m) {x o : Nat} (hl : s.body.Live x)
    (hx : s.st.env[x]? = some o) : ∃ z, s.st.env[z]? = some o ∧ (∀ w < z, s.st.env[w]? ≠ some o) ∧ s.body.Live z := by
  induction x using Nat.strong_induction_on generalizing o with
  | _ x ih =>
    rcases c.inv.down hx with hf | ⟨y, hyx, hy, hp | ⟨k, v, ku, kv, d, h1, h2, h3, h4, h5, h6, h7⟩⟩
    · exact ⟨x, hx, hf, hl⟩
    · exact ih y hyx (.operand hl hp (Nat.le_refl _) (by simp [Stmt.count]) (by simp [Stmt.operands, Instr.first])) hy
    · exact ih y hyx (.part hl h1 h2 ((c.alias_iff (lt_of_some h5)).2 (h5.trans h6.symm))) hy

/-- where a variable that matters comes from: it is computed, or an input, or declared -/
theorem Setup.origin (u : Setup objs b root Ls) {path : List Name} {x o : Nat} (r : Rep Ls path x o) : ∃ s n t z, (path, s) ∈ Ls ∧ s.body.Has n t ∧ n ≤ z ∧ z < n + t.count ∧ s.st.env[z]? = some o ∧
    s.body.Live z ∧ (t.Computes ∨ (z = n ∧ ((∃ name sh v, t = .input name sh v) ∨ ∃ name sh v, t = .declare name sh v))) := by
  obtain ⟨s, hs, hx, hl⟩ := r
  obtain ⟨m, hm, c⟩ := u.hier.model hs
  obtain ⟨z, h1, h2, h3⟩ := c.first_live hl hx
  obtain ⟨n, t, h4, h5, h6⟩ := c.inv.cover z (lt_of_some h1)
  refine ⟨s, n, t, z, hs, h4, h5, h6, h1, h3, ?_⟩
  cases t with
  | input name sh v => exact Or.inr ⟨by simp only [Stmt.count] at h6; omega, Or.inl ⟨_, _, _, rfl⟩⟩
  | declare name sh v => exact Or.inr ⟨by simp only [Stmt.count] at h6; omega, Or.inr ⟨_, _, _, rfl⟩⟩
  | register name y => simp only [Stmt.count] at h6; omega
  | connect a c => simp only [Stmt.count] at h6; omega
  | assign _ _ _ => simp only [Stmt.count] at h6; omega
  | output _ _ _ => exact Or.inl trivial
  | call f args outs => exact Or.inl trivial
  | index u k => exact Or.inl trivial
  | expr i =>
    cases i with
    | pos d =>
      obtain rfl : z = n := by simp only [Stmt.count] at h6; omega
      cases c.inv.stmts z _ h4 with
      | «alias» a1 a2 a3 a4 =>
        rw [h1] at a4
        cases a4
        exact absurd a3 (h2 _ a2)
      | op o' ho' =>
        obtain ⟨p, k, as, m', base, _, _, hl, _⟩ := ho'
        exact absurd ⟨d, rfl⟩ (lowered_facts hl).2.2.1
    | _ => exact Or.inl trivial

/-- the object of an input or declared variable -/
theorem Ctx.given {path : List Name} {s : Slot K F} {m : OModel} (c : Ctx objs b path s m) {n : Nat} {t : Stmt K F} {v : Option (Val K)} (ht : s.body.Has n t)
    (hv : (∃ name sh w, t = .input name sh w ∧ v = some w) ∨ ∃ name sh, t = .declare name sh v) : ∃ o p, s.st.env[n]? = some o ∧ objs[o]? = some p ∧ p.val = v ∧
      (p.obj.role = .declared → p.obj.explicit = v.isSome) := by
  have key : GivesVal s.st.objs s.st.env n v := by
    rcases hv with ⟨name, sh, w, rfl, rfl⟩ | ⟨name, sh, rfl⟩
    · cases c.inv.stmts n _ ht with
      | input _ _ _ h => exact h
      | op o' ho' =>
        obtain ⟨p, k, as, m', base, _, _, hl, _⟩ := ho'
        exact ((lowered_facts hl).2.2.2).elim
    · cases c.inv.stmts n _ ht with
      | declare _ _ _ h => exact h
      | op o' ho' =>
        obtain ⟨p, k, as, m', base, _, _, hl, _⟩ := ho'
        exact ((lowered_facts hl).2.2.2).elim
  obtain ⟨o, p, h1, h2, h3, h4⟩ := key
  exact ⟨o, p, h1, getElem?_prefix c.pre h2, h3, h4⟩

/-- declared variables and their statements -/
theorem Ctx.declared_stmt {path : List Name} {s : Slot K F} {m : OModel} (c : Ctx objs b path s m) : List.Forall₂ (fun (i : Nat) (x : Nat × Name × Shape) => s.st.env[x.1]? = some i ∧ (objects objs i).name = x.2.1) m.declared ((s.body.stmts 0).filterMap declaredOf) := by
  rw [c.mat.declared]
  refine forall₂_imp_mem c.inv.declared fun i hi x hx h => ⟨h.1, ?_⟩
  obtain ⟨_, p, h2, _⟩ := c.inv.declaredRole i hi
  have h3 : (infoOf s.st.objs i).name = x.2.1 := by rw [h.2]
  rw [← h3]
  show _ = (objects s.st.objs i).name
  rw [c.obj h2, objects_eq h2]

theorem Ctx.declare_mem {path : List Name} {s : Slot K F} {m : OModel} (c : Ctx objs b path s m) {n : Nat} {name : Name} {sh : Shape} {v : Option (Val K)} (ht : s.body.Has n (.declare name sh v)) :
    ∃ o ∈ m.declared, s.st.env[n]? = some o ∧ (objects objs o).name = name := by
  obtain ⟨o, h1, h2⟩ := forall₂_mem_r c.declared_stmt (mem_declaredOf.2 ⟨v, ht⟩)
  exact ⟨o, h1, h2⟩

theorem Ctx.input_mem {path : List Name} {s : Slot K F} {m : OModel} (c : Ctx objs b path s m) {n : Nat} {name : Name} {sh : Shape} {v : Val K} (ht : s.body.Has n (.input name sh v)) :
    ∃ o ∈ m.inputs, s.st.env[n]? = some o ∧ (objects objs o).name = name := by
  obtain ⟨o, h1, h2⟩ := forall₂_mem_r c.inv.inputs (mem_inputOf.2 ⟨v, ht⟩)
  refine ⟨o, by rw [c.mat.inputs]; exact h1, h2.1, ?_⟩
  obtain ⟨_, p, h3, _⟩ := c.inv.inputRole o h1
  have h4 : (infoOf s.st.objs o).name = name := by rw [h2.2.1]
  rw [← h4]
  show _ = (objects s.st.objs o).name
  rw [c.obj h3, objects_eq h3]

omit [Field K] [DecidableEq K] in
theorem forall₂_append_cons {α β : Type} {R : α → β → Prop} {l1 l2 : List α} {a : α} {X : List β} (h : List.Forall₂ R (l1 ++ a :: l2) X) : ∃ X1 x X2, X = X1 ++ x :: X2 ∧ List.Forall₂ R l1 X1 ∧ R a x ∧ List.Forall₂ R l2 X2 := by
  induction l1 generalizing X with
  | nil =>
    cases h with
    | cons h1 h2 => exact ⟨[], _, _, rfl, .nil, h1, h2⟩
  | cons b l1 ih =>
    cases h with
    | cons h1 h2 =>
      obtain ⟨X1, x, X2, rfl, a1, a2, a3⟩ := ih h2
      exact ⟨_ :: X1, x, X2, rfl, .cons h1 a1, a2, a3⟩

/-- the last declaration of a name: objects and statements -/
theorem Ctx.lastOf_iff {path : List Name} {s : Slot K F} {m : OModel} (c : Ctx objs b path s m) {n o : Nat} {name : Name} {sh : Shape} {v : Option (Val K)} (ht : s.body.Has n (.declare name sh v))
    (ho : s.st.env[n]? = some o) : LastOf (fun i => (objects objs i).name) m.declared o ↔ s.body.LastDeclared name n := by
  have hsort := declared_sorted s.body 0
  have hD := c.declared_stmt
  obtain ⟨o', hom, ho', hname⟩ := c.declare_mem ht
  rw [ho] at ho'; cases ho'
  -- a declaration is the first variable of its object
  have huniq : ∀ (k : Nat) (t : Name × Shape) (w : Option (Val K)), s.body.Has k (.declare t.1 t.2 w) → s.st.env[k]? = some o → k = n := by
    intro k t w hk hko
    rcases c.inv.fresh k _ hk with h | h
    · rcases h with ⟨_, h⟩ | ⟨_, _, h⟩ <;> cases h
    · rcases c.inv.fresh n _ ht with h' | h'
      · rcases h' with ⟨_, h'⟩ | ⟨_, _, h'⟩ <;> cases h'
      · rcases Nat.lt_trichotomy k n with hh | hh | hh
        · exact absurd hko (h' n o (Nat.le_refl _) (by simp [Stmt.count]) ho k hh)
        · exact hh
        · exact absurd ho (h k o (Nat.le_refl _) (by simp [Stmt.count]) hko n hh)
  constructor
  · rintro ⟨l1, l2, h1, h2⟩ y' sh' v' hy'
    rw [h1] at hD
    obtain ⟨X1, x, X2, e, a1, a2, a3⟩ := forall₂_append_cons hD
    have hxn : x.1 = n := by
      obtain ⟨w, hw⟩ := mem_declaredOf.1 (show (x.1, x.2.1, x.2.2) ∈ (s.body.stmts 0).filterMap declaredOf by rw [e]; simp)
      exact huniq x.1 x.2 w hw a2.1
    by_contra hlt
    have hmem := mem_declaredOf.2 ⟨v', hy'⟩
    rw [e, List.mem_append, List.mem_cons] at hmem
    rw [e] at hsort
    have hs2 := List.pairwise_append.1 hsort
    rcases hmem with h3 | h3 | h3
    · have := hs2.2.2 _ h3 x (by simp)
      simp only at this
      omega
    · rw [← h3] at hxn
      simp only at hxn
      omega
    · obtain ⟨u, hu, h4⟩ := forall₂_mem_r a3 h3
      refine h2 u hu ?_
      show (objects objs u).name = (objects objs o).name
      rw [h4.2, hname]
  · intro hlast
    obtain ⟨l1, l2, h1⟩ := List.append_of_mem hom
    refine ⟨l1, l2, h1, fun u hu hun => ?_⟩
    rw [h1] at hD
    obtain ⟨X1, x, X2, e, a1, a2, a3⟩ := forall₂_append_cons hD
    have hxn : x.1 = n := by
      obtain ⟨w, hw⟩ := mem_declaredOf.1 (show (x.1, x.2.1, x.2.2) ∈ (s.body.stmts 0).filterMap declaredOf by rw [e]; simp)
      exact huniq x.1 x.2 w hw a2.1
    obtain ⟨z, hz, h4⟩ := forall₂_mem_l a3 hu
    obtain ⟨w, hw⟩ := mem_declaredOf.1 (show (z.1, z.2.1, z.2.2) ∈ (s.body.stmts 0).filterMap declaredOf by rw [e]; simp [hz])
    have hzn : z.2.1 = name := by
      have hun : (objects objs u).name = (objects objs o).name := hun
      rw [← h4.2, hun, hname]
    rw [hzn] at hw
    have h5 := hlast z.1 z.2.2 w hw
    rw [e] at hsort
    have := (List.pairwise_cons.1 (List.pairwise_append.1 hsort).2.1).1 z hz
    omega

end Csdl.Prog
