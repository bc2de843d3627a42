import Verif.Spec.Depends
import Verif.Proofs.Refactor2
import Mathlib.Data.Set.Finite.Basic
/-
For C100: two solutions agree on a variable if they agree on what it depends on.
-/
namespace Csdl.Prog
open Csdl Csdl.Arith
variable {K F : Type}

theorem meaning_operands [Field K] (P : Power K) (i : Instr K) {v w : List (Val K)} (h : ∀ x ∈ i.first :: i.others, v.getD x (fun _ => 0) = w.getD x (fun _ => 0)) : i.meaning P v = i.meaning P w := by
  cases i <;> simp only [Instr.first, Instr.others, List.mem_cons, List.not_mem_nil, or_false, forall_eq_or_imp, forall_eq] at h <;> simp only [Instr.meaning, h]

/-- the variables that matter, of all models, are finitely many -/
theorem live_finite [Field K] [DecidableEq K] {b : Body K F} {objs : List (PObj K F)} {root : OModel} (hv : ValidProgram b) (hr : runProgram b = .ok (objs, root)) :
    {z : List Name × Nat | ∃ c, BAt b z.1 c ∧ c.Live z.2}.Finite := by
  obtain ⟨Ls, hh, _⟩ := runFrom_hier hr (all := objs) List.prefix_rfl
  refine Set.Finite.subset (Set.Finite.ofFinset (Ls.flatMap fun s => (List.range (numVars (s.2.body.stmts 0))).map fun x => (s.1, x)).toFinset fun _ => Iff.rfl) ?_
  rintro ⟨path, x⟩ ⟨c, hc, hl⟩
  obtain ⟨s, hs, rfl⟩ := hh.ofBody path c hc
  simp only [List.coe_toFinset, Set.mem_setOf_eq, List.mem_flatMap, List.mem_map, List.mem_range, Prod.mk.injEq]
  exact ⟨_, hs, x, (hv.methods _ _ hc).live_lt hl, rfl, rfl⟩

/-- `a` is computed, in one step, into a variable that is the same as `c` -/
def Into (b : Body K F) (a c : List Name × Nat) : Prop := ∃ y, Feeds b a y ∧ Relation.EqvGen (Same b) y c

theorem into_acyclic {b : Body K F} (h : ¬ CircularProgram b) (a : List Name × Nat) : ¬ Relation.TransGen (Into b) a a := by
  intro ha
  have key : ∀ {a c}, Relation.TransGen (Into b) a c → ∃ y, Relation.TransGen (fun a c => ∃ a', Relation.EqvGen (Same b) a a' ∧ Feeds b a' c) a y ∧ Relation.EqvGen (Same b) y c := by
    intro a c hc
    induction hc with
    | single h => obtain ⟨y, h1, h2⟩ := h; exact ⟨y, .single ⟨a, .refl _, h1⟩, h2⟩
    | tail _ h ih =>
      obtain ⟨z, h1, h2⟩ := ih
      obtain ⟨y, h3, h4⟩ := h
      exact ⟨y, h1.tail ⟨_, h2, h3⟩, h4⟩
  obtain ⟨y, h1, h2⟩ := key ha
  refine h ⟨y, ?_⟩
  obtain ⟨w, ⟨v, h3, h4⟩, h5⟩ := Relation.TransGen.head'_iff.1 h1
  have h6 : Relation.TransGen (fun a c => ∃ a', Relation.EqvGen (Same b) a a' ∧ Feeds b a' c) y w := .single ⟨v, h2.trans _ _ _ h3, h4⟩
  rcases Relation.reflTransGen_iff_eq_or_transGen.1 h5 with rfl | h5
  · exact h6
  · exact h6.trans h5

/-- induction along the computation -/
theorem depends_induction [Field K] [DecidableEq K] {b : Body K F} {objs : List (PObj K F)} {root : OModel} (hv : ValidProgram b) (hr : runProgram b = .ok (objs, root)) {p : List Name × Nat → Prop}
    (h : ∀ z, (∃ c, BAt b z.1 c ∧ c.Live z.2) → (∀ a, (∃ c, BAt b a.1 c ∧ c.Live a.2) → Into b a z → p a) → p z) (z : List Name × Nat) (hz : ∃ c, BAt b z.1 c ∧ c.Live z.2) : p z := by
  have hfin := live_finite hv hr
  have := hfin.to_subtype
  let R : {z : List Name × Nat | ∃ c, BAt b z.1 c ∧ c.Live z.2} → {z : List Name × Nat | ∃ c, BAt b z.1 c ∧ c.Live z.2} → Prop := fun a c => Relation.TransGen (Into b) a.1 c.1
  have hwf : WellFounded R := by
    have : IsTrans _ R := ⟨fun _ _ _ h1 h2 => h1.trans h2⟩
    have : Std.Irrefl R := ⟨fun a => into_acyclic hv.acyclic a.1⟩
    exact Finite.wellFounded_of_trans_of_irrefl R
  have key : ∀ w : {z : List Name × Nat | ∃ c, BAt b z.1 c ∧ c.Live z.2}, p w.1 := fun w => hwf.induction (C := fun w => p w.1) w fun w ih => h w.1 w.2 fun a ha hi => ih ⟨a, ha⟩ (.single hi)
  exact key ⟨z, hz⟩

variable [Field K] [DecidableEq K]

/-- two solutions agree on a variable if they agree on what it depends on -/
theorem Solution.depends {b : Body K F} {objs : List (PObj K F)} {root : OModel} (hv : ValidProgram b) (hr : runProgram b = .ok (objs, root)) (hn : objs.length ≤ 63 ^ 4) {P : Power K} {den den' : F → List (Val K) → Nat → Val K}
    {ρ ρ' : List Name → Nat → Val K} (h : Solution P den b ρ) (h' : Solution P den' b ρ') (z : List Name × Nat) (hz : ∃ c, BAt b z.1 c ∧ c.Live z.2)
    (hg : ∀ path y, GivenVar b path y → DependsOn b z (path, y) → ρ path y = ρ' path y) (hd : ∀ f, DependsOnCall b z f → den f = den' f) : ρ z.1 z.2 = ρ' z.1 z.2 := by
  obtain ⟨Ls, hh, _⟩ := runFrom_hier hr (all := objs) List.prefix_rfl
  have u : Setup objs b root Ls := ⟨hh, hv.names, runFrom_closed (by simp [Closed]) hr, hn⟩
  refine depends_induction hv hr (p := fun z => (∀ path y, GivenVar b path y → DependsOn b z (path, y) → ρ path y = ρ' path y) → (∀ f, DependsOnCall b z f → den f = den' f) → ρ z.1 z.2 = ρ' z.1 z.2) ?_ z hz hg hd
  rintro ⟨path, x⟩ ⟨c, hc, hl⟩ ih hg hd
  by_cases hgiv : GivenVar b path x
  · exact hg path x hgiv .refl
  have : ∃ path' b' n s y, BAt b path' b' ∧ b'.Has n s ∧ s.Computes ∧ n ≤ y ∧ y < n + s.count ∧ b'.Live y ∧ Relation.EqvGen (Same b) (path, x) (path', y) := by
    by_contra hcon
    exact hgiv ⟨⟨c, hc, hl⟩, fun path' b' n s y h1 h2 h3 h4 h5 h6 h7 => hcon ⟨path', b', n, s, y, h1, h2, h3, h4, h5, h6, h7⟩⟩
  obtain ⟨path', d, n, s, y, hb, hs, hcomp, h1, h2, hl', he⟩ := this
  rw [h.same u he, h'.same u he]
  dsimp only
  have hop : ∀ a, Feeds b (path', a) (path', y) → d.Live a → ρ path' a = ρ' path' a := fun a hf hla =>
    ih (path', a) ⟨d, hb, hla⟩ ⟨_, hf, he.symm⟩
      (fun p v k1 k2 => hg p v k1 ((k2.tail (Or.inr hf)).tail (Or.inl he.symm)))
      (fun f ⟨p, d', m, args, outs, j, k1, k2, k3, k4, k5⟩ => hd f ⟨p, d', m, args, outs, j, k1, k2, k3, k4, (k5.tail (Or.inr hf)).tail (Or.inl he.symm)⟩)
  have hope : ∀ a ∈ s.operands, ρ path' a = ρ' path' a := fun a ha => hop a (Or.inl ⟨d, n, s, rfl, hb, hs, hcomp, h1, h2, hl', ha⟩) (.operand hl' hs h1 h2 ha)
  cases s with
  | expr i =>
    obtain rfl : y = n := by simp [Stmt.count] at h2; omega
    rw [h.expr path' d hb y i hs hl', h'.expr path' d hb y i hs hl']
    refine meaning_operands P i fun a ha => ?_
    have hlt := operands_before (hv.methods _ _ hb) hs (x := a) ha
    simp only [List.getD_eq_getElem?_getD, List.getElem?_map, List.getElem?_range hlt, Option.map_some, Option.getD_some]
    exact hope a ha
  | call f args outs =>
    obtain ⟨j, rfl⟩ := Nat.exists_eq_add_of_le h1
    have hj : j < outs.length := by simpa [Stmt.count] using h2
    rw [h.call path' d hb n f args outs hs j hj hl', h'.call path' d hb n f args outs hs j hj hl', hd f ⟨path', d, n, args, outs, j, hb, hs, hj, hl', .single (Or.inl he.symm)⟩]
    rw [List.map_congr_left (l := args) (f := ρ path') (g := ρ' path') fun a ha => hope a ha]
  | index v key =>
    obtain rfl : y = n := by simp [Stmt.count] at h2; omega
    rw [h.index path' d hb y v key hs hl', h'.index path' d hb y v key hs hl', hope v (by simp [Stmt.operands])]
  | output name shape val =>
    obtain rfl : y = n := by simp [Stmt.count] at h2; omega
    obtain ⟨k1, k2⟩ := h.output path' d hb y name shape val hs
    obtain ⟨k1', k2'⟩ := h'.output path' d hb y name shape val hs
    funext i
    by_cases hi : ∀ key x idx shp, d.Assigned y key x → tgtIndices shape key = .ok (idx, shp) → (ravel shape i : Int) ∉ idx
    · rw [k2 i hi, k2' i hi]
    · push_neg at hi
      obtain ⟨key, a, idx, shp, g1, g2, g3⟩ := hi
      obtain ⟨j, hj⟩ := List.mem_iff_getElem?.1 g3
      rw [k1 key a idx shp g1 g2 i j hj, k1' key a idx shp g1 g2 i j hj, hop a (Or.inr ⟨d, name, shape, val, key, rfl, hb, hs, g1⟩) (by obtain ⟨m, w, g, _⟩ := g1; exact .assigned g)]
  | _ => exact hcomp.elim

end Csdl.Prog
