import Verif.Spec.Smooth
import Verif.Proofs.Depends
/-
For C118, C119: what holds of the given values, and is kept by every statement, holds of all values.
-/
namespace Csdl.Prog
open Csdl Csdl.Arith
variable {K F T : Type} [Field K] [DecidableEq K]

/-- a property `C` of functions of a parameter, which the given values have, and all results of statements if their operands have it -/
theorem Solution.family {b : Body K F} {objs : List (PObj K F)} {root : OModel} (hv : ValidProgram b) (hr : runProgram b = .ok (objs, root)) (hn : objs.length ≤ 63 ^ 4) {P : Power K} {den : F → List (Val K) → Nat → Val K}
    {ρ : T → List Name → Nat → Val K} (h : ∀ t, Solution P den b (ρ t)) (C : (T → K) → Prop)
    (hgiven : ∀ path y, GivenVar b path y → ∀ i, C fun t => ρ t path y i)
    (hexpr : ∀ path c, BAt b path c → ∀ n i, c.Has n (.expr i) → c.Live n → (∀ x ∈ i.first :: i.others, ∀ k, C fun t => ρ t path x k) → (∀ x ∈ i.first :: i.others, x < n) → ∀ k, C fun t => i.meaning P ((List.range n).map (ρ t path)) k)
    (hcall : ∀ path c, BAt b path c → ∀ n f args outs, c.Has n (.call f args outs) → ∀ j < outs.length, c.Live (n + j) → (∀ x ∈ args, ∀ k, C fun t => ρ t path x k) → ∀ k, C fun t => den f (args.map (ρ t path)) j k)
    (hout : ∀ path c, BAt b path c → ∀ y name shape val, c.Has y (.output name shape val) → ∀ i, (∀ key x idx shp, c.Assigned y key x → tgtIndices shape key = .ok (idx, shp) → (ravel shape i : Int) ∉ idx) → C fun _ => val i)
    (z : List Name × Nat) (hz : ∃ c, BAt b z.1 c ∧ c.Live z.2) : ∀ i, C fun t => ρ t z.1 z.2 i := by
  obtain ⟨Ls, hh, _⟩ := runFrom_hier hr (all := objs) List.prefix_rfl
  have u : Setup objs b root Ls := ⟨hh, hv.names, runFrom_closed (by simp [Closed]) hr, hn⟩
  refine depends_induction hv hr (p := fun z => ∀ i, C fun t => ρ t z.1 z.2 i) ?_ z hz
  rintro ⟨path, x⟩ ⟨c, hc, hl⟩ ih
  by_cases hgiv : GivenVar b path x
  · exact hgiven path x hgiv
  have : ∃ path' b' n s y, BAt b path' b' ∧ b'.Has n s ∧ s.Computes ∧ n ≤ y ∧ y < n + s.count ∧ b'.Live y ∧ Relation.EqvGen (Same b) (path, x) (path', y) := by
    by_contra hcon
    exact hgiv ⟨⟨c, hc, hl⟩, fun path' b' n s y h1 h2 h3 h4 h5 h6 h7 => hcon ⟨path', b', n, s, y, h1, h2, h3, h4, h5, h6, h7⟩⟩
  obtain ⟨path', d, n, s, y, hb, hs, hcomp, h1, h2, hl', he⟩ := this
  have hsame : ∀ t, ρ t path x = ρ t path' y := fun t => (h t).same u he
  simp only [hsame]
  have hop : ∀ a, Feeds b (path', a) (path', y) → d.Live a → ∀ k, C fun t => ρ t path' a k := fun a hf hla => ih (path', a) ⟨d, hb, hla⟩ ⟨_, hf, he.symm⟩
  have hope : ∀ a ∈ s.operands, ∀ k, C fun t => ρ t path' a k := fun a ha => hop a (Or.inl ⟨d, n, s, rfl, hb, hs, hcomp, h1, h2, hl', ha⟩) (.operand hl' hs h1 h2 ha)
  cases s with
  | expr i =>
    obtain rfl : y = n := by simp [Stmt.count] at h2; omega
    have e : ∀ t, ρ t path' y = i.meaning P ((List.range y).map (ρ t path')) := fun t => (h t).expr path' d hb y i hs hl'
    simp only [e]
    exact hexpr path' d hb y i hs hl' (fun a ha => hope a ha) (fun a ha => operands_before (hv.methods _ _ hb) hs (x := a) ha)
  | call f args outs =>
    obtain ⟨j, rfl⟩ := Nat.exists_eq_add_of_le h1
    have hj : j < outs.length := by simpa [Stmt.count] using h2
    have e : ∀ t, ρ t path' (n + j) = den f (args.map (ρ t path')) j := fun t => (h t).call path' d hb n f args outs hs j hj hl'
    simp only [e]
    exact hcall path' d hb n f args outs hs j hj hl' fun a ha => hope a ha
  | index v key =>
    obtain rfl : y = n := by simp [Stmt.count] at h2; omega
    have e : ∀ t, ρ t path' y = part (d.shapes.getD v []) key (ρ t path' v) := fun t => (h t).index path' d hb y v key hs hl'
    simp only [e]
    intro i
    cases hk : keyPart (d.shapes.getD v []) key with
    | error q => simp only [part, hk]; exact hope v (by simp [Stmt.operands]) i
    | ok q => simp only [part, hk, gather]; exact hope v (by simp [Stmt.operands]) _
  | output name shape val =>
    obtain rfl : y = n := by simp [Stmt.count] at h2; omega
    intro i
    by_cases hi : ∀ key x idx shp, d.Assigned y key x → tgtIndices shape key = .ok (idx, shp) → (ravel shape i : Int) ∉ idx
    · have e : ∀ t, ρ t path' y i = val i := fun t => ((h t).output path' d hb y name shape val hs).2 i hi
      simp only [e]
      exact hout path' d hb y name shape val hs i hi
    · push_neg at hi
      obtain ⟨key, a, idx, shp, g1, g2, g3⟩ := hi
      obtain ⟨j, hj⟩ := List.mem_iff_getElem?.1 g3
      have e : ∀ t, ρ t path' y i = ρ t path' a (unravel shp j) := fun t => ((h t).output path' d hb y name shape val hs).1 key a idx shp g1 g2 i j hj
      simp only [e]
      exact hop a (Or.inr ⟨d, name, shape, val, key, rfl, hb, hs, g1⟩) (by obtain ⟨m, w, g, _⟩ := g1; exact .assigned g) _
  | _ => exact hcomp.elim

end Csdl.Prog
