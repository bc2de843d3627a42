import Verif.Proofs.Program5
import Verif.Proofs.ProgramAlias
import Verif.Spec.ValidProgram
/-
Which programs run: one method.
-/
namespace Csdl.Prog
open Csdl Csdl.Arith
variable {K F : Type} [Field K] [DecidableEq K]

theorem allowed_iff (name : Name) : checkBannedChars name = true ↔ Allowed name := by simp [checkBannedChars, Allowed]

omit [Field K] [DecidableEq K] in
theorem shapeOf_prefix {a b : List (PObj K F)} (h : a <+: b) {i : Nat} (hi : i < a.length) : shapeOf b i = shapeOf a i := by
  obtain ⟨t, rfl⟩ := h
  unfold shapeOf
  rw [List.getElem?_append_left hi]

/-- copies have the shapes of the arguments -/
theorem dedup_shapes : ∀ (args : List Nat) (objs : List (PObj K F)) (seen : List Nat), (∀ a ∈ args, a < objs.length) →
    (dedup objs seen args).2.map (shapeOf (dedup objs seen args).1) = args.map (shapeOf objs)
  | [], objs, _, _ => rfl
  | a :: as, objs, seen, h => by
    have ha := h a (List.mem_cons_self ..)
    have has : ∀ x ∈ as, x < objs.length := fun x hx => h x (List.mem_cons_of_mem _ hx)
    unfold dedup
    split
    · have hlen : objs.length + 1 < (newOp objs copyKind [a] [shapeOf objs a]).length := by simp [newOp]
      have ih := dedup_shapes as (newOp objs copyKind [a] [shapeOf objs a]) ((objs.length + 1) :: seen) fun x hx => by have := has x hx; omega
      simp only [List.map_cons]
      rw [ih, shapeOf_prefix (dedup_prefix _ _ _) hlen]
      congr 1
      · simp [shapeOf, newOp, resultObj]
      · exact List.map_congr_left fun x hx => shapeOf_prefix (List.prefix_append _ _) (has x hx)
    · have ih := dedup_shapes as objs (a :: seen) has
      simp only [List.map_cons]
      rw [ih, shapeOf_prefix (dedup_prefix _ _ _) ha]

/-- the variables are numbered -/
structure OInv (L : List (Nat × Stmt K F)) (st : St K F) : Prop where
  num : numVars L = st.env.length

theorem OInv.start (objs : List (PObj K F)) : OInv [] ({ objs := objs } : St K F) := ⟨rfl⟩

theorem OInv.exec {objs0 : Foreign K F} {L : List (Nat × Stmt K F)} {S : List (Name × Option (List Name))} {st st' : St K F} (o : OInv L st) (h : Inv objs0 L S st) (s : Stmt K F)
    (he : Prog.exec st s = .ok st') : OInv (L ++ [(st.env.length, s)]) st' := by
  obtain ⟨h', hlen, _⟩ := h.exec s he
  exact ⟨by simp [numVars, hlen, ← o.num]⟩

end Csdl.Prog
