import Verif.Spec.Join
import Verif.Proofs.Reorder
import Verif.Proofs.Program12
/-
Programs that join the same variables.
-/
namespace Csdl.Prog
open Csdl Csdl.Arith
variable {K F : Type}

theorem SameStatements.symm {c c' : Body K F} (h : SameStatements c c') : SameStatements c' c := Eq.symm h
theorem SameMethods.symm {b b' : Body K F} (h : SameMethods b b') : SameMethods b' b :=
  ⟨fun path c hc => (h.2 path c hc).imp fun _ h => ⟨h.1, h.2.symm⟩, fun path c hc => (h.1 path c hc).imp fun _ h => ⟨h.1, h.2.symm⟩⟩
theorem SameJoins.symm {b b' : Body K F} (h : SameJoins b b') : SameJoins b' b := fun u v => (h u v).symm

section one
variable {b b' : Body K F} (h : SameStatements b b')
include h

theorem SameStatements.plain : plainOf (b.stmts 0) = plainOf (b'.stmts 0) := by
  have e : ∀ L : List (Nat × Stmt K F), plainOf L = L.filter fun s => s.2.notConnect := fun L => by
    unfold plainOf
    congr 1
  rw [e, e]
  exact h

theorem SameStatements.has {n : Nat} {s : Stmt K F} (hs : s.plain = true) (hh : b.Has n s) : b'.Has n s := (mem_plainOf.1 (h.plain ▸ mem_plainOf.2 ⟨hh, hs⟩)).1

theorem SameStatements.shapes : b.shapes = b'.shapes := by rw [Body.shapes, ← shapesOf_plain, h.plain, shapesOf_plain]; rfl

theorem SameStatements.inputs : (b.stmts 0).filterMap inputOf = (b'.stmts 0).filterMap inputOf := by
  rw [← filterMap_plain inputOf (fun _ _ _ => rfl), h.plain, filterMap_plain inputOf (fun _ _ _ => rfl)]

theorem SameStatements.declareds : (b.stmts 0).filterMap declaredOf = (b'.stmts 0).filterMap declaredOf := by
  rw [← filterMap_plain declaredOf (fun _ _ _ => rfl), h.plain, filterMap_plain declaredOf (fun _ _ _ => rfl)]

theorem SameStatements.outputs : (b.stmts 0).filterMap outputOf = (b'.stmts 0).filterMap outputOf := by
  rw [← filterMap_plain outputOf (fun _ _ _ => rfl), h.plain, filterMap_plain outputOf (fun _ _ _ => rfl)]

theorem SameStatements.named {x : Nat} {name : Name} : b.Named x name ↔ b'.Named x name := by
  unfold Body.Named
  rw [h.inputs, h.declareds, h.outputs]

theorem SameStatements.alias {x y : Nat} : Alias (b.stmts 0) x y ↔ Alias (b'.stmts 0) x y := alias_plain_iff h.plain

theorem SameStatements.assigned {y x : Nat} {key : Key} (ha : b.Assigned y key x) : b'.Assigned y key x := by
  obtain ⟨n, z, h1, h2⟩ := ha
  exact ⟨n, z, h.has rfl h1, h.alias.1 h2⟩

theorem SameStatements.live {x : Nat} (hl : b.Live x) : b'.Live x := by
  induction hl with
  | input h1 => exact .input (h.inputs ▸ h1)
  | output h1 => exact .output (h.outputs ▸ h1)
  | operand _ h1 h2 h3 h4 ih =>
    refine .operand ih (h.has ?_ h1) h2 h3 h4
    rename_i s _; cases s <;> simp_all [Stmt.plain, Stmt.operands]
  | result _ h1 h2 h3 h4 h5 ih =>
    refine .result ih (h.has ?_ h1) h2 h3 h4 h5
    rename_i s _
    cases s <;> first | rfl | (simp only [Stmt.count] at h3; omega)
  | part _ h1 h2 h3 ih => exact .part ih (h.has rfl h1) (h.has rfl h2) (h.alias.1 h3)
  | assigned h1 => exact .assigned (h.has rfl h1)
  | same _ h1 h2 ih => exact .same ih (h.named.1 h1) (h.named.1 h2)

theorem SameStatements.localVars (k : VarKind) : b.locals.vars k = b'.locals.vars k := by
  cases k <;> simp [Local.vars, Local.sources, Body.locals, h.inputs, h.outputs, h.declareds, h.shapes]

end one

/-- values that solve one program solve the other -/
theorem SameMethods.solution [Field K] {P : Power K} {den : F → List (Val K) → Nat → Val K} {ρ : List Name → Nat → Val K} {b b' : Body K F} (h : SameMethods b b') (hs : Solution P den b ρ)
    (hj : ∀ u v, Same b' u v → ρ u.1 u.2 = ρ v.1 v.2) : Solution P den b' ρ where
  expr := by
    intro path c hc n i hn hl
    obtain ⟨c', h1, h2⟩ := h.symm.1 path c hc
    exact hs.expr path c' h1 n i (h2.has rfl hn) (h2.live hl)
  call := by
    intro path c hc n f args outs hn j hj hl
    obtain ⟨c', h1, h2⟩ := h.symm.1 path c hc
    exact hs.call path c' h1 n f args outs (h2.has rfl hn) j hj (h2.live hl)
  index := by
    intro path c hc n x key hn hl
    obtain ⟨c', h1, h2⟩ := h.symm.1 path c hc
    rw [h2.shapes]
    exact hs.index path c' h1 n x key (h2.has rfl hn) (h2.live hl)
  output := by
    intro path c hc y name shape val hn
    obtain ⟨c', h1, h2⟩ := h.symm.1 path c hc
    obtain ⟨h3, h4⟩ := hs.output path c' h1 y name shape val (h2.has rfl hn)
    exact ⟨fun key x idx shp ha => h3 key x idx shp (h2.assigned ha), fun i hi => h4 i fun key x idx shp ha => hi key x idx shp (h2.symm.assigned ha)⟩
  shared := fun path x path' y p h1 h2 => hj (path, x) (path', y) (.name p h1 h2)
  connected := fun path c hc s t p q hst hp hq path1 x path2 y h1 h2 => hj (path1, x) (path2, y) (.connection path c s t p q hc hst hp hq h1 h2)

theorem SameMethods.given {b b' : Body K F} (h : SameMethods b b') (hj : SameJoins b b') {path : List Name} {x : Nat} (hg : GivenVar b path x) : GivenVar b' path x := by
  obtain ⟨⟨c, h1, h2⟩, h3⟩ := hg
  obtain ⟨c', h4, h5⟩ := h.1 path c h1
  refine ⟨⟨c', h4, h5.live h2⟩, fun path' d n s y hd hn hcm h6 h7 hl he => ?_⟩
  obtain ⟨d', h8, h9⟩ := h.symm.1 path' d hd
  exact h3 path' d' n s y h8 (h9.has hcm.plain hn) hcm h6 h7 (h9.live hl) ((hj _ _).2 he)

end Csdl.Prog
