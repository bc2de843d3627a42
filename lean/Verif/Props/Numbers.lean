import Verif.Proofs.NumbersFull
import Verif.Props.Flatten
import Verif.Props.ProgramFull
import Mathlib.Algebra.Field.Rat
/-
C116: numbers do not influence what is accepted and what is built.
-/
namespace Csdl.Prog
open Csdl Csdl.Arith
variable {K F L G : Type}

theorem sameKind_of_erase {Φ : Type} [Tag F Φ] [Tag G Φ] {k : Kind K F} {k' : Kind L G} (h : eKind k = eKind k') : SameKind k k' := by
  rcases k with (_ | _) | _ | _ | _ <;> rcases k' with (_ | _) | _ | _ | _ <;> simp_all [eKind, eOp, SameKind]

theorem sameKinds_of_erase {Φ : Type} [Tag F Φ] [Tag G Φ] {objs : List (PObj K F)} {objs' : List (PObj L G)} (h : objs.map ePObj = objs'.map ePObj) (i : Nat) :
    (kindOf objs i = none ∧ kindOf objs' i = none) ∨ ∃ k k', kindOf objs i = some k ∧ kindOf objs' i = some k' ∧ SameKind k k' := by
  have h' : (objs.map ePObj)[i]? = (objs'.map ePObj)[i]? := by rw [h]
  simp only [List.getElem?_map] at h'
  simp only [kindOf]
  cases h1 : objs[i]? <;> cases h2 : objs'[i]? <;> rw [h1, h2] at h' <;> simp [ePObj] at h' ⊢
  rename_i p q
  obtain ⟨_, h3, _⟩ := h'
  cases h4 : p.op <;> cases h5 : q.op <;> rw [h4, h5] at h3 <;> simp at h3 ⊢
  exact sameKind_of_erase h3

/-- (only used to leave out functions) nothing is kept of a function -/
local instance tagUnit {T : Type} : Tag T Unit := ⟨fun _ => ()⟩

variable [Field K] [DecidableEq K] [Field L] [DecidableEq L]

/-- **C116.** Let two programs differ only in numbers (values given for inputs, outputs and declared variables, constants in expressions, where no constant that is divided by is zero in one program only) and in functions of the same number of arguments and shapes of results.
Then one raises an exception when it is run if and only if the other does, and the same; and if they run, they create the same objects with the same names, shapes, roles and dependencies and the same model hierarchy, the operations are the same but for numbers and functions, and compilation gives
the same result, an exception or a representation: the same graph, the same names, the same execution order. -/
theorem C116_numbers_do_not_matter (b : Body K F) (b' : Body L G) (h : SameButNumbers (fun _ _ => True) b b') : (∀ e, runProgram b = .error e ↔ runProgram b' = .error e) ∧
    ∀ objs root, runProgram b = .ok (objs, root) → ∃ objs', runProgram b' = .ok (objs', root) ∧ objs'.length = objs.length ∧ (∀ i, objects objs' i = objects objs i) ∧
      (∀ i, (kindOf objs i = none ∧ kindOf objs' i = none) ∨ ∃ k k', kindOf objs i = some k ∧ kindOf objs' i = some k' ∧ SameKind k k') ∧
      ∀ fuel order, compile (objects objs') fuel order root = compile (objects objs) fuel order root := by
  have key := h.runFrom_eq (Φ := Unit) (fun _ _ _ => rfl) (pre := []) (pre' := []) rfl
  rcases except_cases key with ⟨e, e1, e2⟩ | ⟨⟨objs, root⟩, ⟨objs', root'⟩, e1, e2, e3⟩
  · refine ⟨fun e' => ?_, fun objs root k => ?_⟩
    · rw [runProgram, runProgram, e1, e2]
      constructor <;> (intro k; cases k; rfl)
    · rw [runProgram, e1] at k; cases k
  · refine ⟨fun e' => ?_, fun objs1 root1 k => ?_⟩
    · rw [runProgram, runProgram, e1, e2]
      constructor <;> intro k <;> cases k
    · rw [runProgram, e1] at k; cases k
      simp only [Prod.mk.injEq] at e3
      obtain ⟨e3, rfl⟩ := e3
      have ho := objects_erase e3
      exact ⟨objs', e2, by simpa using (congrArg List.length e3).symm, fun i => by rw [ho], sameKinds_of_erase e3, fun fuel order => by rw [ho]⟩

section
variable {I F' G' I' : Type}
attribute [-instance] tagUnit
attribute [local instance] tagFunInst

/-- **C116, custom and implicit operations.** The same for programs with custom operations, implicit operations (defined by the same model) and optimisation declarations:
other numbers and other functions of the operations, with the same declarations, have no influence on what is accepted, and if the programs run, they create the same objects and hierarchy, with the same sorts of operations, and have the same representation. -/
theorem C116_with_custom_operations (b : XBody K F G I) (b' : XBody K F' G' I') (h : XSameButNumbers b b') : (∀ e, xrunProgram b = .error e ↔ xrunProgram b' = .error e) ∧
    ∀ objs root, xrunProgram b = .ok (objs, root) → ∃ objs', xrunProgram b' = .ok (objs', root) ∧ objs'.length = objs.length ∧ (∀ i, xobjects objs' i = xobjects objs i) ∧
      (∀ i, (kindOf objs i = none ∧ kindOf objs' i = none) ∨ ∃ k k', kindOf objs i = some k ∧ kindOf objs' i = some k' ∧ SameKind k k') ∧
      (∀ i f f', kindOf objs i = some (.fn f) → kindOf objs' i = some (.fn f') → SameSort f f') ∧
      ∀ fuel order, compile (xobjects objs') fuel order root = compile (xobjects objs) fuel order root := by
  have key := h.runFrom_eq (pre := []) (pre' := []) rfl
  rcases except_cases key with ⟨e, e1, e2⟩ | ⟨⟨objs, root⟩, ⟨objs', root'⟩, e1, e2, e3⟩
  · refine ⟨fun e' => ?_, fun objs root k => ?_⟩
    · rw [xrunProgram, xrunProgram, e1, e2]
      constructor <;> (intro k; cases k; rfl)
    · rw [xrunProgram, e1] at k; cases k
  · refine ⟨fun e' => ?_, fun objs1 root1 k => ?_⟩
    · rw [xrunProgram, xrunProgram, e1, e2]
      constructor <;> intro k <;> cases k
    · rw [xrunProgram, e1] at k; cases k
      simp only [Prod.mk.injEq] at e3
      obtain ⟨e3, rfl⟩ := e3
      have ho := xobjects_erase e3
      refine ⟨objs', e2, by simpa using (congrArg List.length e3).symm, fun i => by rw [ho], sameKinds_of_erase e3, fun i f f' k1 k2 => ?_, fun fuel order => by rw [ho]⟩
      have h' : (objs.map ePObj)[i]? = (objs'.map ePObj)[i]? := by rw [e3]
      simp only [List.getElem?_map] at h'
      simp only [kindOf] at k1 k2
      cases h1 : objs[i]? <;> cases h2 : objs'[i]? <;> rw [h1, h2] at h' <;> simp [h1, h2, ePObj] at h' k1 k2
      simp only [k1, k2, Option.map_some, Option.some.injEq, eKind, Kind.fn.injEq] at h'
      have h3 := h'.2.1
      cases f <;> cases f' <;> simp_all [SameSort, Tag.tag, tagFun]
end

/-! ### Examples -/

/-- `exX` (Verif/Props/ProgramFull.lean) with the value `c` of its input and the function `g` for its custom operation -/
def exXNum (c : ℚ) (g : Nat) : XBody ℚ Unit Nat Unit :=
  .stmt (.plain (.input "a".toList [1] (fun _ => c))) (.stmt (.implicit () exImp 9 exFac ["p".toList] [0]) (.stmt (.custom g [.input "y".toList (.tuple [1]) (.number 1), .output "o".toList (.tuple [1]) (.number 1)] [1] ["t".toList])
    (.add false "s".toList (some []) exXSub (.stmt (.designVar "a".toList 5) (.stmt (.constraint "t".toList 6) (.stmt (.objective "p".toList 7) .done))))))

/-- **C116, all values and functions.** All programs of the form `exXNum` are accepted and have the same representation. -/
theorem C116_custom_example : ∃ root rep, ∀ c g, ∃ objs, xrunProgram (exXNum c g) = .ok (objs, root) ∧ objs.length = 10 ∧ compile (xobjects objs) 20 id root = .ok rep := by
  obtain ⟨objs, root, rep, h1, h2, h3⟩ := exX_run
  refine ⟨root, rep, fun c g => ?_⟩
  have hs : XSameButNumbers exXSub exXSub := by
    unfold exXSub
    exact .stmt (.plain (.input _ _ _ _)) (.stmt (.custom _ _ _ _ _) (.stmt (.designVar _ _) .done))
  obtain ⟨objs', k1, k2, _, _, _, k3⟩ := (C116_with_custom_operations exX (exXNum c g) (.stmt (.plain (.input _ _ _ _)) (.stmt (.implicit _ _ _ _ _ _ _) (.stmt (.custom _ _ _ _ _) (.add _ _ _ hs (.stmt (.designVar _ _) (.stmt (.constraint _ _) (.stmt (.objective _ _) .done)))))))).2 objs root h1
  exact ⟨objs', k1, k2.trans h2, by rw [k3]; exact h3⟩

def errCheck {ε α : Type} [DecidableEq ε] (x : Except ε α) (e : ε) : Bool := match x with | .ok _ => false | .error e' => decide (e' = e)

theorem error_of_check {ε α : Type} [DecidableEq ε] {x : Except ε α} {e : ε} (h : errCheck x e = true) : x = .error e := by
  cases x with
  | ok _ => cases h
  | error e' => rw [of_decide_eq_true h]

/-- `x = create_input('x', val=c); y = create_output('y', shape=(2,)); y[0] = x / d; y[1] = x * c + d`, in a submodel of a model that declares `y` and registers `y ** d` -/
def exNum (c d : ℚ) : Body ℚ Unit :=
  .stmt (.declare "y".toList [2] none) (.stmt (.expr (.powc 0 (.num d))) (.stmt (.register "z".toList 1)
    (.add false "m".toList none (.stmt (.input "x".toList [1] fun _ => c) (.stmt (.output "y".toList [2] fun _ => d) (.stmt (.expr (.divc 0 (.num d))) (.stmt (.expr (.mulc 0 (.num c))) (.stmt (.expr (.addc 3 (.num d)))
      (.stmt (.assign 1 (.int 0) 2) (.stmt (.assign 1 (.int 1) 4) .done))))))) .done)))

/-- programs with other numbers, none of which is divided by being zero, are the same but for numbers -/
theorem exNum_same (c d c' d' : ℚ) (hd : d ≠ 0) (hd' : d' ≠ 0) : SameButNumbers (fun _ _ => True) (exNum c d) (exNum c' d') := by
  refine .stmt (.declare _ _) (.stmt (.expr (.powc _ _ _)) (.stmt (.register _ _) (.add _ _ _ ?_ .done)))
  exact .stmt (.input _ _ _ _) (.stmt (.output _ _ _ _) (.stmt (.expr (.divc _ _ _ (by simp [BothZero, hd, hd']))) (.stmt (.expr (.mulc _ _ _)) (.stmt (.expr (.addc _ _ _)) (.stmt (.assign _ _ _) (.stmt (.assign _ _ _) .done))))))

/-- **C116, all numbers.** Every program of the form `exNum` with a divisor other than zero is accepted, and all have the same representation, as one of them is accepted. -/
theorem C116_example (c d : ℚ) (hd : d ≠ 0) : ∃ objs root rep, runProgram (exNum c d) = .ok (objs, root) ∧ compile (objects objs) 40 id root = .ok rep ∧ rep.p2u.keys = ["z".toList, "y".toList, "x".toList] := by
  obtain ⟨⟨objs, root⟩, hr, h⟩ := ok_of_check (x := runProgram (exNum 1 1)) (P := fun q => okCheck (compile (objects q.1) 40 id q.2) fun rep => decide (rep.p2u.keys = ["z".toList, "y".toList, "x".toList])) (by decide +kernel)
  obtain ⟨rep, hc, h⟩ := ok_of_check h
  obtain ⟨objs', h1, _, _, _, h2⟩ := (C116_numbers_do_not_matter _ _ (exNum_same 1 1 c d one_ne_zero hd)).2 objs root hr
  exact ⟨objs', root, rep, h1, by rw [h2]; exact hc, of_decide_eq_true h⟩

/-- **C116, zero matters.** If a constant that is divided by is zero in one program only, one program is accepted (`C116_example`) and the other raises ZeroDivisionError, although they differ only in numbers. -/
theorem C116_zero_divisor (c : ℚ) : runProgram (exNum c 0) = .error (.arith .zeroDiv) := by
  refine ((C116_numbers_do_not_matter (exNum c 0) (exNum 1 0) ?_).1 _).2 (error_of_check (by decide +kernel))
  refine .stmt (.declare _ _) (.stmt (.expr (.powc _ _ _)) (.stmt (.register _ _) (.add _ _ _ ?_ .done)))
  exact .stmt (.input _ _ _ _) (.stmt (.output _ _ _ _) (.stmt (.expr (.divc _ _ _ Iff.rfl)) (.stmt (.expr (.mulc _ _ _)) (.stmt (.expr (.addc _ _ _)) (.stmt (.assign _ _ _) (.stmt (.assign _ _ _) .done))))))

end Csdl.Prog
