import Verif.Proofs.Print4
import Verif.Props.ValidProgram
/-
C96: adding an output, and in particular printing a variable, does no harm.
-/
namespace Csdl.Prog
open Csdl Csdl.Arith
variable {K F : Type} [Field K] [DecidableEq K]

/-- **C96 (acceptance).** If a valid program is changed by adding `y = f(...); self.register_output(nm, y)` at the end of the method of one of its models, where the arguments are variables that matter and `nm` is a new name, it is
still valid (so it runs, and its representation is built: C74). -/
theorem C96_accepted (b b' c : Body K F) (path : List Name) (hv : ValidProgram b) (f : F) (args : List Nat) (sh : Shape) (nm : Name) (hr : Replaced c (c.addOutput f args sh nm) b path b') (ha : ∀ a ∈ args, c.Live a)
    (hn : NewOutput b b' path c nm) : ValidProgram b' := Adding.validProgram ⟨hv, hr, grew_addOutput f args sh nm c, ha, hn⟩

/-- **C96 (values).** Such a change does not change any value: if both programs are run and compiled, executing the representations with the same values for the variables that must be given yields the same values for all variables
that matter, whatever the functions mean; the value of the new output is the value of the function at the values of its arguments. -/
theorem C96_values (b b' c : Body K F) (path : List Name) (hv : ValidProgram b) (f : F) (args : List Nat) (sh : Shape) (nm : Name) (hr : Replaced c (c.addOutput f args sh nm) b path b') (ha : ∀ a ∈ args, c.Live a)
    (hn : NewOutput b b' path c nm) (hs : b.Assigns → b'.maxObjects ≤ 63 ^ 4) :
    ∃ objs root objs' root', runProgram b = .ok (objs, root) ∧ runProgram b' = .ok (objs', root') ∧ (objs.length ≤ 63 ^ 4 → objs'.length ≤ 63 ^ 4 →
      ∀ order : List Nat → List Nat, (∀ l x, x ∈ order l ↔ x ∈ l) → ∀ fuel, (∀ path d, BAt b' path d → (d.locals.outputs ++ d.locals.declared).length + max objs.length objs'.length ≤ fuel) →
      ∃ rep rep', compile (objects objs) fuel order root = .ok rep ∧ compile (objects objs') fuel order root' = .ok rep' ∧
        ∃ (r r' : Nat → Nat) (node node' : List Name → Nat → Nat), ∀ (P : Power K) (den : F → List (Val K) → Nat → Val K) (σ0 σ0' : Env (Val K)),
          let value := fun path x => execAll rep.graph ⟨fun i => decide ((objects objs i).kind = .op), fun i => (objects objs i).deps.map r, opMeaning P den objs⟩ σ0 rep.sorted (node path x)
          let value' := fun path x => execAll rep'.graph ⟨fun i => decide ((objects objs' i).kind = .op), fun i => (objects objs' i).deps.map r', opMeaning P den objs'⟩ σ0' rep'.sorted (node' path x)
          Solution P den b value ∧ Solution P den b' value' ∧ (∀ path x, GivenVar b path x → value path x = σ0 (node path x) ∧ value' path x = σ0' (node' path x)) ∧
          value' path (numVars (c.stmts 0)) = den f (args.map (value' path)) 0 ∧
          ((∀ path x, GivenVar b path x → σ0 (node path x) = σ0' (node' path x)) → ∀ path d, BAt b path d → ∀ x, d.Live x → value path x = value' path x)) := by
  have g := grew_addOutput f args sh nm c
  have A : Adding f args sh nm c _ b path b' := ⟨hv, hr, g, ha, hn⟩
  have hmax : b.maxObjects ≤ b'.maxObjects := hr.maxObjects (by rw [Body.addOutput, maxObjects_append]; omega)
  obtain ⟨objs, root, h1, h2⟩ := C74_valid_programs_compute b hv fun h => hmax.trans (hs h)
  obtain ⟨objs', root', h1', h2'⟩ := C74_valid_programs_compute b' A.validProgram fun h => hs (A.assigns h)
  refine ⟨objs, root, objs', root', h1, h1', fun hl hl' order ho fuel hf => ?_⟩
  obtain ⟨rep, hc, r, node, h3⟩ := h2 hl order ho fuel fun path d hd => by
    obtain ⟨d', g1, ⟨rfl, rfl, rfl⟩ | ⟨_, _, e⟩⟩ := A.method hd
    · have := hf _ _ g1
      rw [g.localOutputs A.ok0, g.localDeclared] at this
      simp only [List.length_append, List.length_singleton] at this ⊢
      omega
    · have := hf _ _ g1
      rw [e] at this
      omega
  obtain ⟨rep', hc', r', node', h3'⟩ := h2' hl' order ho fuel fun path d hd => (Nat.add_le_add_left (Nat.le_max_right ..) _).trans (hf path d hd)
  refine ⟨rep, rep', hc, hc', r, r', node, node', fun P den σ0 σ0' => ?_⟩
  obtain ⟨s1, s2, s3⟩ := h3 P den σ0
  obtain ⟨t1, t2, _⟩ := h3' P den σ0'
  refine ⟨s1, t1, fun path x hg => ⟨s2 path x hg, t2 path x (A.given hg)⟩, ?_, fun he path d hb x hl => (s3 _ (A.solution t1) (fun path x hg => (t2 path x (A.given hg)).trans (he path x hg).symm) path d hb x hl).symm⟩
  exact t1.call path _ hr.symm.bat (numVars (c.stmts 0)) f args [sh] (by unfold Body.Has; rw [g.stmts]; simp) 0 (by simp) g.live_new

/-- **C96 (print_var).** Printing a variable that matters: the printed output has the value of the variable, in the program with and in the program without `print_var`. -/
theorem C96_print_var (b b' c : Body K F) (path : List Name) (hv : ValidProgram b) (f : F) (x : Nat) (nm : Name) (hr : Replaced c (c.print f x nm) b path b') (hx : c.Live x)
    (hn : NewOutput b b' path c nm) (hs : b.Assigns → b'.maxObjects ≤ 63 ^ 4) :
    ValidProgram b' ∧ ∃ objs root objs' root', runProgram b = .ok (objs, root) ∧ runProgram b' = .ok (objs', root') ∧ (objs.length ≤ 63 ^ 4 → objs'.length ≤ 63 ^ 4 →
      ∀ order : List Nat → List Nat, (∀ l x, x ∈ order l ↔ x ∈ l) → ∀ fuel, (∀ path d, BAt b' path d → (d.locals.outputs ++ d.locals.declared).length + max objs.length objs'.length ≤ fuel) →
      ∃ rep rep', compile (objects objs) fuel order root = .ok rep ∧ compile (objects objs') fuel order root' = .ok rep' ∧
        ∃ (r r' : Nat → Nat) (node node' : List Name → Nat → Nat), ∀ (P : Power K) (den : F → List (Val K) → Nat → Val K) (σ0 σ0' : Env (Val K)), (∀ v, den f [v] 0 = v) →
          let value := fun path x => execAll rep.graph ⟨fun i => decide ((objects objs i).kind = .op), fun i => (objects objs i).deps.map r, opMeaning P den objs⟩ σ0 rep.sorted (node path x)
          let value' := fun path x => execAll rep'.graph ⟨fun i => decide ((objects objs' i).kind = .op), fun i => (objects objs' i).deps.map r', opMeaning P den objs'⟩ σ0' rep'.sorted (node' path x)
          Solution P den b value ∧ (∀ path x, GivenVar b path x → value path x = σ0 (node path x) ∧ value' path x = σ0' (node' path x)) ∧
          ((∀ path x, GivenVar b path x → σ0 (node path x) = σ0' (node' path x)) → value' path (numVars (c.stmts 0)) = value path x ∧ ∀ path d, BAt b path d → ∀ x, d.Live x → value path x = value' path x)) := by
  have hr' : Replaced c (c.addOutput f [x] (c.shapes.getD x []) nm) b path b' := hr
  have hx' : ∀ a ∈ [x], c.Live a := by simpa using hx
  refine ⟨C96_accepted b b' c path hv f [x] _ nm hr' hx' hn, ?_⟩
  obtain ⟨objs, root, objs', root', h1, h2, h3⟩ := C96_values b b' c path hv f [x] _ nm hr' hx' hn hs
  refine ⟨objs, root, objs', root', h1, h2, fun hl hl' order ho fuel hf => ?_⟩
  obtain ⟨rep, rep', hc, hc', r, r', node, node', h4⟩ := h3 hl hl' order ho fuel hf
  refine ⟨rep, rep', hc, hc', r, r', node, node', fun P den σ0 σ0' hid => ?_⟩
  obtain ⟨k1, k2, k3, k4, k5⟩ := h4 P den σ0 σ0'
  refine ⟨k1, k3, fun he => ⟨?_, k5 he⟩⟩
  dsimp only at k4 k5 ⊢
  rw [k4, List.map_cons, List.map_nil, hid, ← k5 he path c hr.bat x hx]

/-! ### Example: printing `a` in the submodel -/

/-- `exMain` with `self.print_var(a)` in the submodel -/
def exPrinted : Body ℚ Unit :=
  .stmt (.input "x".toList [1] (fun _ => 1)) (.stmt (.expr (.mul 0 0)) (.stmt (.expr (.pos 1)) (.stmt (.register "s".toList 2) (.stmt (.connect "s".toList "m.a".toList)
    (.add false "m".toList (some ["c".toList]) (exSub.print () 0 "a_print".toList) (.stmt (.declare "c".toList [1] none) (.stmt (.expr (.add 3 0)) (.stmt (.register "t".toList 4) .done))))))))

theorem exPrinted_replaced : Replaced exSub (exSub.print () 0 "a_print".toList) exMain ["m".toList] exPrinted :=
  .stmt _ (.stmt _ (.stmt _ (.stmt _ (.stmt _ (.sub _ _ _ _ .here)))))

theorem exSub_live : exSub.Live 0 := .operand (y := 1) (n := 1) (s := .call () [0] [[1]]) (.output (name := "c".toList) (by decide +kernel)) (by unfold Body.Has; simp [exSub, Body.stmts, Stmt.count]) (by decide)
  (by simp [Stmt.count]) (by simp [Stmt.operands])

theorem exPrinted_new : NewOutput exMain exPrinted ["m".toList] exSub "a_print".toList where
  allowed := by intro c hc; revert c hc; decide +kernel
  notAuto := by unfold AutoLike; decide +kernel
  fresh := by
    refine ⟨?_, by decide +kernel⟩
    intro n s h
    unfold Body.Has at h
    simp only [exSub, Body.stmts, Stmt.count, List.mem_cons, Prod.mk.injEq, List.not_mem_nil, or_false] at h
    rcases h with ⟨_, rfl⟩ | ⟨_, rfl⟩ | ⟨_, rfl⟩ <;> simp only [Stmt.defines] <;> decide +kernel
  promoted := by
    intro path1 path2 d d' e h1 h2 w p hw hp path3 k v hq
    rcases exMain_at h1 with ⟨rfl, rfl⟩ | ⟨rfl, rfl⟩
    · cases h2
      obtain rfl : path2 = ["m".toList] := e.symm
      unfold exPrinted Body.toModel at hp
      generalize hm : ["m".toList] = pp at hp
      cases hp with
      | here => cases hm
      | @up _ _ path k v p s hs hp hpr =>
        simp only [Body.toSubs, Subs.toList, List.mem_singleton] at hs
        subst hs
        obtain ⟨_, rfl⟩ := List.cons.inj hm
        cases hp with
        | here hv => dsimp only [IsPromoted] at hpr; rw [hw] at hpr; revert hpr; decide +kernel
      | @stay _ _ path k v p s hs hp hpr =>
        simp only [Body.toSubs, Subs.toList, List.mem_singleton] at hs
        subst hs
        obtain ⟨_, rfl⟩ := List.cons.inj hm
        cases hp with
        | here hv =>
          rw [hw] at hq
          rcases exMain_promoted hq with h | h | h | h | h | h <;> exact absurd h.2.2.2 (by decide +kernel)
    · obtain rfl : path2 = [] := by simpa using e
      have : p = "a_print".toList := by cases hp; exact hw
      subst this
      rcases exSub_promoted hq with h | h <;> exact absurd h.2.2.2 (by decide +kernel)

example : ValidProgram exPrinted ∧ (exMain.Assigns → exPrinted.maxObjects ≤ 63 ^ 4) := ⟨C96_accepted _ _ _ _ exMain_valid _ _ _ _ exPrinted_replaced (by simpa using exSub_live) exPrinted_new, fun _ => by decide +kernel⟩

end Csdl.Prog
