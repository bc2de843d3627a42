import Verif.Proofs.Dead3
import Verif.Props.ValidProgram
/-
C102: computations whose results are not used.
-/
namespace Csdl.Prog
open Csdl Csdl.Arith
variable {K F : Type}

/-- **C102 (the last statement).** Nothing uses the results of the last statement of a method: operator expressions and calls of functions do not matter there, and neither does a part of a variable of which no other part matters. -/
theorem C102_last_statement [Zero K] (c : Body K F) (s : Stmt K F) (hm : MethodOk c) (hs : s.IsComputation) (hok : StmtOk (c.stmts 0) s)
    (hp : ∀ u k, s = .index u k → ∀ y v l, c.Has y (.index v l) → Alias (c.stmts 0) u v → ¬ c.Live y) : DeadLast c s := by
  refine ⟨hs, hok, fun j hj hl => ?_⟩
  cases s with
  | expr i => exact absurd (expr_unused hm hok hl) (by omega)
  | call f args outs => exact absurd (call_unused hm hl) (by omega)
  | index u k => exact absurd (hm.live_lt (index_unused hm hok (hp u k rfl) hl)) (by omega)
  | _ => exact hs.elim

/-- **C102 (validity).** Adding a computation whose results are not used to a model of a valid program yields a valid program. -/
theorem C102_unused_valid [Zero K] (b b' c : Body K F) (q : List Name) (s : Stmt K F) (hv : ValidProgram b) (h : Replaced c (c.addStmt s) b q b') (hd : DeadLast c s) : ValidProgram b' :=
  have hm := hv.methods q c h.bat
  hv.alike h (looks_first hm hd.computation hd.ok hd.unused) (looks_last hm hd.computation hd.ok hd.unused) (subs_addStmt s c).symm (methodOk_last hm hd.computation hd.ok hd.unused)

variable [Field K] [DecidableEq K]

omit [DecidableEq K] in
theorem assigns_last {b b' c : Body K F} {q : List Name} {s : Stmt K F} (hv : ValidProgram b) (h : Replaced c (c.addStmt s) b q b') (hd : DeadLast c s) (ha : b'.Assigns) : b.Assigns := by
  have hm := hv.methods q c h.bat
  have h1 := looks_first hm hd.computation hd.ok hd.unused
  have h2 := looks_last hm hd.computation hd.ok hd.unused
  obtain ⟨_, _, hv'⟩ := alike_of_replaced hv.namesValid h h1 h2 (subs_addStmt s c).symm (methodOk_last hm hd.computation hd.ok hd.unused)
  have hi : SameInterface c (c.addStmt s) := ⟨h1.locals, (subs_addStmt s c).symm, fun name => ⟨fun ⟨x, g1, g2⟩ => ⟨x, h1.live g1, h1.named g2⟩, fun ⟨x, g1, g2⟩ => ⟨x, h2.live g1, h2.named g2⟩⟩⟩
  have R : Refactored c (c.addStmt s) b q b' := ⟨hv.namesValid, hv', h, hi⟩
  obtain ⟨path, d, n, z, key, x, k1, k2⟩ := ha
  by_cases hp : path = q
  · subst hp
    rw [R.symm.atq k1] at k2
    rcases has_last k2 with k2 | ⟨_, rfl⟩
    · exact ⟨path, c, n, z, key, x, h.bat, k2⟩
    · exact hd.computation.elim
  · obtain ⟨d', j1, j2⟩ := R.symm.other k1 hp
    exact ⟨path, d', n, z, key, x, j1, by unfold Body.Has at *; rw [← j2]; exact k2⟩

/-- **C102.** Adding a computation whose results are not used changes nothing: run and compile the program with and without it.  The same variables must be given, and executed with the same values for them both representations give every
variable that matters the same value, whatever the functions mean. -/
theorem C102_unused_same (b b' c : Body K F) (q : List Name) (s : Stmt K F) (hv : ValidProgram b) (h : Replaced c (c.addStmt s) b q b') (hd : DeadLast c s) (hs : b.Assigns → b'.maxObjects ≤ 63 ^ 4) :
    ∃ objs root objs' root', runProgram b = .ok (objs, root) ∧ runProgram b' = .ok (objs', root') ∧ (objs.length ≤ 63 ^ 4 → objs'.length ≤ 63 ^ 4 →
      ∀ order : List Nat → List Nat, (∀ l x, x ∈ order l ↔ x ∈ l) → ∀ fuel, (∀ path d, BAt b path d → (d.locals.outputs ++ d.locals.declared).length + max objs.length objs'.length ≤ fuel) →
      ∃ rep rep', compile (objects objs) fuel order root = .ok rep ∧ compile (objects objs') fuel order root' = .ok rep' ∧
        ∃ (f f' : Nat → Nat) (node node' : List Name → Nat → Nat), ∀ (P : Power K) (den : F → List (Val K) → Nat → Val K) (σ0 σ0' : Env (Val K)),
          let value := fun path x => execAll rep.graph ⟨fun i => decide ((objects objs i).kind = .op), fun i => (objects objs i).deps.map f, opMeaning P den objs⟩ σ0 rep.sorted (node path x)
          let value' := fun path x => execAll rep'.graph ⟨fun i => decide ((objects objs' i).kind = .op), fun i => (objects objs' i).deps.map f', opMeaning P den objs'⟩ σ0' rep'.sorted (node' path x)
          Solution P den b value ∧ Solution P den b' value' ∧ (∀ path x, GivenVar b path x ↔ GivenVar b' path x) ∧
          (∀ path x, GivenVar b path x → value path x = σ0 (node path x) ∧ value' path x = σ0' (node' path x)) ∧
          ((∀ path x, GivenVar b path x → σ0 (node path x) = σ0' (node' path x)) → ∀ path d, BAt b path d → ∀ x, d.Live x → value path x = value' path x)) := by
  have hm := hv.methods q c h.bat
  have hv' := C102_unused_valid b b' c q s hv h hd
  obtain ⟨A, A', _⟩ := alike_of_replaced hv.namesValid h (looks_first hm hd.computation hd.ok hd.unused) (looks_last hm hd.computation hd.ok hd.unused) (subs_addStmt s c).symm (methodOk_last hm hd.computation hd.ok hd.unused)
  have hmax : b.maxObjects ≤ b'.maxObjects := h.maxObjects (by rw [Body.addStmt, maxObjects_append]; omega)
  obtain ⟨objs, root, h1, h2⟩ := C74_valid_programs_compute b hv fun ha => hmax.trans (hs ha)
  obtain ⟨objs', root', h1', h2'⟩ := C74_valid_programs_compute b' hv' fun ha => hs (assigns_last hv h hd ha)
  refine ⟨objs, root, objs', root', h1, h1', fun hn hn' order ho fuel hf => ?_⟩
  obtain ⟨rep, hc, f, node, h3⟩ := h2 hn order ho fuel fun path d hd => (Nat.add_le_add_left (Nat.le_max_left ..) _).trans (hf path d hd)
  obtain ⟨rep', hc', f', node', h3'⟩ := h2' hn' order ho fuel fun path d' hd' => by
    obtain ⟨d, k1, k2, _⟩ := A'.methods hd'
    rw [k2.locals]
    exact (Nat.add_le_add_left (Nat.le_max_right ..) _).trans (hf path d k1)
  refine ⟨rep, rep', hc, hc', f, f', node, node', fun P den σ0 σ0' => ?_⟩
  obtain ⟨s1, s2, s3⟩ := h3 P den σ0
  obtain ⟨t1, t2, _⟩ := h3' P den σ0'
  exact ⟨s1, t1, fun path x => ⟨A.given A', A'.given A⟩, fun path x hg => ⟨s2 _ _ hg, t2 _ _ (A.given A' hg)⟩,
    fun he path d hb x hl => (s3 _ (A.solution t1) (fun path x hg => (t2 _ _ (A.given A' hg)).trans (he path x hg).symm) path d hb x hl).symm⟩

/-! ### Example: `c * c` in the submodel -/

/-- `exMain` with the unused product `c * c` at the end of the submodel's method -/
def exDead : Body ℚ Unit :=
  .stmt (.input "x".toList [1] (fun _ => 1)) (.stmt (.expr (.mul 0 0)) (.stmt (.expr (.pos 1)) (.stmt (.register "s".toList 2) (.stmt (.connect "s".toList "m.a".toList)
    (.add false "m".toList (some ["c".toList]) (exSub.addStmt (.expr (.mul 1 1))) (.stmt (.declare "c".toList [1] none) (.stmt (.expr (.add 3 0)) (.stmt (.register "t".toList 4) .done))))))))

theorem exDead_replaced : Replaced exSub (exSub.addStmt (.expr (.mul 1 1))) exMain ["m".toList] exDead :=
  .stmt _ (.stmt _ (.stmt _ (.stmt _ (.stmt _ (.sub _ _ _ _ .here)))))

theorem exDead_last : DeadLast exSub (.expr (.mul 1 1)) :=
  C102_last_statement _ _ (exMain_valid.methods _ _ exDead_replaced.bat) trivial (by
    refine ⟨?_, ?_, fun h => h⟩
    · decide +kernel
    · decide +kernel) (fun u k h => by cases h)

example : ValidProgram exMain ∧ ValidProgram exDead ∧ DeadLast exSub (.expr (.mul 1 1)) ∧ ¬ exMain.Assigns :=
  ⟨exMain_valid, C102_unused_valid _ _ _ _ _ exMain_valid exDead_replaced exDead_last, exDead_last, exMain_plain⟩

end Csdl.Prog
