import Verif.Proofs.Rename4
import Verif.Props.Modular
/-
C101: other names for variables and submodels.
-/
namespace Csdl.Prog
open Csdl Csdl.Arith
variable {K F : Type}

/-- **C101 (validity).** Renaming the variables and submodels of a valid program consistently yields a valid program. -/
theorem C101_renamed_valid [Zero K] (r : Name ≃ Name) (R : Renaming r) (b : Body K F) (hv : ValidProgram b) : ValidProgram (b.rename r) := hv.renamed R

/-- **C101 (names).** What has a name in the main model has the new name in the renamed program, and nothing else does. -/
theorem C101_renamed_names (r : Name ≃ Name) (R : Renaming r) (b : Body K F) (path : List Name) (x : Nat) (p : Name) : HasName (b.rename r) (path.map r) x (r p) ↔ HasName b path x p := by
  refine ⟨fun h => ?_, hasName_rename R⟩
  obtain ⟨path0, p0, e1, e2, h⟩ := hasName_inv R h
  rwa [List.map_injective_iff.2 r.injective e1, r.injective e2]

variable [Field K] [DecidableEq K]

/-- **C101.** Rename the variables and submodels of a valid program consistently; run and compile both programs.  Both are accepted, the same variables must be given, and executed with the same values for them both representations give
every variable that matters the same value, whatever the functions mean. -/
theorem C101_renamed_same (r : Name ≃ Name) (R : Renaming r) (b : Body K F) (hv : ValidProgram b) (hs : b.Assigns → b.maxObjects ≤ 63 ^ 4) :
    ∃ objs root objs' root', runProgram b = .ok (objs, root) ∧ runProgram (b.rename r) = .ok (objs', root') ∧ (objs.length ≤ 63 ^ 4 → objs'.length ≤ 63 ^ 4 →
      ∀ order : List Nat → List Nat, (∀ l x, x ∈ order l ↔ x ∈ l) → ∀ fuel, (∀ path c, BAt b path c → (c.locals.outputs ++ c.locals.declared).length + max objs.length objs'.length ≤ fuel) →
      ∃ rep rep', compile (objects objs) fuel order root = .ok rep ∧ compile (objects objs') fuel order root' = .ok rep' ∧
        ∃ (f f' : Nat → Nat) (node node' : List Name → Nat → Nat), ∀ (P : Power K) (den : F → List (Val K) → Nat → Val K) (σ0 σ0' : Env (Val K)),
          let value := fun path x => execAll rep.graph ⟨fun i => decide ((objects objs i).kind = .op), fun i => (objects objs i).deps.map f, opMeaning P den objs⟩ σ0 rep.sorted (node path x)
          let value' := fun path x => execAll rep'.graph ⟨fun i => decide ((objects objs' i).kind = .op), fun i => (objects objs' i).deps.map f', opMeaning P den objs'⟩ σ0' rep'.sorted (node' path x)
          Solution P den b value ∧ Solution P den (b.rename r) value' ∧ (∀ path x, GivenVar b path x → value path x = σ0 (node path x)) ∧
          (∀ path x, GivenVar b path x ↔ GivenVar (b.rename r) (path.map r) x) ∧ (∀ path x, GivenVar b path x → value' (path.map r) x = σ0' (node' (path.map r) x)) ∧
          ((∀ path x, GivenVar b path x → σ0 (node path x) = σ0' (node' (path.map r) x)) → ∀ path c, BAt b path c → ∀ x, c.Live x → value path x = value' (path.map r) x)) := by
  obtain ⟨objs, root, h1, h2⟩ := C74_valid_programs_compute b hv hs
  obtain ⟨objs', root', h1', h2'⟩ := C74_valid_programs_compute (b.rename r) (hv.renamed R) fun h => by rw [maxObjects_rename]; exact hs (assigns_rename r h)
  refine ⟨objs, root, objs', root', h1, h1', fun hn hn' order ho fuel hf => ?_⟩
  obtain ⟨rep, hc, f, node, h3⟩ := h2 hn order ho fuel fun path c hc => (Nat.add_le_add_left (Nat.le_max_left ..) _).trans (hf path c hc)
  obtain ⟨rep', hc', f', node', h3'⟩ := h2' hn' order ho fuel fun path c hc => by
    obtain ⟨path0, c0, rfl, rfl, h0⟩ := bat_inv r hc
    have := hf _ _ h0
    rw [locals_rename]
    simp only [List.length_append, List.length_map] at this ⊢
    omega
  refine ⟨rep, rep', hc, hc', f, f', node, node', fun P den σ0 σ0' => ?_⟩
  obtain ⟨s1, s2, s3⟩ := h3 P den σ0
  obtain ⟨t1, t2, _⟩ := h3' P den σ0'
  exact ⟨s1, t1, s2, fun path x => ⟨given_rename R, given_inv R⟩, fun path x hg => t2 _ _ (given_rename R hg),
    fun he path c hb x hl => (s3 _ (t1.unrename R) (fun path x hg => (t2 _ _ (given_rename R hg)).trans (he path x hg).symm) path c hb x hl).symm⟩

/-! ### Example: `exMain` with `x` called `height` and the submodel `m` called `wing` -/

theorem swap_cases {a b n : Name} {Q : Name → Prop} (ha : Q a) (hb : Q b) : Q n ↔ Q (Equiv.swap a b n) := by
  rw [Equiv.swap_apply_def]
  split
  · rename_i h; rw [h]; exact ⟨fun _ => hb, fun _ => ha⟩
  · split
    · rename_i h; rw [h]; exact ⟨fun _ => ha, fun _ => hb⟩
    · rfl

/-- a swap of two names, then of two others -/
def exSwap : Name ≃ Name := (Equiv.swap "x".toList "height".toList).trans (Equiv.swap "m".toList "wing".toList)

theorem exSwap_iff {Q : Name → Prop} (h1 : Q "x".toList) (h2 : Q "height".toList) (h3 : Q "m".toList) (h4 : Q "wing".toList) (n : Name) : Q n ↔ Q (exSwap n) :=
  (swap_cases h1 h2).trans (swap_cases h3 h4)

/-- names are renamed part by part: `m.x` becomes `wing.height` -/
def exRen : Name ≃ Name := partwise exSwap (exSwap_iff (Q := fun n => '.' ∉ n) (by decide) (by decide) (by decide) (by decide))

theorem exRen_renaming : Renaming exRen := by
  refine renaming_partwise _ _ (by decide) (fun n _ => ?_) fun n _ => ?_
  · exact exSwap_iff (Q := Allowed) (by unfold Allowed; decide) (by unfold Allowed; decide) (by unfold Allowed; decide) (by unfold Allowed; decide) n
  · have : ∀ n, ¬ AutoLike n ↔ ¬ AutoLike (exSwap n) := exSwap_iff (Q := fun n => ¬ AutoLike n) (by unfold AutoLike; decide) (by unfold AutoLike; decide) (by unfold AutoLike; decide) (by unfold AutoLike; decide)
    exact not_iff_not.1 (this n)

/-- the renamed program -/
def exRenamed : Body ℚ Unit :=
  .stmt (.input "height".toList [1] (fun _ => 1)) (.stmt (.expr (.mul 0 0)) (.stmt (.expr (.pos 1)) (.stmt (.register "s".toList 2) (.stmt (.connect "s".toList "wing.a".toList)
    (.add false "wing".toList (some ["c".toList]) exSub (.stmt (.declare "c".toList [1] none) (.stmt (.expr (.add 3 0)) (.stmt (.register "t".toList 4) .done))))))))

theorem exRenamed_eq : exMain.rename exRen = exRenamed := by
  have e1 : exRen "x".toList = "height".toList := by decide +kernel
  have e2 : exRen "s".toList = "s".toList := by decide +kernel
  have e3 : exRen "m.a".toList = "wing.a".toList := by decide +kernel
  have e4 : exRen "m".toList = "wing".toList := by decide +kernel
  have e5 : exRen "c".toList = "c".toList := by decide +kernel
  have e6 : exRen "t".toList = "t".toList := by decide +kernel
  have e7 : exRen "a".toList = "a".toList := by decide +kernel
  simp only [exMain, exSub, Body.rename, Stmt.rename, e1, e2, e3, e4, e5, e6, e7, Option.map_some, List.map_cons, List.map_nil, exRenamed]

example : Renaming exRen ∧ ValidProgram exMain ∧ ValidProgram exRenamed ∧ ¬ exMain.Assigns :=
  ⟨exRen_renaming, exMain_valid, exRenamed_eq ▸ C101_renamed_valid exRen exRen_renaming exMain exMain_valid, exMain_plain⟩

end Csdl.Prog
