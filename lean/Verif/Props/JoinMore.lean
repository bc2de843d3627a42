import Verif.Proofs.JoinMore
import Verif.Props.Join
/-
C112: joining more variables only passes values.
-/
namespace Csdl.Prog
open Csdl Csdl.Arith
variable {K F : Type} [Field K] [DecidableEq K]

/-- **C112 (joining more).** Let two valid programs have the same statements (other than connections) in the same models, and let the second join every variables that the first joins.  If both are run and compiled, then the
representations compute solutions of the programs; variables whose values must be given in the second must be given in the first; and, whatever the functions mean,
* executing the first with the values that the second computes for the variables that must be given yields what the second computes;
* if what the first computes makes the variables equal that the second joins, then the second, executed with the same values, computes the same. -/
theorem C112_joining_more (b b' : Body K F) (hv : ValidProgram b) (hv' : ValidProgram b') (hm : SameMethods b b') (hj : JoinsAtLeast b b') (hs : b.Assigns → b.maxObjects ≤ 63 ^ 4) (hs' : b'.Assigns → b'.maxObjects ≤ 63 ^ 4) :
    ∃ objs root objs' root', runProgram b = .ok (objs, root) ∧ runProgram b' = .ok (objs', root') ∧ (objs.length ≤ 63 ^ 4 → objs'.length ≤ 63 ^ 4 →
      ∀ order : List Nat → List Nat, (∀ l x, x ∈ order l ↔ x ∈ l) → ∀ fuel, (∀ path c, BAt b path c → (c.locals.outputs ++ c.locals.declared).length + max objs.length objs'.length ≤ fuel) →
      ∃ rep rep', compile (objects objs) fuel order root = .ok rep ∧ compile (objects objs') fuel order root' = .ok rep' ∧
        ∃ (f f' : Nat → Nat) (node node' : List Name → Nat → Nat), ∀ (P : Power K) (den : F → List (Val K) → Nat → Val K) (σ0 σ0' : Env (Val K)),
          let value := fun path x => execAll rep.graph ⟨fun i => decide ((objects objs i).kind = .op), fun i => (objects objs i).deps.map f, opMeaning P den objs⟩ σ0 rep.sorted (node path x)
          let value' := fun path x => execAll rep'.graph ⟨fun i => decide ((objects objs' i).kind = .op), fun i => (objects objs' i).deps.map f', opMeaning P den objs'⟩ σ0' rep'.sorted (node' path x)
          Solution P den b value ∧ Solution P den b' value' ∧ (∀ path x, GivenVar b path x → value path x = σ0 (node path x)) ∧ (∀ path x, GivenVar b' path x → value' path x = σ0' (node' path x) ∧ GivenVar b path x) ∧
          ((∀ path x, GivenVar b path x → σ0 (node path x) = value' path x) → ∀ path c, BAt b path c → ∀ x, c.Live x → value path x = value' path x) ∧
          ((∀ path x, GivenVar b' path x → σ0' (node' path x) = σ0 (node path x)) → (∀ u v, Same b' u v → value u.1 u.2 = value v.1 v.2) → ∀ path c, BAt b' path c → ∀ x, c.Live x → value' path x = value path x)) := by
  obtain ⟨objs, root, h1, h2⟩ := C74_valid_programs_compute b hv hs
  obtain ⟨objs', root', h1', h2'⟩ := C74_valid_programs_compute b' hv' hs'
  refine ⟨objs, root, objs', root', h1, h1', fun hn hn' order ho fuel hf => ?_⟩
  obtain ⟨rep, hc, f, node, h3⟩ := h2 hn order ho fuel fun path c hc => (Nat.add_le_add_left (Nat.le_max_left ..) _).trans (hf path c hc)
  obtain ⟨rep', hc', f', node', h3'⟩ := h2' hn' order ho fuel fun path c hc => by
    obtain ⟨c', g1, g2⟩ := hm.symm.1 path c hc
    have e1 : c.locals.outputs = c'.locals.outputs := by simp [Body.locals, g2.outputs, g2.shapes]
    have e2 : c.locals.declared = c'.locals.declared := by simp [Body.locals, g2.declareds]
    rw [e1, e2]
    exact (Nat.add_le_add_left (Nat.le_max_right ..) _).trans (hf path c' g1)
  obtain ⟨Ls, hh, _⟩ := runFrom_hier h1' (all := objs') List.prefix_rfl
  have u : Setup objs' b' root' Ls := ⟨hh, hv'.names, runFrom_closed (by simp [Closed]) h1', hn'⟩
  refine ⟨rep, rep', hc, hc', f, f', node, node', fun P den σ0 σ0' => ?_⟩
  obtain ⟨s1, s2, s3⟩ := h3 P den σ0
  obtain ⟨t1, t2, t3⟩ := h3' P den σ0'
  refine ⟨s1, t1, s2, fun path x hg => ⟨t2 path x hg, hm.given_of_more hj hg⟩, fun he path c hb x hl => ?_, fun he hd path c hb x hl => ?_⟩
  · exact (s3 _ (hm.symm.solution t1 fun q r hs => t1.same u (hj q r (.rel _ _ hs))) (fun path x hg => (he path x hg).symm) path c hb x hl).symm
  · refine (t3 _ (hm.solution s1 hd) (fun path x hg => ?_) path c hb x hl).symm
    exact (s2 path x (hm.given_of_more hj hg)).trans (he path x hg).symm

/-- **C112 (a connection only passes a value).** Let `b'` be `b` with one more connection at the end of the method of one of its models.  If `b'` is valid, so is `b`; both are accepted and, whatever the functions mean,
* executing `b`, with the values that `b'` computes for the variables that must be given, yields what `b'` computes;
* if `b`, executed with some values, computes equal values for the two ends of the connection, then `b'`, executed with the same values, computes the same. -/
theorem C112_connection_passes_value (b b' : Body K F) (q : List Name) (s t : Name) (hb : ConnectedAt s t q b b') (hv : ValidProgram b') (hs : b.Assigns → b.maxObjects ≤ 63 ^ 4) (hs' : b'.Assigns → b'.maxObjects ≤ 63 ^ 4) :
    ValidProgram b ∧
    ∃ objs root objs' root', runProgram b = .ok (objs, root) ∧ runProgram b' = .ok (objs', root') ∧ (objs.length ≤ 63 ^ 4 → objs'.length ≤ 63 ^ 4 →
      ∀ order : List Nat → List Nat, (∀ l x, x ∈ order l ↔ x ∈ l) → ∀ fuel, (∀ path c, BAt b path c → (c.locals.outputs ++ c.locals.declared).length + max objs.length objs'.length ≤ fuel) →
      ∃ rep rep', compile (objects objs) fuel order root = .ok rep ∧ compile (objects objs') fuel order root' = .ok rep' ∧
        ∃ (f f' : Nat → Nat) (node node' : List Name → Nat → Nat), ∀ (P : Power K) (den : F → List (Val K) → Nat → Val K) (σ0 σ0' : Env (Val K)),
          let value := fun path x => execAll rep.graph ⟨fun i => decide ((objects objs i).kind = .op), fun i => (objects objs i).deps.map f, opMeaning P den objs⟩ σ0 rep.sorted (node path x)
          let value' := fun path x => execAll rep'.graph ⟨fun i => decide ((objects objs' i).kind = .op), fun i => (objects objs' i).deps.map f', opMeaning P den objs'⟩ σ0' rep'.sorted (node' path x)
          Solution P den b value ∧ EndsAgree b (fullName q s) (fullName q t) value' ∧ (∀ path x, GivenVar b' path x → GivenVar b path x) ∧
          ((∀ path x, GivenVar b path x → σ0 (node path x) = value' path x) → ∀ path c, BAt b path c → ∀ x, c.Live x → value path x = value' path x) ∧
          ((∀ path x, GivenVar b' path x → σ0' (node' path x) = σ0 (node path x)) → EndsAgree b (fullName q s) (fullName q t) value → ∀ path c, BAt b path c → ∀ x, c.Live x → value' path x = value path x)) := by
  have hv0 := hb.valid hv
  obtain ⟨objs, root, objs', root', h1, h1', h2⟩ := C112_joining_more b b' hv0 hv hb.methods hb.joins hs hs'
  refine ⟨hv0, objs, root, objs', root', h1, h1', fun hn hn' order ho fuel hf => ?_⟩
  obtain ⟨rep, rep', hc, hc', f, f', node, node', h3⟩ := h2 hn hn' order ho fuel hf
  refine ⟨rep, rep', hc, hc', f, f', node, node', fun P den σ0 σ0' => ?_⟩
  obtain ⟨s1, t1, s2, t2, h4, h5⟩ := h3 P den σ0 σ0'
  obtain ⟨Ls, hh, _⟩ := runFrom_hier h1 (all := objs) List.prefix_rfl
  have u : Setup objs b root Ls := ⟨hh, hv0.names, runFrom_closed (by simp [Closed]) h1, hn⟩
  obtain ⟨d, hd, hst⟩ := hb.added
  refine ⟨s1, fun p r hp hq path x path' y hx hy => t1.connected q d hd s t p r hst (hb.denotes.1 hp) (hb.denotes.1 hq) path x path' y (hb.hasName.1 hx) (hb.hasName.1 hy), fun path x hg => (t2 path x hg).2, h4,
    fun he ha path c hc x hl => ?_⟩
  obtain ⟨c', g1, g2⟩ := hb.methods.1 path c hc
  refine h5 he (fun w v hw => ?_) path c' g1 x (g2.live hl)
  rcases hb.same' hw with h | ⟨p, r, hp, hq, hx, hy⟩
  · exact s1.same u (.rel _ _ h)
  · exact ha p r hp hq w.1 w.2 v.1 v.2 hx hy

/-! ### Example: `exLinked` without its last connection -/

/-- `exLinked` without the connection of `m.c` to `c` -/
def exUnlinked : Body ℚ Unit :=
  .stmt (.input "x".toList [1] (fun _ => 1)) (.stmt (.expr (.mul 0 0)) (.stmt (.expr (.pos 1)) (.stmt (.register "s".toList 2) (.stmt (.connect "s".toList "m.a".toList)
    (.add false "m".toList (some []) exSub (.stmt (.declare "c".toList [1] none) (.stmt (.expr (.add 3 0)) (.stmt (.register "t".toList 4) .done))))))))

theorem exUnlinked_linked : ConnectedAt "m.c".toList "c".toList [] exUnlinked exLinked := .here exUnlinked

/-- the hypotheses of `C112_connection_passes_value` hold of the two; and, by the theorem's first claim, the program without the connection is valid -/
theorem exUnlinked_hypotheses : ValidProgram exLinked ∧ ¬ exUnlinked.Assigns ∧ ¬ exLinked.Assigns ∧ ValidProgram exUnlinked := by
  refine ⟨exLinked_valid, fun ⟨path, c, n, y, key, x, hb, ha⟩ => ?_, exLinked_plain, exUnlinked_linked.valid exLinked_valid⟩
  obtain ⟨c', g1, g2⟩ := exUnlinked_linked.methods.1 path c hb
  exact exLinked_plain ⟨path, c', n, y, key, x, g1, g2.has rfl ha⟩

end Csdl.Prog
