import Verif.Proofs.Modular
import Verif.Props.ValidProgram
/-
C98: a model computes the same on its own and as part of a larger program.
-/
namespace Csdl.Prog
open Csdl Csdl.Arith
variable {K F : Type} [Field K] [DecidableEq K]

/-- **C98.** Let `sub` be the method of the model at `q` in a valid program, and valid on its own.  Run and compile both the program and `sub` as a program of its own.  If the representation of `sub` is executed with the values that
its given variables have in the execution of the whole program, every variable of `sub` (and of its submodels) that matters gets the value it has in the whole program, whatever the functions mean. -/
theorem C98_submodels_alone (b sub : Body K F) (q : List Name) (hq : BAt b q sub) (hv : ValidProgram b) (hv' : ValidProgram sub) (hs : b.Assigns → b.maxObjects ≤ 63 ^ 4) (hs' : sub.Assigns → sub.maxObjects ≤ 63 ^ 4) :
    ∃ objs root objs' root', runProgram b = .ok (objs, root) ∧ runProgram sub = .ok (objs', root') ∧ (objs.length ≤ 63 ^ 4 → objs'.length ≤ 63 ^ 4 →
      ∀ order : List Nat → List Nat, (∀ l x, x ∈ order l ↔ x ∈ l) → ∀ fuel, (∀ path c, BAt b path c → (c.locals.outputs ++ c.locals.declared).length + max objs.length objs'.length ≤ fuel) →
      ∃ rep rep', compile (objects objs) fuel order root = .ok rep ∧ compile (objects objs') fuel order root' = .ok rep' ∧
        ∃ (f f' : Nat → Nat) (node node' : List Name → Nat → Nat), ∀ (P : Power K) (den : F → List (Val K) → Nat → Val K) (σ0 σ0' : Env (Val K)),
          let value := fun path x => execAll rep.graph ⟨fun i => decide ((objects objs i).kind = .op), fun i => (objects objs i).deps.map f, opMeaning P den objs⟩ σ0 rep.sorted (node path x)
          let value' := fun path x => execAll rep'.graph ⟨fun i => decide ((objects objs' i).kind = .op), fun i => (objects objs' i).deps.map f', opMeaning P den objs'⟩ σ0' rep'.sorted (node' path x)
          Solution P den b value ∧ Solution P den sub value' ∧ (∀ path x, GivenVar b path x → value path x = σ0 (node path x)) ∧ (∀ path x, GivenVar sub path x → value' path x = σ0' (node' path x)) ∧
          ((∀ path x, GivenVar sub path x → σ0' (node' path x) = value (q ++ path) x) → ∀ path c, BAt sub path c → ∀ x, c.Live x → value' path x = value (q ++ path) x)) := by
  obtain ⟨objs, root, h1, h2⟩ := C74_valid_programs_compute b hv hs
  obtain ⟨objs', root', h1', h2'⟩ := C74_valid_programs_compute sub hv' hs'
  refine ⟨objs, root, objs', root', h1, h1', fun hn hn' order ho fuel hf => ?_⟩
  obtain ⟨rep, hc, f, node, h3⟩ := h2 hn order ho fuel fun path c hc => (Nat.add_le_add_left (Nat.le_max_left ..) _).trans (hf path c hc)
  obtain ⟨rep', hc', f', node', h3'⟩ := h2' hn' order ho fuel fun path c hc => (Nat.add_le_add_left (Nat.le_max_right ..) _).trans (hf _ c (bat_trans hq hc))
  refine ⟨rep, rep', hc, hc', f, f', node, node', fun P den σ0 σ0' => ?_⟩
  obtain ⟨s1, s2, _⟩ := h3 P den σ0
  obtain ⟨t1, t2, t3⟩ := h3' P den σ0'
  exact ⟨s1, t1, s2, t2, fun he path c hb x hl => (t3 _ (s1.sub hv hq) (fun path x hg => (he path x hg).symm) path c hb x hl).symm⟩

/-! ### Example: the submodel `m` of `exMain` on its own -/

theorem exSub_at {path : List Name} {c : Body ℚ Unit} (h : BAt exSub path c) : path = [] ∧ c = exSub := by
  cases h with
  | here => exact ⟨rfl, rfl⟩
  | down h _ => simp [exSub, Body.subs] at h

theorem exSub_in : BAt exMain ["m".toList] exSub := .down (p := some ["c".toList]) (by simp [exMain, Body.subs]) (.here _)

theorem exSub_plain : ¬ exSub.Assigns := by
  rintro ⟨path, b', n, z, key, x, hb, h⟩
  obtain ⟨_, rfl⟩ := exSub_at hb
  unfold Body.Has at h
  rw [exSub_stmts] at h
  simp at h

theorem exSub_hasName {path : List Name} {x : Nat} {p : Name} (h : HasName exSub path x p) : (x = 0 ∧ p = "a".toList) ∨ (x = 1 ∧ p = "c".toList) := by
  obtain ⟨c, name, k, w, h1, _, h3, h4, h5⟩ := h
  obtain ⟨rfl, rfl⟩ := exSub_at h1
  have hp : p = name := by unfold Body.toModel at h4; cases h4; exact h5
  rw [hp]
  exact exSub_named h3

theorem exSub_same {q r : List Name × Nat} (h : Relation.EqvGen (Same exSub) q r) : q.2 = r.2 := by
  induction h with
  | rel q r h =>
    cases h with
    | name p h1 h2 =>
      rcases exSub_hasName h1 with ⟨rfl, rfl⟩ | ⟨rfl, rfl⟩ <;> rcases exSub_hasName h2 with ⟨rfl, e⟩ | ⟨rfl, e⟩ <;> first | rfl | exact absurd e (by decide)
    | connection path b' s t p q hb hc =>
      obtain ⟨_, rfl⟩ := exSub_at hb
      have : exSub.locals.connections = [] := by decide
      rw [this] at hc; cases hc
    | @«alias» path x y b' hb hl hl' hx =>
      clear hl hl'
      obtain ⟨_, rfl⟩ := exSub_at hb
      induction hx with
      | refl => rfl
      | symm _ ih => exact ih.symm
      | trans _ _ ih1 ih2 => exact ih1.trans ih2
      | plus hx => rw [exSub_stmts] at hx; simp at hx
      | part hx => rw [exSub_stmts] at hx; simp at hx
  | refl => rfl
  | symm _ _ _ ih => exact ih.symm
  | trans _ _ _ _ _ ih1 ih2 => exact ih1.trans ih2

theorem exSub_valid : ValidProgram exSub := by
  obtain ⟨n1, n2, n3, n4, n5⟩ := exMain_valid.namesValid.sub exSub_in
  have hiss : issuedPost Local.connections exSub.toModel = [] := by decide
  refine ⟨n1, n2, n3, n4, n5, ?_, by rw [hiss]; exact List.Pairwise.nil, ⟨by rw [hiss]; simp, by rw [hiss]; exact List.Pairwise.nil⟩, ?_⟩
  · intro path c s t hc h
    obtain ⟨_, rfl⟩ := exSub_at hc
    have : exSub.locals.connections = [] := by decide
    rw [this] at h; cases h
  · rintro ⟨q, hq⟩
    have feeds : ∀ {q r}, Feeds exSub q r → q.2 < r.2 := by
      rintro ⟨path, x⟩ ⟨path', y⟩ (⟨b', n, s, e, hb, hs, hc, h1, h2, _, hx⟩ | ⟨b', _, _, _, _, _, hb, _, n, z, h, _⟩)
      swap
      · exact absurd ⟨_, b', n, z, _, _, hb, h⟩ exSub_plain
      obtain ⟨_, rfl⟩ := exSub_at hb
      unfold Body.Has at hs
      rw [exSub_stmts] at hs
      simp only [List.mem_cons, Prod.mk.injEq, List.not_mem_nil, or_false] at hs
      rcases hs with ⟨rfl, rfl⟩ | ⟨rfl, rfl⟩ | ⟨rfl, rfl⟩ <;> first | exact hc.elim | skip
      simp only [Stmt.operands, List.mem_singleton] at hx
      dsimp only at hx h1 ⊢
      omega
    have key : ∀ a c, Relation.TransGen (fun a c => ∃ a', Relation.EqvGen (Same exSub) a a' ∧ Feeds exSub a' c) a c → a.2 < c.2 := by
      intro a c h
      induction h with
      | single h => obtain ⟨a', h1, h2⟩ := h; rw [exSub_same h1]; exact feeds h2
      | tail _ h ih => obtain ⟨a', h1, h2⟩ := h; have := feeds h2; rw [← exSub_same h1] at this; omega
    exact absurd (key q q hq) (Nat.lt_irrefl _)

/-- the hypotheses of C98 hold: the output `c` of the submodel has the same value in both executions -/
example : ∃ objs root objs' root' rep rep', runProgram exMain = .ok (objs, root) ∧ runProgram exSub = .ok (objs', root') ∧ compile (objects objs) 20 id root = .ok rep ∧ compile (objects objs') 20 id root' = .ok rep' ∧
    ∃ (f f' : Nat → Nat) (node node' : List Name → Nat → Nat), ∀ (P : Power ℚ) (den : Unit → List (Val ℚ) → Nat → Val ℚ) (σ0 σ0' : Env (Val ℚ)),
      let value := fun path x => execAll rep.graph ⟨fun i => decide ((objects objs i).kind = .op), fun i => (objects objs i).deps.map f, opMeaning P den objs⟩ σ0 rep.sorted (node path x)
      (∀ path x, GivenVar exSub path x → σ0' (node' path x) = value ("m".toList :: path) x) →
      execAll rep'.graph ⟨fun i => decide ((objects objs' i).kind = .op), fun i => (objects objs' i).deps.map f', opMeaning P den objs'⟩ σ0' rep'.sorted (node' [] 1) = value ["m".toList] 1 := by
  obtain ⟨objs, root, objs', root', h1, h1', h2⟩ := C98_submodels_alone exMain exSub ["m".toList] exSub_in exMain_valid exSub_valid (fun h => absurd h exMain_plain) fun h => absurd h exSub_plain
  obtain ⟨⟨os, rt⟩, r1, r2⟩ := ok_of_check (x := runProgram exMain) (P := fun q => decide (q.1.length = 12)) (by decide +kernel)
  obtain ⟨⟨os', rt'⟩, r1', r2'⟩ := ok_of_check (x := runProgram exSub) (P := fun q => decide (q.1.length ≤ 12)) (by decide +kernel)
  rw [r1] at h1
  rw [r1'] at h1'
  cases h1
  cases h1'
  have l1 := of_decide_eq_true r2
  have l2 := of_decide_eq_true r2'
  dsimp only at l1 l2
  obtain ⟨rep, rep', c1, c2, f, f', node, node', h3⟩ := h2 (by rw [l1]; decide) (l2.trans (by decide)) id (fun _ _ => Iff.rfl) 20 (by
    intro path b' h
    rw [l1, Nat.max_eq_left l2]
    rcases exMain_at h with ⟨_, rfl⟩ | ⟨_, rfl⟩ <;> decide)
  exact ⟨_, _, _, _, rep, rep', r1, r1', c1, c2, f, f', node, node', fun P den σ0 σ0' he => (h3 P den σ0 σ0').2.2.2.2 he [] exSub (.here _) 1 (.output (name := "c".toList) (by decide))⟩

end Csdl.Prog
