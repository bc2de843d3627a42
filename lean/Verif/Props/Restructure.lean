import Verif.Proofs.Extract3
import Verif.Props.ExactFull
/-
C105: it does not matter how computations are distributed over models.
-/
namespace Csdl.Prog
open Csdl Csdl.Arith
variable {K F : Type} [Field K] [DecidableEq K]

/-- **C105 (values).** If two valid programs consist of the same computations of corresponding variables (`Restructured`), no matter in which models they are made and in which order, and executing the representation of the first
starts with the values that the variables corresponding to its given variables have in the execution of the second, then every variable that matters of the first has the value of the corresponding variable of the second,
whatever the functions mean. -/
theorem C105_restructured_values (b c : Body K F) (φ : List Name × Nat → List Name × Nat) (hv : ValidProgram b) (hv' : ValidProgram c) (R : Restructured b c φ)
    (hs : b.Assigns → b.maxObjects ≤ 63 ^ 4) (hs' : c.Assigns → c.maxObjects ≤ 63 ^ 4) :
    ∃ objs root objs' root', runProgram b = .ok (objs, root) ∧ runProgram c = .ok (objs', root') ∧ (objs.length ≤ 63 ^ 4 → objs'.length ≤ 63 ^ 4 →
      ∀ order : List Nat → List Nat, (∀ l x, x ∈ order l ↔ x ∈ l) → ∀ fuel, (∀ path m, BAt b path m ∨ BAt c path m → (m.locals.outputs ++ m.locals.declared).length + max objs.length objs'.length ≤ fuel) →
      ∃ rep rep', compile (objects objs) fuel order root = .ok rep ∧ compile (objects objs') fuel order root' = .ok rep' ∧
        ∃ (f f' : Nat → Nat) (node node' : List Name → Nat → Nat), ∀ (P : Power K) (den : F → List (Val K) → Nat → Val K) (σ0 σ0' : Env (Val K)),
          let value := fun path x => execAll rep.graph ⟨fun i => decide ((objects objs i).kind = .op), fun i => (objects objs i).deps.map f, opMeaning P den objs⟩ σ0 rep.sorted (node path x)
          let value' := fun path x => execAll rep'.graph ⟨fun i => decide ((objects objs' i).kind = .op), fun i => (objects objs' i).deps.map f', opMeaning P den objs'⟩ σ0' rep'.sorted (node' path x)
          Solution P den b value ∧ Solution P den c value' ∧ (∀ path x, GivenVar b path x → value path x = σ0 (node path x)) ∧ (∀ path x, GivenVar c path x → value' path x = σ0' (node' path x)) ∧
          ((∀ path x, GivenVar b path x → σ0 (node path x) = value' (φ (path, x)).1 (φ (path, x)).2) →
            ∀ path m, BAt b path m → ∀ x, m.Live x → value path x = value' (φ (path, x)).1 (φ (path, x)).2)) := by
  obtain ⟨objs, root, h1, h2⟩ := C74_valid_programs_compute b hv hs
  obtain ⟨objs', root', h1', h2'⟩ := C74_valid_programs_compute c hv' hs'
  refine ⟨objs, root, objs', root', h1, h1', fun hn hn' order ho fuel hf => ?_⟩
  obtain ⟨rep, hc, f, node, h3⟩ := h2 hn order ho fuel fun path m hm => (Nat.add_le_add_left (Nat.le_max_left ..) _).trans (hf path m (Or.inl hm))
  obtain ⟨rep', hc', f', node', h3'⟩ := h2' hn' order ho fuel fun path m hm => (Nat.add_le_add_left (Nat.le_max_right ..) _).trans (hf path m (Or.inr hm))
  refine ⟨rep, rep', hc, hc', f, f', node, node', fun P den σ0 σ0' => ?_⟩
  obtain ⟨s1, s2, s3⟩ := h3 P den σ0
  obtain ⟨t1, t2, _⟩ := h3' P den σ0'
  refine ⟨s1, t1, s2, t2, fun he path m hb x hl => (s3 _ (R.solution hv.methods hv'.methods t1 ?_) (fun path x hg => (he path x hg).symm) path m hb x hl).symm⟩
  obtain ⟨Ls, hh, _⟩ := runFrom_hier h1' (all := objs') List.prefix_rfl
  have u : Setup objs' c root' Ls := ⟨hh, hv'.names, runFrom_closed (by simp [Closed]) h1', hn'⟩
  exact fun q r hqr => t1.same u hqr

/-- **C105 (moving statements to a submodel).** Let the last statements of the main method of a program be made in a submodel instead, added as `self.add(sub, name=n)` with all its names promoted: `sub` declares the inputs and outputs of
the main model that it uses.  If both programs are valid and every variable of the two methods matters, then in both the corresponding variables must be given, and with the same given values all variables that matter
have the same values, whatever the functions mean. -/
theorem C105_moved_to_submodel (b : Body K F) (i : Bool) (n : Name) (sub rest : Body K F) (μ : Nat → Nat) (hi : Inlined b μ 0 (numVars (b.stmts 0)) sub rest) (hn : NewSub (b.append rest) n)
    (hv : ValidProgram (b.addPromoted i n sub)) (hv' : ValidProgram (b.append rest)) (hb : ∀ x < numVars (b.stmts 0), b.Live x) (hsub : ∀ x < numVars (sub.stmts 0), sub.Live x)
    (hs : (b.addPromoted i n sub).Assigns → (b.addPromoted i n sub).maxObjects ≤ 63 ^ 4) (hs' : (b.append rest).Assigns → (b.append rest).maxObjects ≤ 63 ^ 4) :
    ∃ objs root objs' root', runProgram (b.addPromoted i n sub) = .ok (objs, root) ∧ runProgram (b.append rest) = .ok (objs', root') ∧ (objs.length ≤ 63 ^ 4 → objs'.length ≤ 63 ^ 4 →
      ∀ order : List Nat → List Nat, (∀ l x, x ∈ order l ↔ x ∈ l) →
      ∀ fuel, (∀ path m, BAt (b.addPromoted i n sub) path m ∨ BAt (b.append rest) path m → (m.locals.outputs ++ m.locals.declared).length + max objs.length objs'.length ≤ fuel) →
      ∃ rep rep', compile (objects objs) fuel order root = .ok rep ∧ compile (objects objs') fuel order root' = .ok rep' ∧
        ∃ (f f' : Nat → Nat) (node node' : List Name → Nat → Nat), ∀ (P : Power K) (den : F → List (Val K) → Nat → Val K) (σ0 σ0' : Env (Val K)),
          let value := fun path x => execAll rep.graph ⟨fun i => decide ((objects objs i).kind = .op), fun i => (objects objs i).deps.map f, opMeaning P den objs⟩ σ0 rep.sorted (node path x)
          let value' := fun path x => execAll rep'.graph ⟨fun i => decide ((objects objs' i).kind = .op), fun i => (objects objs' i).deps.map f', opMeaning P den objs'⟩ σ0' rep'.sorted (node' path x)
          Solution P den (b.addPromoted i n sub) value ∧ Solution P den (b.append rest) value' ∧
          (∀ path x, GivenVar (b.addPromoted i n sub) path x → value path x = σ0 (node path x) ∧
            GivenVar (b.append rest) (moved n μ (path, x)).1 (moved n μ (path, x)).2 ∧ value' (moved n μ (path, x)).1 (moved n μ (path, x)).2 = σ0' (node' (moved n μ (path, x)).1 (moved n μ (path, x)).2)) ∧
          ((∀ path x, GivenVar (b.addPromoted i n sub) path x → σ0 (node path x) = σ0' (node' (moved n μ (path, x)).1 (moved n μ (path, x)).2)) →
            (∀ path c, path ≠ [] → BAt b path c → ∀ x, c.Live x → value path x = value' path x) ∧ (∀ x < numVars (b.stmts 0), value [] x = value' [] x) ∧
              ∀ x < numVars (sub.stmts 0), value [n] x = value' [] (μ x))) := by
  have E : Extract b i n sub rest μ := ⟨hi, hv, hv', hn⟩
  obtain ⟨objs, root, objs', root', h1, h1', h2⟩ := C105_restructured_values _ _ _ hv hv' E.restructured hs hs'
  refine ⟨objs, root, objs', root', h1, h1', fun hn hn' order ho fuel hf => ?_⟩
  obtain ⟨rep, rep', hc, hc', f, f', node, node', h3⟩ := h2 hn hn' order ho fuel hf
  refine ⟨rep, rep', hc, hc', f, f', node, node', fun P den σ0 σ0' => ?_⟩
  obtain ⟨s1, s2, s3, s4, s5⟩ := h3 P den σ0 σ0'
  refine ⟨s1, s2, fun path x hg => ⟨s3 path x hg, E.given hb hsub hg, s4 _ _ (E.given hb hsub hg)⟩, fun he => ?_⟩
  have all := s5 fun path x hg => (he path x hg).trans (s4 _ _ (E.given hb hsub hg)).symm
  refine ⟨fun path c hp hc x hl => ?_, fun x hx => ?_, fun x hx => ?_⟩
  · cases hc with
    | here => exact absurd rfl hp
    | @down _ m pr s path c hs hc =>
      have hne : m :: path ≠ [n] := fun e => E.newSub hs (List.cons.inj e).1
      have := all (m :: path) c (.down (by rw [subs_addPromoted]; exact List.mem_append_left _ hs) hc) x hl
      simpa only [moved, hne, if_false] using this
  · obtain ⟨c, k1, k2⟩ := E.first (hb x hx)
    have := all [] c k1 x k2
    simpa only [moved, reduceCtorEq, if_false] using this
  · have := all [n] sub E.atSub x (hsub x hx)
    simpa only [moved, if_true] using this

/-! ### Example: `z = y + y` in a submodel or in the main model -/

/-- `x = self.create_input('x')`, `y = x*x`, `self.register_output('y', y)` -/
def exFirstPart : Body ℚ Unit := .stmt (.input "x".toList [1] fun _ => 3) (.stmt (.expr (.mul 0 0)) (.stmt (.register "y".toList 1) .done))

/-- `y = self.declare_variable('y')`, `z = y + y`, `self.register_output('z', z)` -/
def exSubPart : Body ℚ Unit := .stmt (.declare "y".toList [1] none) (.stmt (.expr (.add 0 0)) (.stmt (.register "z".toList 1) .done))

/-- `z = y + y`, `self.register_output('z', z)` -/
def exRestPart : Body ℚ Unit := .stmt (.expr (.add 1 1)) (.stmt (.register "z".toList 2) .done)

/-- the program with the submodel -/
def exWithSub : Body ℚ Unit := exFirstPart.addPromoted false "m".toList exSubPart

/-- the program without it -/
def exWithoutSub : Body ℚ Unit := exFirstPart.append exRestPart

theorem exSubPart_inlined : Inlined exFirstPart (fun x => x + 1) 0 (numVars (exFirstPart.stmts 0)) exSubPart exRestPart :=
  .known none (Or.inr (by decide)) rfl rfl (.stmt (s := .expr (.add 0 0)) (by decide) (.stmt (s := .register "z".toList 1) (by decide) (.done _ _)))

theorem exWithSub_at {path : List Name} {c : Body ℚ Unit} (h : BAt exWithSub path c) : (path = [] ∧ c = exWithSub) ∨ (path = ["m".toList] ∧ c = exSubPart) := by
  cases h with
  | here => exact Or.inl ⟨rfl, rfl⟩
  | down h1 h2 =>
    simp only [exWithSub, Body.addPromoted, exFirstPart, Body.append, Body.subs, List.mem_singleton, Prod.mk.injEq] at h1
    obtain ⟨rfl, rfl, rfl⟩ := h1
    cases h2 with
    | here => exact Or.inr ⟨rfl, rfl⟩
    | down h3 _ => simp [exSubPart, Body.subs] at h3

theorem exWithoutSub_at {path : List Name} {c : Body ℚ Unit} (h : BAt exWithoutSub path c) : path = [] ∧ c = exWithoutSub := oneModel_at rfl h

theorem exWithSub_good : GoodNames exWithSub := by
  constructor
  · intro path b' h
    rcases exWithSub_at h with ⟨_, rfl⟩ | ⟨_, rfl⟩ <;> decide
  · intro path b' h
    rcases exWithSub_at h with ⟨_, rfl⟩ | ⟨_, rfl⟩ <;> decide
  · intro path b' h
    rcases exWithSub_at h with ⟨_, rfl⟩ | ⟨_, rfl⟩ <;> decide
  · intro path b' h
    rcases exWithSub_at h with ⟨_, rfl⟩ | ⟨_, rfl⟩ <;> decide

theorem exWithoutSub_good : GoodNames exWithoutSub := by
  constructor
  · intro path b' h
    obtain ⟨_, rfl⟩ := exWithoutSub_at h; decide
  · intro path b' h
    obtain ⟨_, rfl⟩ := exWithoutSub_at h; decide
  · intro path b' h
    obtain ⟨_, rfl⟩ := exWithoutSub_at h; decide
  · intro path b' h
    obtain ⟨_, rfl⟩ := exWithoutSub_at h; decide

theorem exWithSub_acceptable : NoChain exWithSub.toModel ∧ AcceptableProgram exWithSub := by
  refine acceptable_of_check exWithSub exWithSub_good (by decide) (by decide) ?_ ?_ (by decide +kernel)
  · intro path b' hb
    rcases exWithSub_at hb with ⟨_, rfl⟩ | ⟨_, rfl⟩ <;> decide
  · intro path b' hb
    rcases exWithSub_at hb with ⟨_, rfl⟩ | ⟨_, rfl⟩ <;> decide

theorem exWithoutSub_acceptable : NoChain exWithoutSub.toModel ∧ AcceptableProgram exWithoutSub := by
  refine acceptable_of_check exWithoutSub exWithoutSub_good (by decide) (by decide) ?_ ?_ (by decide +kernel)
  · intro path b' hb
    obtain ⟨_, rfl⟩ := exWithoutSub_at hb; decide
  · intro path b' hb
    obtain ⟨_, rfl⟩ := exWithoutSub_at hb; decide

theorem exWithSub_valid : ValidProgram exWithSub where
  methods := exWithSub_acceptable.2.methods
  names := exWithSub_good
  oneSource := exWithSub_acceptable.2.oneSource
  sizes := by
    have hsz : ∀ {path b'}, BAt exWithSub path b' → ∀ {path k v p}, PromotedAs b'.toModel path k v p → v.shape = [1] := by
      intro path b' hb path' k v p h
      obtain ⟨l, subs, h1, h2⟩ := promoted_at h
      obtain ⟨c, h3, e⟩ := BAt.locals h1
      rw [Body.toModel] at e
      cases e
      have key : ∀ c : Body ℚ Unit, (c = exWithSub ∨ c = exSubPart) → ∀ v ∈ c.locals.vars k, v.shape = [1] := by
        rintro c (rfl | rfl) <;> cases k <;> decide
      rcases exWithSub_at hb with ⟨_, rfl⟩ | ⟨_, rfl⟩
      · rcases exWithSub_at h3 with ⟨_, rfl⟩ | ⟨_, rfl⟩
        · exact key _ (Or.inl rfl) v h2
        · exact key _ (Or.inr rfl) v h2
      · obtain ⟨_, rfl⟩ := oneModel_at rfl h3
        exact key _ (Or.inr rfl) v h2
    intro path c hc p k1 path1 v1 k2 path2 v2 h1 h2 _
    rw [hsz hc h1, hsz hc h2]
  promotes := by
    intro path c hc n q sub hs
    rcases exWithSub_at hc with ⟨_, rfl⟩ | ⟨_, rfl⟩ <;> simp [exWithSub, exFirstPart, exSubPart, Body.addPromoted, Body.append, Body.subs] at hs
  connections := by
    intro path c a d hc h
    rcases exWithSub_at hc with ⟨_, rfl⟩ | ⟨_, rfl⟩ <;> simp [Body.locals, exWithSub, exFirstPart, exSubPart, Body.addPromoted, Body.append, Body.stmts, Stmt.count, stepConnections] at h
  oneConnection := exWithSub_acceptable.2.oneConnection
  noChain := exWithSub_acceptable.1
  acyclic := exWithSub_acceptable.2.acyclic

theorem exWithoutSub_valid : ValidProgram exWithoutSub where
  methods := exWithoutSub_acceptable.2.methods
  names := exWithoutSub_good
  oneSource := exWithoutSub_acceptable.2.oneSource
  sizes := by
    intro path c hc p k1 path1 v1 k2 path2 v2 h1 h2 hne
    obtain ⟨_, rfl⟩ := exWithoutSub_at hc
    obtain ⟨e1, _⟩ := oneModel_promoted h1
    obtain ⟨e2, _⟩ := oneModel_promoted h2
    exact absurd (e1.trans e2.symm) hne
  promotes := by
    intro path c hc n q sub hs
    obtain ⟨_, rfl⟩ := exWithoutSub_at hc
    simp [exWithoutSub, exFirstPart, exRestPart, Body.append, Body.subs] at hs
  connections := by
    intro path c a d hc h
    obtain ⟨_, rfl⟩ := exWithoutSub_at hc
    simp [Body.locals, exWithoutSub, exFirstPart, exRestPart, Body.append, Body.stmts, Stmt.count, stepConnections] at h
  oneConnection := exWithoutSub_acceptable.2.oneConnection
  noChain := exWithoutSub_acceptable.1
  acyclic := exWithoutSub_acceptable.2.acyclic

theorem exWithoutSub_new : NewSub exWithoutSub "m".toList where
  nonEmpty := by decide
  allowed := by intro c hc; simp at hc; subst hc; decide
  notAuto := fun h => absurd h.1 (by decide)
  newSub := by decide
  newVar := by decide

theorem exB_live : ∀ x < numVars (exFirstPart.stmts 0), exFirstPart.Live x := by
  have h1 : exFirstPart.Live 1 := .output (name := "y".toList) (by decide)
  have h0 : exFirstPart.Live 0 := .input (name := "x".toList) (s := [1]) (by decide)
  intro x hx
  have : x < 2 := hx
  match x, this with
  | 0, _ => exact h0
  | 1, _ => exact h1

theorem exSubPart_live : ∀ x < numVars (exSubPart.stmts 0), exSubPart.Live x := by
  have h1 : exSubPart.Live 1 := .output (name := "z".toList) (by decide)
  have h0 : exSubPart.Live 0 := .operand (n := 1) (s := .expr (.add 0 0)) h1 (by simp [Body.Has, exSubPart, Body.stmts, Stmt.count]) (by decide) (by decide) (by decide)
  intro x hx
  have : x < 2 := hx
  match x, this with
  | 0, _ => exact h0
  | 1, _ => exact h1

theorem exWithSub_plain : ¬ exWithSub.Assigns := by
  rintro ⟨path, b', n, z, key, x, hb, h⟩
  rcases exWithSub_at hb with ⟨_, rfl⟩ | ⟨_, rfl⟩ <;> simp [Body.Has, exWithSub, exFirstPart, exSubPart, Body.addPromoted, Body.append, Body.stmts, Stmt.count] at h

theorem exWithoutSub_plain : ¬ exWithoutSub.Assigns := by
  rintro ⟨path, b', n, z, key, x, hb, h⟩
  obtain ⟨_, rfl⟩ := exWithoutSub_at hb
  simp [Body.Has, exWithoutSub, exFirstPart, exRestPart, Body.append, Body.stmts, Stmt.count] at h

/-- the hypotheses hold of the example -/
example := C105_moved_to_submodel exFirstPart false "m".toList exSubPart exRestPart (fun x => x + 1) exSubPart_inlined exWithoutSub_new exWithSub_valid exWithoutSub_valid exB_live exSubPart_live (fun h => absurd h exWithSub_plain) (fun h => absurd h exWithoutSub_plain)

end Csdl.Prog
