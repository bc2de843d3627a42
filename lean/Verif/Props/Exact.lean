import Verif.Proofs.Exact3
import Verif.Props.ValidProgram
/-
C104: exactly the acceptable programs are accepted.
-/
namespace Csdl

/-- **C104, hierarchies.** For every hierarchy of model objects that `define` methods can build, in which no target of a connection is the source of a later one and variables declared more than once in one model
have the same number of elements each time: its representation is built without error exactly if the hierarchy is acceptable. -/
theorem C104_hierarchies_accepted_iff (H : Objs) (n fuel : Nat) (root : OModel) (hw : WellBuilt H n root) (hch : NoChain (root.toModel H)) (hct : ConsistentTargets (root.toModel H))
    (hf : ∀ path m, OAt H root path m → (m.outputs ++ m.declared).length + n ≤ fuel) (order : List Nat → List Nat) (ho : ∀ l x, x ∈ order l ↔ x ∈ l) :
    (∃ rep, compile H fuel order root = .ok rep) ↔ Acceptable H root :=
  ⟨fun ⟨rep, hc⟩ => accepted_acceptable H n fuel root hw hch hct hf order ho rep hc, fun ha => acceptable_accepted H n fuel root hw hch ha hf order ho⟩

/-- all hypotheses hold of the hierarchy of C70, which is acceptable -/
example : WellBuilt exObj 8 exObjRoot ∧ NoChain (exObjRoot.toModel exObj) ∧ ConsistentTargets (exObjRoot.toModel exObj) ∧ Acceptable exObj exObjRoot := by
  refine ⟨exObj_valid.wellBuilt, exObj_valid.noChain, ?_, exObj_valid.acceptable⟩
  intro path l subs h
  rw [exObj_model] at h
  rcases exEnd_at h with ⟨_, e⟩ | ⟨_, e⟩ <;> cases e <;> decide

end Csdl

namespace Csdl.Prog
open Csdl Csdl.Arith
variable {K F : Type} [Field K] [DecidableEq K]

/-- the objects and the fuel -/
theorem enough {b : Body K F} {objs : List (PObj K F)} {root : OModel} {Ls : List (List Name × Slot K F)} (u : Setup objs b root Ls) {fuel : Nat}
    (hf : ∀ path b', BAt b path b' → (b'.locals.outputs ++ b'.locals.declared).length + objs.length ≤ fuel) (path : List Name) (m : OModel) (hm : OAt (objects objs) root path m) :
    (m.outputs ++ m.declared).length + objs.length ≤ fuel := by
  obtain ⟨s, hs, c⟩ := u.hier.ctx hm
  have := hf path s.body c.at_
  have e1 : s.body.locals.outputs.length = m.outputs.length := by
    rw [c.mat.outputs, c.inv.outputs.length_eq]
    simp [Body.locals]
  have e2 : s.body.locals.declared.length = m.declared.length := by
    rw [c.mat.declared, c.inv.declared.length_eq]
    simp [Body.locals]
  simp only [List.length_append] at this ⊢
  omega

theorem setup_of_run {b : Body K F} (hg : GoodNames b) {objs : List (PObj K F)} {root : OModel} (hr : runProgram b = .ok (objs, root)) (hn : objs.length ≤ 63 ^ 4) :
    ∃ Ls, Setup objs b root Ls := by
  obtain ⟨Ls, hh, _⟩ := runFrom_hier hr List.prefix_rfl
  exact ⟨Ls, hh, hg, runFrom_closed (by simp [Closed]) hr, hn⟩

/-- **C104.** For every program with good names that is not too large, in which no target of a connection is the source of a later one and a variable declared more than once in a method is declared with the
same number of elements: its `define` methods run and its representation is built, without an error, exactly if the program is acceptable. -/
theorem C104_programs_accepted_iff (b : Body K F) (hg : GoodNames b) (hs : b.maxObjects ≤ 63 ^ 4) (hch : NoChain b.toModel) (hcons : ConsistentDeclarations b) (fuel : Nat)
    (hf : ∀ path b', BAt b path b' → (b'.locals.outputs ++ b'.locals.declared).length + b.maxObjects ≤ fuel) (order : List Nat → List Nat) (ho : ∀ l x, x ∈ order l ↔ x ∈ l) :
    (∃ objs root rep, runProgram b = .ok (objs, root) ∧ compile (objects objs) fuel order root = .ok rep) ↔ AcceptableProgram b := by
  have len : ∀ objs root, runProgram b = .ok (objs, root) → objs.length ≤ b.maxObjects := by
    intro objs root hr
    have := runFrom_length hr
    simpa using this
  constructor
  · rintro ⟨objs, root, rep, hr, hc⟩
    have hl := len objs root hr
    obtain ⟨Ls, u⟩ := setup_of_run hg hr (by omega)
    have hm := (runProgram_ok_iff b (plainNames hg fun _ => hs)).1 ⟨objs, root, hr⟩
    have hct := consistent_of hcons
    have hch' := hch
    rw [← u.hier.names] at hct hch'
    have ha := accepted_acceptable (objects objs) objs.length fuel root u.wellBuilt hch' hct (enough u fun path b' hb => (by have := hf path b' hb; omega)) order ho rep hc
    obtain ⟨r, _, _, hres, _⟩ := compile_ok hc
    rw [u.hier.names] at hres
    exact u.acceptableProgram hm hcons hres ha
  · intro hv
    obtain ⟨objs, root, hr⟩ := (runProgram_ok_iff b (plainNames hg fun _ => hs)).2 hv.methods
    have hl := len objs root hr
    obtain ⟨Ls, u⟩ := setup_of_run hg hr (by omega)
    have hch' := hch
    rw [← u.hier.names] at hch'
    obtain ⟨rep, hc⟩ := acceptable_accepted (objects objs) objs.length fuel root u.wellBuilt hch' (u.acceptable hv) (enough u fun path b' hb => (by have := hf path b' hb; omega)) order ho
    exact ⟨objs, root, rep, hr, hc⟩

/-- **C104.** Every acceptable program computes its meaning: for all meanings of the functions and all values of the variables that must be given there is exactly one solution on the variables that matter,
and it is what executing the representation computes. -/
theorem C104_acceptable_programs_compute (b : Body K F) (hg : GoodNames b) (hs : b.maxObjects ≤ 63 ^ 4) (hch : NoChain b.toModel) (hv : AcceptableProgram b) :
    ∃ objs root, runProgram b = .ok (objs, root) ∧ ∀ order : List Nat → List Nat, (∀ l x, x ∈ order l ↔ x ∈ l) →
      ∀ fuel, (∀ path b', BAt b path b' → (b'.locals.outputs ++ b'.locals.declared).length + objs.length ≤ fuel) →
      ∃ rep, compile (objects objs) fuel order root = .ok rep ∧ ∃ (f : Nat → Nat) (node : List Name → Nat → Nat), ∀ (P : Power K) (den : F → List (Val K) → Nat → Val K) (σ0 : Env (Val K)),
        let value := fun path x => execAll rep.graph ⟨fun i => decide ((objects objs i).kind = .op), fun i => (objects objs i).deps.map f, opMeaning P den objs⟩ σ0 rep.sorted (node path x)
        Solution P den b value ∧ (∀ path x, GivenVar b path x → value path x = σ0 (node path x)) ∧
        ∀ ρ, Solution P den b ρ → (∀ path x, GivenVar b path x → ρ path x = σ0 (node path x)) → ∀ path b', BAt b path b' → ∀ x, b'.Live x → ρ path x = value path x := by
  obtain ⟨objs, root, hr⟩ := (runProgram_ok_iff b (plainNames hg fun _ => hs)).2 hv.methods
  have hl : objs.length ≤ b.maxObjects := by
    have := runFrom_length hr
    simpa using this
  obtain ⟨Ls, u⟩ := setup_of_run hg hr (by omega)
  have hch' := hch
  rw [← u.hier.names] at hch'
  refine ⟨objs, root, hr, fun order ho fuel hf => ?_⟩
  obtain ⟨rep, hc⟩ := acceptable_accepted (objects objs) objs.length fuel root u.wellBuilt hch' (u.acceptable hv) (enough u hf) order ho
  obtain ⟨f, node, _, _, h3⟩ := C73_programs_mean_what_they_say b hg hch objs root hr (by omega) fuel hf order ho rep hc
  exact ⟨rep, hc, f, node, h3⟩

/-! ### The difference between acceptable and valid programs -/

omit [DecidableEq K] in
/-- **C104.** Every valid program is acceptable. -/
theorem C104_valid_acceptable (b : Body K F) (hv : ValidProgram b) : AcceptableProgram b where
  methods := hv.methods
  oneSource := hv.oneSource
  sizes := fun path b' hb p k1 path1 v1 k2 path2 v2 h1 h2 hne _ => hv.sizes path b' hb p k1 path1 v1 k2 path2 v2 h1 h2 hne
  promotes := by
    intro path b' hb n q sub hs x hx
    obtain ⟨h1, path', k, v, h2⟩ := hv.promotes path b' hb n q sub hs x hx
    refine ⟨h1, n :: path', k, v, ?_⟩
    rw [Body.toModel]
    exact .up (s := ⟨n, some q, sub.toModel⟩) (mem_toSubs.2 ⟨_, hs, rfl⟩) h2 hx
  connections := by
    intro path b' a c hb hab
    obtain ⟨p, q, h1, h2, h3, h4, h5, h6⟩ := hv.connections path b' a c hb hab
    exact ⟨p, q, h1, h2, h3, h4, h5, fun path w k' path' w' g1 g2 _ => h6 _ _ _ _ _ _ g1 g2⟩
  oneConnection := hv.oneConnection
  acyclic := hv.acyclic

/-- `def define(self): create_input('x', shape=(3,))` -/
def exThree : Body ℚ Unit := .stmt (.input "x".toList [3] (fun _ => 1)) .done

/-- `def define(self): x = declare_variable('x', shape=(4,)); y = x * 2; register_output('y', y)` -/
def exFour : Body ℚ Unit := .stmt (.declare "x".toList [4] none) (.stmt (.expr (.mulc 0 (.num 2))) (.stmt (.register "y".toList 1) .done))

/-- `def define(self): add(three, 'a'); add(four, 'b')` -/
def exSiblings : Body ℚ Unit := .add false "a".toList none exThree (.add false "b".toList none exFour .done)

/-- `def define(self): create_input('y', shape=(3,)); add(three, 'a', promotes=['x', 'y'])` -/
def exForeign : Body ℚ Unit := .stmt (.input "y".toList [3] (fun _ => 1)) (.add false "a".toList (some ["x".toList, "y".toList]) exThree .done)

theorem exSiblings_at {path : List Name} {b' : Body ℚ Unit} (h : BAt exSiblings path b') : b' = exSiblings ∨ b' = exThree ∨ b' = exFour := by
  cases h with
  | here => exact Or.inl rfl
  | down h1 h2 =>
    simp only [exSiblings, Body.subs, List.mem_cons, List.not_mem_nil, or_false, Prod.mk.injEq] at h1
    rcases h1 with ⟨rfl, rfl, rfl⟩ | ⟨rfl, rfl, rfl⟩
    · cases h2 with
      | here => exact Or.inr (Or.inl rfl)
      | down h3 _ => simp [exThree, Body.subs] at h3
    · cases h2 with
      | here => exact Or.inr (Or.inr rfl)
      | down h3 _ => simp [exFour, Body.subs] at h3

theorem exForeign_at {path : List Name} {b' : Body ℚ Unit} (h : BAt exForeign path b') : b' = exForeign ∨ b' = exThree := by
  cases h with
  | here => exact Or.inl rfl
  | down h1 h2 =>
    simp only [exForeign, Body.subs, List.mem_cons, List.not_mem_nil, or_false, Prod.mk.injEq] at h1
    obtain ⟨rfl, rfl, rfl⟩ := h1
    cases h2 with
    | here => exact Or.inr rfl
    | down h3 _ => simp [exThree, Body.subs] at h3

/-- a program without connections that runs is acceptable -/
theorem acceptable_of_check (b : Body ℚ Unit) (hg : GoodNames b) (hs : b.maxObjects ≤ 20) (hcon : issuedPost Local.connections b.toModel = []) (hcons : ConsistentDeclarations b)
    (hl : ∀ path b', BAt b path b' → (b'.locals.outputs ++ b'.locals.declared).length ≤ 20)
    (h : okCheck (runProgram b) (fun q => okCheck (compile (objects q.1) 40 id q.2) fun _ => true) = true) : NoChain b.toModel ∧ AcceptableProgram b := by
  have hno : NoChain b.toModel := by
    unfold NoChain
    rw [hcon]
    exact ⟨by simp, by simp⟩
  refine ⟨hno, (C104_programs_accepted_iff b hg (by omega) hno hcons 40 (fun path b' hb => by have := hl path b' hb; omega) id (fun _ _ => Iff.rfl)).1 ?_⟩
  obtain ⟨⟨objs, root⟩, h1, h2⟩ := ok_of_check h
  obtain ⟨rep, h3, _⟩ := ok_of_check h2
  exact ⟨objs, root, rep, h1, h3⟩

theorem exSiblings_good : GoodNames exSiblings := by
  constructor
  all_goals
    intro path b' h
    rcases exSiblings_at h with rfl | rfl | rfl <;> decide

theorem exForeign_good : GoodNames exForeign := by
  constructor
  all_goals
    intro path b' h
    rcases exForeign_at h with rfl | rfl <;> decide

theorem exSiblings_acceptable : NoChain exSiblings.toModel ∧ AcceptableProgram exSiblings := by
  refine acceptable_of_check exSiblings exSiblings_good (by decide) (by decide) ?_ ?_ (by decide +kernel)
  · intro path b' hb
    rcases exSiblings_at hb with rfl | rfl | rfl <;> decide
  · intro path b' hb
    rcases exSiblings_at hb with rfl | rfl | rfl <;> decide

theorem exForeign_acceptable : NoChain exForeign.toModel ∧ AcceptableProgram exForeign := by
  refine acceptable_of_check exForeign exForeign_good (by decide) (by decide) ?_ ?_ (by decide +kernel)
  · intro path b' hb
    rcases exForeign_at hb with rfl | rfl <;> decide
  · intro path b' hb
    rcases exForeign_at hb with rfl | rfl <;> decide

/-- **C104, limits.** More programs than the valid ones are accepted.  (1) The variable `x` with 4 elements is the input `x` with 3 elements of another submodel.  (2) A submodel promotes a name it does not have,
but the model that contains it has. -/
theorem C104_more_than_valid : (AcceptableProgram exSiblings ∧ GoodNames exSiblings ∧ NoChain exSiblings.toModel ∧
      PromotedAs exSiblings.toModel ["a".toList] .source ⟨"x".toList, [3]⟩ "x".toList ∧ PromotedAs exSiblings.toModel ["b".toList] .target ⟨"x".toList, [4]⟩ "x".toList ∧ ¬ ValidProgram exSiblings) ∧
    (AcceptableProgram exForeign ∧ GoodNames exForeign ∧ NoChain exForeign.toModel ∧ ("a".toList, some ["x".toList, "y".toList], exThree) ∈ exForeign.subs ∧
      (∀ path k v, ¬ PromotedAs exThree.toModel path k v "y".toList) ∧ ¬ ValidProgram exForeign) := by
  have h1 : PromotedAs exSiblings.toModel ["a".toList] .source ⟨"x".toList, [3]⟩ "x".toList :=
    .up (s := ⟨"a".toList, none, exThree.toModel⟩) (by simp [exSiblings, Body.toSubs, Subs.toList, Body.toModel]) (.here (v := ⟨"x".toList, [3]⟩) (by decide)) (by simp [IsPromoted])
  have h2 : PromotedAs exSiblings.toModel ["b".toList] .target ⟨"x".toList, [4]⟩ "x".toList :=
    .up (s := ⟨"b".toList, none, exFour.toModel⟩) (by simp [exSiblings, Body.toSubs, Subs.toList, Body.toModel]) (.here (v := ⟨"x".toList, [4]⟩) (by decide)) (by simp [IsPromoted])
  have h3 : ("a".toList, some ["x".toList, "y".toList], exThree) ∈ exForeign.subs := by simp [exForeign, Body.subs]
  have h4 : ∀ path k v, ¬ PromotedAs exThree.toModel path k v "y".toList := by
    intro path k v h
    obtain ⟨_, hv, e⟩ := oneModel_promoted h
    cases k
    · have hv : v ∈ [(⟨"x".toList, [3]⟩ : VarInfo)] := hv
      obtain rfl := List.mem_singleton.1 hv
      exact absurd e (by decide)
    · exact absurd hv (by simp [Local.vars, exThree, Body.locals, Body.stmts, declaredOf, Stmt.count])
  refine ⟨⟨exSiblings_acceptable.2, exSiblings_good, exSiblings_acceptable.1, h1, h2, fun hv => ?_⟩, exForeign_acceptable.2, exForeign_good, exForeign_acceptable.1, h3, h4, fun hv => ?_⟩
  · exact absurd (hv.sizes [] exSiblings (.here _) _ _ _ _ _ _ _ h1 h2 (by decide)) (by decide)
  · obtain ⟨_, path', k, v, h⟩ := hv.promotes [] exForeign (.here _) _ _ _ h3 "y".toList (by simp)
    exact h4 _ _ _ h

/-- a valid program with submodels and a connection: acceptable -/
example : AcceptableProgram exMain ∧ GoodNames exMain ∧ NoChain exMain.toModel ∧ ConsistentDeclarations exMain ∧ exMain.maxObjects ≤ 63 ^ 4 := by
  refine ⟨C104_valid_acceptable _ exMain_valid, exMain_valid.names, exMain_valid.noChain, ?_, by decide⟩
  intro path b' hb
  rcases exMain_at hb with ⟨_, rfl⟩ | ⟨_, rfl⟩ <;> decide

end Csdl.Prog
