import Verif.Proofs.PassArgs
import Verif.Props.Defaults
/-
C107: the values of arguments of implicit operations are passed to the residual model.
-/
namespace Csdl.Prog
open Csdl Csdl.Arith
variable {K F : Type} [Field K] [DecidableEq K]
variable {objs objs' : List (PObj K F)} {b : Body K F} {root : OModel} {Ls : List (List Name × Slot K F)}

/-- a declaration of the main model: its object -/
theorem Setup.main_declare (u : Setup objs b root Ls) {y : Nat} {name : Name} {sh : Shape} {v : Option (Val K)} (hy : b.Has y (.declare name sh v)) :
    objOf Ls [] y ∈ root.declared ∧ (objects objs (objOf Ls [] y)).name = name ∧ (LastOf (fun i => (objects objs i).name) root.declared (objOf Ls [] y) ↔ b.LastDeclared name y) := by
  obtain ⟨s, hs, c⟩ := u.hier.ctx (OAt.here root)
  have e := u.hier.bat_unique c.at_ (.here _)
  rw [← e] at hy
  obtain ⟨o, h1, h2, h3⟩ := c.declare_mem hy
  rw [u.hier.objOf' hs h2]
  refine ⟨h1, h3, ?_⟩
  rw [← e]
  exact c.lastOf_iff hy h2

/-- the value of a variable that is not computed, when values have been passed -/
theorem Setup.passed (u : Setup objs b root Ls) {args : List (Name × Shape × Val K)} (hp : passArgs root objs args = (objs', none)) {path path' : List Name} {x y : Nat} {v : Option (Val K)}
    (h : GivenAt b path x path' y v) (hv : initial objs (objOf Ls path' y) = v.getD fun _ => 1) : InitialAt b args path' y v (initial objs' (objOf Ls path' y)) := by
  obtain ⟨i1, i2⟩ := passArgs_initial (fun d hd => (u.ok.models [] root (.here _)).bounded.leaves d (by simp [hd])) hp
  by_cases hl : LastOf (fun i => (objects objs i).name) root.declared (objOf Ls path' y)
  · have hrole := ((u.ok.models [] root (.here _)).declaredRole _ hl.mem).2
    cases h with
    | input hb hy _ _ =>
      rw [(u.input_obj hb hy).2.1] at hrole
      cases hrole
    | @declare b' name shape v hb hy _ hlast _ _ =>
      have hpath : path' = [] := by
        obtain ⟨s, hs, rfl⟩ := u.hier.ofBody path' b' hb
        obtain ⟨m, hm, c⟩ := u.hier.model hs
        obtain ⟨o, h4, h5, _⟩ := c.declare_mem hy
        rw [u.hier.objOf' hs h5] at hl
        exact u.ok.separate path' m [] root hm (.here _) o (Or.inr (Or.inl (.leaf _ (by simp [h4])))) (Or.inr (Or.inl (.leaf _ (by simp [hl.mem]))))
      subst hpath
      obtain rfl := u.hier.bat_unique hb (.here _)
      obtain ⟨g1, g2, g3⟩ := u.main_declare hy
      have e := i1 _ hl
      rw [g2] at e
      cases hpa : passedTo args name with
      | some a =>
        rw [hpa] at e
        rw [e]
        exact .passed rfl hy hlast hpa
      | none =>
        rw [hpa] at e
        rw [e]
        refine hv ▸ .own fun _ n2 s2 v2 h2 _ => ?_
        rw [← (u.main_declare h2).2.1, g2]
        exact hpa
  · rw [i2 _ hl, hv]
    refine .own fun hpath n2 s2 v2 h2 hl2 => ?_
    subst hpath
    exact absurd ((u.main_declare h2).2.2.2 hl2) hl

/-- C107 for programs without custom and implicit operations, in a session. -/
theorem passed_in_session (pre : List (PObj K F)) (b : Body K F) (hg : GoodNames b) (hno : NoChain b.toModel) (done : List (PObj K F)) (root : OModel) (hr : runFrom pre b = .ok (done, root))
    (objs : List (PObj K F)) (hpre : done <+: objs) (hcl : Closed objs) (hn : objs.length ≤ 63 ^ 4) (fuel : Nat) (hf : ∀ path b', BAt b path b' → (b'.locals.outputs ++ b'.locals.declared).length + objs.length ≤ fuel)
    (order : List Nat → List Nat) (ho : ∀ l x, x ∈ order l ↔ x ∈ l) (rep : Csdl.Rep) (hc : compile (objects objs) fuel order root = .ok rep)
    (args : List (Name × Shape × Val K)) (objs' : List (PObj K F)) (hp : passArgs root objs args = (objs', none)) :
    ∃ (f : Nat → Nat) (node : List Name → Nat → Nat),
      (∀ path b', BAt b path b' → ∀ x, b'.Live x → node path x ∈ rep.graph.nodes ∧ (objects objs' (node path x)).kind = .var) ∧
      ∀ (P : Power K) (den : F → List (Val K) → Nat → Val K),
        let value := fun path x => execAll rep.graph ⟨fun i => decide ((objects objs' i).kind = .op), fun i => (objects objs' i).deps.map f, opMeaning P den objs'⟩ (initial objs') rep.sorted (node path x)
        Solution P den b value ∧ (∀ path x, GivenVar b path x → ∃ path' y v, GivenAt b path x path' y v ∧ InitialAt b args path' y v (value path x)) ∧
        ∀ ρ, Solution P den b ρ → (∀ path x, GivenVar b path x → ρ path x = value path x) → ∀ path b', BAt b path b' → ∀ x, b'.Live x → ρ path x = value path x := by
  obtain ⟨Ls, f, node, u, hk, rfl, f1, f2, h1, h2, h3⟩ := means_kept pre b hg hno done root hr objs hpre hcl hn fuel hf order ho rep hc
  obtain ⟨e1, e2, _⟩ := passArgs_objects hp
  have e3 : ∀ (P : Power K) (den : F → List (Val K) → Nat → Val K), opMeaning P den objs' = opMeaning P den objs := by
    intro P den
    unfold opMeaning
    rw [e1, e2]
  refine ⟨f, _, by rw [e1]; exact h1, fun P den => ?_⟩
  rw [e3, e1]
  obtain ⟨a1, a2, a3⟩ := h3 P den (initial objs')
  refine ⟨a1, fun path x hx => ?_, fun ρ hρ hg => a3 ρ hρ fun path x hx => (hg path x hx).trans (a2 path x hx)⟩
  obtain ⟨path', y, v, d1, d2, d3⟩ := u.given_at hk f2 hx
  rw [d2] at d3
  refine ⟨path', y, v, d1, ?_⟩
  have := u.passed hp d1 d3
  rw [← d2, ← a2 path x hx] at this
  exact this

omit [DecidableEq K] in
/-- an argument that no input and no value of a direct submodel overrides has the value passed -/
theorem given_argument {args : List (Name × Shape × Val K)} {path path' : List Name} {x y y' : Nat} {name : Name} {sh : Shape} {v v' : Option (Val K)} {a w : Val K}
    (hy : b.Has y (.declare name sh v)) (hlast : b.LastDeclared name y) (ha : passedTo args name = some a) (hs : SameVar b path x [] y)
    (hin : ∀ path2 b2 z nm s w, BAt b path2 b2 → b2.Has z (.input nm s w) → ¬ SameVar b path x path2 z)
    (hsub : ∀ m b2 z nm s w, BAt b [m] b2 → b2.Has z (.declare nm s (some w)) → b2.LastDeclared nm z → ¬ SameVar b path x [m] z)
    (hone : ∀ z nm s w, b.Has z (.declare nm s w) → SameVar b path x [] z → nm = name)
    (h : GivenAt b path x path' y' v') (hw : InitialAt b args path' y' v' w) : w = a := by
  cases h with
  | input hb hz hsv _ => exact absurd hsv (hin _ _ _ _ _ _ hb hz)
  | @declare b' name' sh' v' hb hz hsv hla _ hbest =>
    obtain ⟨c1, _, c3⟩ := hbest [] b y name sh v (.here _) hy hs
    have hpath : path' = [] := by
      rcases c3 rfl with h | h
      · exact h
      · match path', c1 with
        | [], _ => rfl
        | [m], _ =>
          obtain ⟨v0, rfl⟩ := Option.isSome_iff_exists.1 h
          exact absurd hsv (hsub m b' y' name' sh' v0 hb hz hla)
        | _ :: _ :: _, c1 => simp at c1
    subst hpath
    cases hb
    obtain rfl := hone y' name' sh' v' hz hsv
    cases hw with
    | passed _ h2 _ h4 =>
      obtain rfl := hone y' _ _ _ h2 hsv
      rw [ha] at h4
      exact (Option.some.inj h4).symm
    | own h =>
      rw [h rfl _ _ _ hz hla] at ha
      cases ha

variable {F G I : Type}

/-- **C107.** An implicit operation is called with residuals defined by the program `q`: it runs (in any session), its representation is built, and then the arguments are checked and their values passed; `objs` and `objs'` are the objects before and after.
Executing the representation from the values of its variables gives the solution of `q` in which every variable that nothing computes has the value given for it by the rules of C86 (`GivenAt`), where the value of the last declaration of an argument in
the main model of `q` is the value of the argument. -/
theorem C107_passed_values_partial (q : XBody K F G I) (hg : GoodNames (q.low 0)) (hno : NoChain (q.low 0).toModel) (pre done : List (PObj K (Fun F G I))) (root : OModel)
    (hr : xrunFrom pre q = .ok (done, root)) (objs : List (PObj K (Fun F G I))) (hpre : done <+: objs) (hcl : Closed objs) (hn : objs.length ≤ 63 ^ 4) (fuel : Nat) (hf : ∀ path b', XAt q path b' → (b'.locals.outputs ++ b'.locals.declared).length + objs.length ≤ fuel)
    (order : List Nat → List Nat) (ho : ∀ l x, x ∈ order l ↔ x ∈ l) (rep : Csdl.Rep) (hc : compile (xobjects objs) fuel order root = .ok rep)
    (args : List (Name × Shape × Val K)) (objs' : List (PObj K (Fun F G I))) (hp : passArgs root objs args = (objs', none)) :
    ∃ (f : Nat → Nat) (node : List Name → Nat → Nat),
      (∀ path b', XAt q path b' → ∀ x, (b'.low 0).Live x → node path x ∈ rep.graph.nodes ∧ (xobjects objs' (node path x)).kind = .var) ∧
      ∀ (P : Power K) (den : Fun F G I → List (Val K) → Nat → Val K),
        let value := fun path x => execAll rep.graph ⟨fun i => decide ((xobjects objs' i).kind = .op), fun i => (xobjects objs' i).deps.map f, opMeaning P den objs'⟩ (initial objs') rep.sorted (node path x)
        Prog.Solution P den (q.low 0) value ∧ (∀ path x, GivenVar (q.low 0) path x → ∃ path' y v, GivenAt (q.low 0) path x path' y v ∧ InitialAt (q.low 0) args path' y v (value path x)) ∧
        ∀ ρ, Prog.Solution P den (q.low 0) ρ → (∀ path x, GivenVar (q.low 0) path x → ρ path x = value path x) → ∀ path b', XAt q path b' → ∀ x, (b'.low 0).Live x → ρ path x = value path x := by
  have hf' : ∀ path c, BAt (q.low 0) path c → (c.locals.outputs ++ c.locals.declared).length + objs.length ≤ fuel := by
    intro path c hc
    obtain ⟨b', h1, rfl⟩ := bat_low hc
    exact hf path b' h1
  obtain ⟨rep0, dv, ob, cn, hc0, _, _, _, rfl⟩ := (xcompile hg hr hpre hcl hn hf' ho rep).1 hc
  have hp' : passArgs (OModel.strip root) objs args = (objs', none) := by
    have : ∀ (l : List (Name × Shape × Val K)) (o : List (PObj K (Fun F G I))), passArgs (OModel.strip root) o l = passArgs root o l := by
      intro l
      have e : ∀ o : List (PObj K (Fun F G I)), residualModel o (OModel.strip root) = residualModel o root := by
        intro o; cases root; rfl
      induction l with
      | nil => intro o; rfl
      | cons a l ih => intro o; simp only [passArgs, e, ih]
    rw [this]
    exact hp
  obtain ⟨f, node, h1, h3⟩ := passed_in_session pre (q.low 0) hg hno done _ (xrunFrom_low hr).1 objs hpre hcl hn fuel hf' order ho rep0 hc0 args objs' hp'
  refine ⟨f, node, fun path b' hb => h1 path _ (xat_low hb), fun P den => ?_⟩
  obtain ⟨a1, a2, a3⟩ := h3 P den
  exact ⟨a1, a2, fun ρ hρ hg path b' hb => a3 ρ hρ hg path _ (xat_low hb)⟩

/-- **C107, arguments.** In the same situation, let `y` be the last declaration of the argument `name` in the main model of `q`.  If no input is the same variable, no direct submodel gives a value to it, and no declaration of another name in the main
model is the same variable, then it, and every variable that is the same, has the value of the argument. -/
theorem C107_argument_value (q : XBody K F G I) (hg : GoodNames (q.low 0)) (hno : NoChain (q.low 0).toModel) (pre done : List (PObj K (Fun F G I))) (root : OModel)
    (hr : xrunFrom pre q = .ok (done, root)) (objs : List (PObj K (Fun F G I))) (hpre : done <+: objs) (hcl : Closed objs) (hn : objs.length ≤ 63 ^ 4) (fuel : Nat) (hf : ∀ path b', XAt q path b' → (b'.locals.outputs ++ b'.locals.declared).length + objs.length ≤ fuel)
    (order : List Nat → List Nat) (ho : ∀ l x, x ∈ order l ↔ x ∈ l) (rep : Csdl.Rep) (hc : compile (xobjects objs) fuel order root = .ok rep)
    (args : List (Name × Shape × Val K)) (objs' : List (PObj K (Fun F G I))) (hp : passArgs root objs args = (objs', none)) :
    ∃ (f : Nat → Nat) (node : List Name → Nat → Nat),
      (∀ path b', XAt q path b' → ∀ x, (b'.low 0).Live x → node path x ∈ rep.graph.nodes ∧ (xobjects objs' (node path x)).kind = .var) ∧
      ∀ (P : Power K) (den : Fun F G I → List (Val K) → Nat → Val K),
        let value := fun path x => execAll rep.graph ⟨fun i => decide ((xobjects objs' i).kind = .op), fun i => (xobjects objs' i).deps.map f, opMeaning P den objs'⟩ (initial objs') rep.sorted (node path x)
        Prog.Solution P den (q.low 0) value ∧
        ∀ path x, GivenVar (q.low 0) path x → ∀ y name sh v a, (q.low 0).Has y (.declare name sh v) → (q.low 0).LastDeclared name y → passedTo args name = some a → SameVar (q.low 0) path x [] y →
          (∀ path2 b2 z nm s w, BAt (q.low 0) path2 b2 → b2.Has z (.input nm s w) → ¬ SameVar (q.low 0) path x path2 z) →
          (∀ m b2 z nm s w, BAt (q.low 0) [m] b2 → b2.Has z (.declare nm s (some w)) → b2.LastDeclared nm z → ¬ SameVar (q.low 0) path x [m] z) →
          (∀ z nm s w, (q.low 0).Has z (.declare nm s w) → SameVar (q.low 0) path x [] z → nm = name) → value path x = a := by
  obtain ⟨f, node, h1, h3⟩ := C107_passed_values_partial q hg hno pre done root hr objs hpre hcl hn fuel hf order ho rep hc args objs' hp
  refine ⟨f, node, h1, fun P den => ?_⟩
  obtain ⟨a1, a2, _⟩ := h3 P den
  refine ⟨a1, fun path x hx y name sh v a hy hlast ha hs hin hsub hone => ?_⟩
  obtain ⟨path', y', v', g1, g2⟩ := a2 path x hx
  exact given_argument hy hlast ha hs hin hsub hone g1 g2

/-- **C107, rejected arguments.** The values are passed exactly if every argument has the name and shape of a declared variable of the main model (the last declared one of that name); otherwise the first argument for which this fails is reported, by name or by shape.
Nothing but values is changed, also if an argument is rejected. -/
theorem C107_rejected (root : OModel) (objs objs' : List (PObj K F)) (args : List (Name × Shape × Val K)) (e : Option ImpErr) (h : passArgs root objs args = (objs', e)) :
    (e = none ↔ ∀ a ∈ args, ∃ d, LastOf (fun i => (objects objs i).name) root.declared d ∧ (objects objs d).name = a.1 ∧ (objects objs d).shape = a.2.1) ∧
    (∀ r, e = some r ↔ checkArgs (residualModel objs root) (args.map fun a => (a.1, a.2.1)) = .error r) ∧
    objects objs' = objects objs ∧ kindOf objs' = kindOf objs := by
  have h1 := passArgs_error (root := root) (args := args) (objs := objs)
  rw [h] at h1
  dsimp only at h1
  obtain ⟨h2, h3, _⟩ := passArgs_objects h
  refine ⟨?_, fun r => by rw [h1]; cases e <;> simp, h2, h3⟩
  rw [show e = none ↔ checkArgs (residualModel objs root) (args.map fun a => (a.1, a.2.1)) = .ok () by rw [h1]; cases e <;> simp]
  clear h h1
  induction args with
  | nil => simp [checkArgs]
  | cons a as ih =>
    rw [List.map_cons, checkArgs, List.forall_mem_cons, ← ih]
    dsimp only
    cases hd : (nameMap (residualModel objs root).h (residualModel objs root).declared).get? a.1 with
    | none =>
      simp only [reduceCtorEq, false_iff]
      rintro ⟨⟨d, d1, d2, _⟩, _⟩
      have := nameMap_last.2 ⟨show LastOf (fun i => ((residualModel objs root).h i).name) (residualModel objs root).declared d from d1, d2⟩
      rw [hd] at this
      cases this
    | some d =>
      obtain ⟨d1, d2⟩ := nameMap_last.1 hd
      have d1 : LastOf (fun i => (objects objs i).name) root.declared d := d1
      have d2 : (objects objs d).name = a.1 := d2
      dsimp only
      split_ifs with hs
      · simp only [reduceCtorEq, false_iff]
        rintro ⟨⟨d', e1, e2, e3⟩, _⟩
        obtain rfl := LastOf.eq e1 d1 (e2.trans d2.symm)
        exact hs e3.symm
      · exact ⟨fun h => ⟨⟨d, d1, d2, (not_not.1 hs).symm⟩, h⟩, fun h => h.2⟩

/-- **C107, one model object in two calls.** When a second implicit operation with the same model object is called, the values of its arguments replace those passed by the first call: the outcome is that of one call with both lists of arguments. -/
theorem C107_second_call (root : OModel) (objs objs1 : List (PObj K F)) (args args2 : List (Name × Shape × Val K)) (h : passArgs root objs args = (objs1, none)) :
    passArgs root objs1 args2 = passArgs root objs (args ++ args2) ∧ ∀ name a, passedTo args2 name = some a → passedTo (args ++ args2) name = some a := by
  constructor
  · induction args generalizing objs with
    | nil => cases h; rfl
    | cons a as ih =>
      rw [List.cons_append, passArgs]
      rw [passArgs] at h
      split at h
      · cases h
      · rename_i d hd
        split_ifs at h with hs
        · cases h
        · rw [if_neg hs]
          exact ih _ h
  · intro name a ha
    clear h
    induction args with
    | nil => exact ha
    | cons b as ih => rw [List.cons_append, passedTo_cons, ih]; rfl

/-- **C107, one model.** For a residual model without submodels and connections: every declared variable that is used has the value of the argument of its name; if there is none, that of the last declaration of its name, or 1. -/
theorem C107_one_model (q : XBody K F G I) (hs : (q.low 0).subs = []) (hcn : (q.low 0).locals.connections = []) (hg : GoodNames (q.low 0)) (pre done : List (PObj K (Fun F G I))) (root : OModel)
    (hr : xrunFrom pre q = .ok (done, root)) (objs : List (PObj K (Fun F G I))) (hpre : done <+: objs) (hcl : Closed objs) (hn : objs.length ≤ 63 ^ 4) (fuel : Nat) (hf : (q.locals.outputs ++ q.locals.declared).length + objs.length ≤ fuel)
    (order : List Nat → List Nat) (ho : ∀ l x, x ∈ order l ↔ x ∈ l) (rep : Csdl.Rep) (hc : compile (xobjects objs) fuel order root = .ok rep)
    (args : List (Name × Shape × Val K)) (objs' : List (PObj K (Fun F G I))) (hp : passArgs root objs args = (objs', none)) :
    ∃ (f node : Nat → Nat), ∀ (P : Power K) (den : Fun F G I → List (Val K) → Nat → Val K),
      let value := fun x => execAll rep.graph ⟨fun i => decide ((xobjects objs' i).kind = .op), fun i => (xobjects objs' i).deps.map f, opMeaning P den objs'⟩ (initial objs') rep.sorted (node x)
      Prog.Solution P den (q.low 0) (fun _ => value) ∧
      ∀ x name sh w y sh' v, (q.low 0).Has x (.declare name sh w) → (q.low 0).Live x → (q.low 0).Has y (.declare name sh' v) → (q.low 0).LastDeclared name y →
        value x = (passedTo args name).getD (v.getD fun _ => 1) := by
  have hno : NoChain (q.low 0).toModel := by
    have e : issuedPost Local.connections (q.low 0).toModel = [] := by
      rw [Body.toModel, toSubs_nil hs]
      simp [issuedPost, issuedPostSubs, hcn]
    constructor
    · rw [e]; intro i hi; cases hi
    · rw [e]; exact List.Pairwise.nil
  have hf' : ∀ path b', XAt q path b' → (b'.locals.outputs ++ b'.locals.declared).length + objs.length ≤ fuel := by
    intro path b' hb
    obtain ⟨_, e⟩ := oneModel_at hs (xat_low hb)
    show ((b'.low 0).locals.outputs ++ (b'.low 0).locals.declared).length + objs.length ≤ fuel
    rw [e]
    exact hf
  obtain ⟨Ls, hh, _⟩ := runFrom_hier (xrunFrom_low hr).1 hpre
  have u : Setup objs (q.low 0) _ Ls := ⟨hh, hg, hcl, hn⟩
  obtain ⟨f, node, _, h3⟩ := C107_passed_values_partial q hg hno pre done root hr objs hpre hcl hn fuel hf' order ho rep hc args objs' hp
  refine ⟨f, node [], fun P den => ?_⟩
  obtain ⟨a1, a2, _⟩ := h3 P den
  refine ⟨oneModel_solution hs rfl a1, fun x name sh w y sh' v hx hl hy hlast => ?_⟩
  obtain ⟨d1, _⟩ := u.declare_obj (.here _) hx
  have hgv := u.one_model_given hs hcn hl (by rw [d1]; decide)
  obtain ⟨path', y', v', g1, g2⟩ := a2 [] x hgv
  cases g1 with
  | input hb hz hsv _ =>
    have := (u.one_model_same hs hcn hsv).1
    rw [d1, (u.input_obj hb hz).2.1] at this
    cases this
  | @declare b' name' sh' v' hb hz hsv hla _ _ =>
    obtain ⟨rfl, rfl⟩ := oneModel_at hs hb
    have hnm := (u.one_model_same hs hcn hsv).2 d1
    rw [(u.main_declare hx).2.1, (u.main_declare hz).2.1] at hnm
    subst hnm
    obtain rfl : y = y' := Nat.le_antisymm (hla y _ _ hy) (hlast y' _ _ hz)
    have hv := (u.declare_obj (.here _) hz).2.2.symm.trans (u.declare_obj (.here _) hy).2.2
    have key : ∀ w, InitialAt (q.low 0) args [] y v' w → w = (passedTo args name).getD (v.getD fun _ => 1) := by
      intro w hw
      cases hw with
      | passed _ k2 _ k4 =>
        have := (u.main_declare k2).2.1
        rw [(u.main_declare hz).2.1] at this
        subst this
        rw [k4]; rfl
      | own k => rw [k rfl _ _ _ hz hla, hv]; rfl
    exact key _ g2

/-! ### Examples -/

theorem exR_residual {P : Power ℚ} {den : Fun Unit Nat Unit → List (Val ℚ) → Nat → Val ℚ} {value : Nat → Val ℚ} (sol : Prog.Solution P den (exR.low 0) fun _ => value) (l2 : (exR.low 0).Live 2) (l3 : (exR.low 0).Live 3)
    (e0 : value 0 = fun _ => 9) (e1 : value 1 = fun _ => 1) : value 3 = fun _ => -8 := by
  have e2 := sol.expr [] _ (.here _) 2 (.mul 1 1) (by unfold Body.Has; rw [exR_stmts]; simp) l2
  have e3 := sol.expr [] _ (.here _) 3 (.sub 2 0) (by unfold Body.Has; rw [exR_stmts]; simp) l3
  beta_reduce at e2 e3
  rw [e3]
  funext e
  simp [Instr.meaning, e0, e1, e2, List.range_succ]
  norm_num

/-- **C107, example.** The residual model `exR` (`a = declare_variable('a'); y = declare_variable('y'); ...; r = y * y - a`), with the argument `a` of value 9 passed: `a` is 9, the state `y` is 1, and the residual `r` is -8. -/
theorem C107_example : ∃ rep objs', xrunProgram exR = .ok (exRObjs, exRRoot) ∧ compile (xobjects exRObjs) 20 id exRRoot = .ok rep ∧
    passArgs exRRoot exRObjs [("a".toList, [1], fun _ => 9)] = (objs', none) ∧
    ∃ (f node : Nat → Nat), ∀ (P : Power ℚ) (den : Fun Unit Nat Unit → List (Val ℚ) → Nat → Val ℚ),
      let value := fun x => execAll rep.graph ⟨fun i => decide ((xobjects objs' i).kind = .op), fun i => (xobjects objs' i).deps.map f, opMeaning P den objs'⟩ (initial objs') rep.sorted (node x)
      value 0 = (fun _ => 9) ∧ value 1 = (fun _ => 1) ∧ value 3 = fun _ => -8 := by
  obtain ⟨rep, hc⟩ := exR_compile
  obtain ⟨hr, hl⟩ := exR_run
  have hp : (passArgs exRRoot exRObjs [("a".toList, [1], fun _ => 9)]).2 = none := by decide +kernel
  refine ⟨rep, (passArgs exRRoot exRObjs [("a".toList, [1], fun _ => 9)]).1, hr, hc, by rw [← hp], ?_⟩
  obtain ⟨f, node, h⟩ := C107_one_model exR rfl rfl exR_good [] exRObjs exRRoot hr exRObjs List.prefix_rfl (runFrom_closed (by simp [Closed]) (xrunFrom_low hr).1) (by rw [hl]; decide) 20
    (by rw [hl]; decide) id (fun _ _ => Iff.rfl) rep hc [("a".toList, [1], fun _ => 9)] _ (Prod.ext rfl hp)
  refine ⟨f, node, fun P den => ?_⟩
  obtain ⟨sol, h1⟩ := h P den
  have l3 : (exR.low 0).Live 3 := .output (name := "r".toList) (by rw [exR_stmts]; simp [outputOf])
  have l2 : (exR.low 0).Live 2 := .operand (n := 3) (s := .expr (.sub 2 0)) l3 (by unfold Body.Has; rw [exR_stmts]; simp) (by decide) (by decide) (by decide)
  have l0 : (exR.low 0).Live 0 := .operand (n := 3) (s := .expr (.sub 2 0)) l3 (by unfold Body.Has; rw [exR_stmts]; simp) (by decide) (by decide) (by decide)
  have l1 : (exR.low 0).Live 1 := .operand (n := 2) (s := .expr (.mul 1 1)) l2 (by unfold Body.Has; rw [exR_stmts]; simp) (by decide) (by decide) (by decide)
  have last : ∀ nm y, (∃ sh v, (exR.low 0).Has y (.declare nm sh v)) → (exR.low 0).LastDeclared nm y := by
    rintro nm y ⟨sh, v, hy⟩ y' sh' v' hy'
    unfold Body.Has at hy hy'
    rw [exR_stmts] at hy hy'
    simp only [List.mem_cons, Prod.mk.injEq, List.not_mem_nil, or_false, reduceCtorEq, and_false, Stmt.declare.injEq] at hy hy'
    rcases hy with ⟨rfl, rfl, _⟩ | ⟨rfl, rfl, _⟩ <;> rcases hy' with ⟨rfl, e, _⟩ | ⟨rfl, e, _⟩ <;> first | exact le_rfl | exact absurd e (by decide)
  have k0 : (exR.low 0).Has 0 (.declare "a".toList [1] none) := by unfold Body.Has; rw [exR_stmts]; simp
  have k1 : (exR.low 0).Has 1 (.declare "y".toList [1] none) := by unfold Body.Has; rw [exR_stmts]; simp
  have e0 := h1 0 "a".toList [1] none 0 [1] none k0 l0 k0 (last _ _ ⟨_, _, k0⟩)
  have e1 := h1 1 "y".toList [1] none 1 [1] none k1 l1 k1 (last _ _ ⟨_, _, k1⟩)
  have p0 : passedTo [("a".toList, ([1] : Shape), fun _ => (9 : ℚ))] "a".toList = some fun _ => 9 := rfl
  have p1 : passedTo [("a".toList, ([1] : Shape), fun _ => (9 : ℚ))] "y".toList = none := rfl
  rw [p0] at e0
  rw [p1] at e1
  exact ⟨e0, e1, exR_residual sol l2 l3 e0 e1⟩

/-- **C107, a submodel's value wins.** The full statement, that arguments have the values passed, is false: the main model of `exM` declares `a` without a value, and its submodel, which promotes it, declares it with value 5: whatever value is passed for the
argument `a`, in the results `a` is 5, also in the main model. -/
theorem C107_value_of_submodel_wins : ∃ objs root rep, runProgram exM = .ok (objs, root) ∧ compile (objects objs) 20 id root = .ok rep ∧
    ∀ w : Val ℚ, ∃ objs', passArgs root objs [("a".toList, [1], w)] = (objs', none) ∧
    ∃ (f : Nat → Nat) (node : List Name → Nat → Nat), ∀ (P : Power ℚ) (den : Unit → List (Val ℚ) → Nat → Val ℚ),
      execAll rep.graph ⟨fun i => decide ((objects objs' i).kind = .op), fun i => (objects objs' i).deps.map f, opMeaning P den objs'⟩ (initial objs') rep.sorted (node [] 0) = fun _ => 5 := by
  obtain ⟨objs, root, rep, hr, hl, hc⟩ := exM_run
  have hf : ∀ path b', BAt exM path b' → (b'.locals.outputs ++ b'.locals.declared).length + objs.length ≤ 20 := by
    intro path b' h
    rw [hl]
    rcases exM_at h with ⟨_, rfl⟩ | ⟨_, rfl⟩ <;> decide
  have hno : NoChain exM.toModel := by
    have hiss : issuedPost Local.connections exM.toModel = [] := by decide
    constructor
    · rw [hiss]; intro i hi; cases hi
    · rw [hiss]; exact List.Pairwise.nil
  refine ⟨objs, root, rep, hr, hc, fun w => ?_⟩
  have hcheck : okCheck (runProgram exM) fun q => okCheck (checkArgs (residualModel q.1 q.2) [("a".toList, [1])]) fun _ => true := by decide +kernel
  have hp : (passArgs root objs [("a".toList, [1], w)]).2 = none := by
    rw [hr] at hcheck
    obtain ⟨_, h, _⟩ := ok_of_check (show okCheck (checkArgs (residualModel objs root) [("a".toList, [1])]) (fun _ => true) = true from hcheck)
    have := passArgs_error (root := root) (objs := objs) (args := [("a".toList, [1], w)])
    rw [show ([("a".toList, [1], w)].map fun a : Name × Shape × Val ℚ => (a.1, a.2.1)) = [("a".toList, [1])] from rfl, h] at this
    revert this
    cases (passArgs root objs [("a".toList, [1], w)]).2 <;> simp
  refine ⟨(passArgs root objs [("a".toList, [1], w)]).1, by rw [← hp], ?_⟩
  obtain ⟨f, node, _, h⟩ := passed_in_session [] exM exM_good hno objs root hr objs List.prefix_rfl (runFrom_closed (by simp [Closed]) hr) (by rw [hl]; decide) 20 hf id (fun _ _ => Iff.rfl) rep hc _ _ (Prod.ext rfl hp)
  refine ⟨f, node, fun P den => ?_⟩
  obtain ⟨_, h2, _⟩ := h P den
  obtain ⟨path', y, v, d, e⟩ := h2 [] 0 exM_given
  have hv := exM_default d.default
  subst hv
  -- the declaration is that of the submodel
  have hpath : path' ≠ [] := by
    intro hpath
    subst hpath
    cases d with
    | input hb hy _ _ =>
      rcases exM_at hb with ⟨_, rfl⟩ | ⟨h, _⟩
      · simp [Body.Has, exM, Body.stmts, Stmt.count] at hy
      · cases h
    | declare hb hy _ _ _ _ =>
      rcases exM_at hb with ⟨_, rfl⟩ | ⟨h, _⟩
      · simp [Body.Has, exM, Body.stmts, Stmt.count] at hy
      · cases h
  have key : ∀ u, InitialAt exM [("a".toList, [1], w)] path' y (some fun _ => 5) u → u = fun _ => 5 := by
    intro u hu
    cases hu with
    | passed h => exact absurd h hpath
    | own => rfl
  exact key _ e

end Csdl.Prog
