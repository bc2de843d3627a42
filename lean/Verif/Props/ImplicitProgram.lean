import Verif.Spec.ImplicitProgram
import Verif.Model.ImplicitProgram
import Verif.Props.Lookup
import Verif.Props.Implicit
/-!
# C88: implicit operations whose residuals are defined by a program
-/
namespace Csdl.Prog
open Csdl Csdl.Arith
variable {K F : Type} [Field K] [DecidableEq K]
variable {objs : List (PObj K F)} {b : Body K F} {root : OModel} {Ls : List (List Name × Slot K F)}

omit [Field K] [DecidableEq K] in
/-- a name of the main model is its own promoted name -/
theorem promoted_here {x : Nat} {a : Name} (h : b.Named x a) : ∃ k w, PromotedAs b.toModel [] k w a ∧ w.name = a := by
  rcases h with ⟨s, h | h⟩ | h
  · exact ⟨.source, ⟨a, s⟩, .here (v := ⟨a, s⟩) (by simp only [Local.vars, Local.sources, Body.locals, List.mem_append, List.mem_map]; exact Or.inl ⟨_, h, rfl⟩), rfl⟩
  · exact ⟨.target, ⟨a, s⟩, .here (v := ⟨a, s⟩) (by simp only [Local.vars, Body.locals, List.mem_map]; exact ⟨_, h, rfl⟩), rfl⟩
  · exact ⟨.source, ⟨a, _⟩, .here (v := ⟨a, b.shapes.getD x []⟩) (by simp only [Local.vars, Local.sources, Body.locals, List.mem_append, List.mem_map]; exact Or.inr ⟨_, h, rfl⟩), rfl⟩

theorem Setup.value_by_main_name (u : Setup objs b root Ls) {maps : NodeMaps} {done : Dict Nat Nat} {f : Nat → Nat} (hk : Kept (objects objs) root maps done f) {r : Res} (hres : resolve b.toModel none = .ok r)
    {a : Name} (ha : ∃ x, b.Named x a) (σ : Env (Val K)) (v : Val K) :
    ValueByName maps done σ a v ↔ ∃ path x, HasName b path x a ∧ v = σ (f (objOf Ls path x)) := by
  have hnames : root.toModel (objects objs) = b.toModel := u.hier.names
  have hdf : DotFree b.toModel := hnames ▸ u.ok.dotFree
  obtain ⟨x0, h0⟩ := ha
  obtain ⟨k0, w0, p0, _⟩ := promoted_here h0
  have e1 : ∀ path x, HasName b path x a → ∃ t, maps.p2n.get? a = some t ∧ Leads done t (f (objOf Ls path x)) := by
    intro path x hp
    obtain ⟨t, t1, t2, _⟩ := hk.found _ a (u.rep_of_hasName hp).2
    exact ⟨t, t1, t2⟩
  constructor
  · rintro ⟨t, v', h1, h2, rfl⟩
    have key : ∃ path x, HasName b path x a := by
      unfold findNode at h1
      cases hg : maps.p2n.get? a with
      | some t' =>
        obtain ⟨path, x, _, h⟩ := u.hasName_of_named (hk.foundP a t' hg)
        exact ⟨path, x, h⟩
      | none =>
        rw [hg] at h1
        dsimp only at h1
        cases hg2 : maps.u2n.get? a with
        | none => rw [hg2] at h1; cases h1
        | some t' =>
          obtain ⟨path, k, w, p, h3, h4, h5⟩ := hk.foundU a t' hg2
          obtain ⟨path', x, _, h6⟩ := u.hasName_of_named h5
          rw [hnames] at h3
          have := C09_denotation_unique b.toModel hdf r hres a a p (Denotes.promoted p0) (h4 ▸ Denotes.full h3)
          rw [← this] at h6
          exact ⟨path', x, h6⟩
    obtain ⟨path, x, hp⟩ := key
    obtain ⟨t', t1, t2⟩ := e1 path x hp
    have : t' = t := by
      unfold findNode at h1
      rw [t1] at h1
      exact Except.ok.inj h1
    subst this
    exact ⟨path, x, hp, congrArg _ (h2.unique t2)⟩
  · rintro ⟨path, x, hp, rfl⟩
    obtain ⟨t, t1, t2⟩ := e1 path x hp
    exact ⟨t, _, by unfold findNode; rw [t1], t2, rfl⟩

theorem contract_in_session (pre : List (PObj K F)) (b : Body K F) (hg : GoodNames b) (hno : NoChain b.toModel) (done : List (PObj K F)) (root : OModel) (hr : runFrom pre b = .ok (done, root))
    (objs : List (PObj K F)) (hpre : done <+: objs) (hcl : Closed objs) (hn : objs.length ≤ 63 ^ 4) (fuel : Nat) (hf : ∀ path b', BAt b path b' → (b'.locals.outputs ++ b'.locals.declared).length + objs.length ≤ fuel)
    (order : List Nat → List Nat) (ho : ∀ l x, x ∈ order l ↔ x ∈ l) (rep : Csdl.Rep) (hc : compile (objects objs) fuel order root = .ok rep) :
    ∃ f : Nat → Nat, ∀ (P : Power K) (den : F → List (Val K) → Nat → Val K) (conv : Name → Val K → Prop) (args states : List (Name × Val K)) (residuals : List Name) (exposed : List (Name × Val K)),
      (∀ a ∈ (args ++ states ++ exposed).map (·.1) ++ residuals, ∃ x, b.Named x a) →
      (∀ a ∈ args ++ states, ∀ path x, HasName b path x a.1 → GivenVar b path x) →
      (SolvedBy rep.maps rep.done (fun σ0 => execAll rep.graph ⟨fun i => decide ((objects objs i).kind = .op), fun i => (objects objs i).deps.map f, opMeaning P den objs⟩ σ0 rep.sorted) conv args states residuals exposed ↔
        ∃ ρ, ResidualSolution P den b conv args states residuals exposed ρ) := by
  obtain ⟨Ls, f, node, u, hk, rfl, f1, f2, h1, h2, h3⟩ := means_kept pre b hg hno done root hr objs hpre hcl hn fuel hf order ho rep hc
  obtain ⟨r, g, kids, hres, _⟩ := compile_ok hc
  rw [u.hier.names] at hres
  refine ⟨f, fun P den conv args states residuals exposed hnames hgiven => ?_⟩
  have hval : ∀ {a : Name}, a ∈ (args ++ states ++ exposed).map (·.1) ++ residuals → ∀ σ v, ValueByName rep.maps rep.done σ a v ↔ ∃ path x, HasName b path x a ∧ v = σ (f (objOf Ls path x)) :=
    fun ha σ v => u.value_by_main_name hk hres (hnames _ ha) σ v
  have m1 : ∀ a ∈ args ++ states, a.1 ∈ (args ++ states ++ exposed).map (·.1) ++ residuals := fun a ha => List.mem_append_left _ (List.mem_map_of_mem (List.mem_append_left _ ha))
  have m2 : ∀ r ∈ residuals, r ∈ (args ++ states ++ exposed).map (·.1) ++ residuals := fun r hr => List.mem_append_right _ hr
  have m3 : ∀ e ∈ exposed, e.1 ∈ (args ++ states ++ exposed).map (·.1) ++ residuals := fun e he => List.mem_append_left _ (List.mem_map_of_mem (List.mem_append_right _ he))
  constructor
  · rintro ⟨σ0, c1, c2, c3⟩
    obtain ⟨s1, s2, _⟩ := h3 P den σ0
    refine ⟨_, s1, fun a ha path x hx => ?_, fun r hr path x hx => ?_, fun e he path x hx => ?_⟩
    · rw [s2 path x (hgiven a ha path x hx)]
      exact c1 a ha _ ((hval (m1 a ha) _ _).2 ⟨path, x, hx, rfl⟩)
    · exact c2 r hr _ ((hval (m2 r hr) _ _).2 ⟨path, x, hx, rfl⟩)
    · exact c3 e he _ ((hval (m3 e he) _ _).2 ⟨path, x, hx, rfl⟩)
  · rintro ⟨ρ, hρ⟩
    classical
    -- initial values: those of the solution
    have hex : ∃ σ0 : Env (Val K), ∀ path b', BAt b path b' → ∀ x, b'.Live x → σ0 (f (objOf Ls path x)) = ρ path x := by
      refine ⟨fun t => if h : ∃ q : List Name × Nat, (∃ b', BAt b q.1 b' ∧ b'.Live q.2) ∧ f (objOf Ls q.1 q.2) = t then ρ h.choose.1 h.choose.2 else fun _ => 0, fun path b' hb x hl => ?_⟩
      have h : ∃ q : List Name × Nat, (∃ b', BAt b q.1 b' ∧ b'.Live q.2) ∧ f (objOf Ls q.1 q.2) = f (objOf Ls path x) := ⟨(path, x), ⟨b', hb, hl⟩, rfl⟩
      dsimp only
      rw [dif_pos h]
      obtain ⟨⟨b2, hb2, hl2⟩, he⟩ := h.choose_spec
      exact Solution.same u hρ.equations ((h2 _ b2 path b' hb2 hb _ x hl2 hl).1 he)
    obtain ⟨σ0, hσ⟩ := hex
    obtain ⟨_, _, s3⟩ := h3 P den σ0
    have hex := s3 ρ hρ.equations (by
      rintro path x ⟨⟨b', hb, hl⟩, _⟩
      exact (hσ path b' hb x hl).symm)
    refine ⟨σ0, fun a ha v hv => ?_, fun r hr v hv => ?_, fun e he v hv => ?_⟩
    · obtain ⟨path, x, hx, rfl⟩ := (hval (m1 a ha) _ _).1 hv
      obtain ⟨b', _, _, _, hb, hl, _⟩ := id hx
      rw [hσ path b' hb x hl]
      exact hρ.given a ha path x hx
    · obtain ⟨path, x, hx, rfl⟩ := (hval (m2 r hr) _ _).1 hv
      obtain ⟨b', _, _, _, hb, hl, _⟩ := id hx
      have := hρ.residuals r hr path x hx
      rw [hex path b' hb x hl] at this
      exact this
    · obtain ⟨path, x, hx, rfl⟩ := (hval (m3 e he) _ _).1 hv
      obtain ⟨b', _, _, _, hb, hl, _⟩ := id hx
      have := hρ.exposed e he path x hx
      rw [hex path b' hb x hl] at this
      exact this

/-! ### What csdl checks of the model that defines the residuals -/

theorem foldOpt_inv {α : Type} {g : TState → α → Option TState} {Q : TState → Prop} (l : List α) (hg : ∀ st a st', a ∈ l → Q st → g st a = some st' → Q st') : ∀ {st st' : TState}, Q st → foldOpt g st l = some st' → Q st' := by
  induction l with
  | nil => intro st st' h1 h2; cases h2; exact h1
  | cons a l ih =>
    intro st st' h1 h2
    unfold foldOpt at h2
    cases hga : g st a with
    | none => rw [hga] at h2; cases h2
    | some s1 =>
      rw [hga] at h2
      exact ih (fun st a st' ha => hg st a st' (List.mem_cons_of_mem _ ha)) (hg st a s1 (List.mem_cons_self ..) h1 hga) h2

/-- what `collect_terminals` collects is read, directly or not -/
theorem collectTerminals_sound {h : Heap} {rname : Name} {R : Nat → Prop} (hR : ∀ v w, R v → Reads h v w → R w) : ∀ (fuel : Nat) (st st' : TState) (v : Nat), (∀ w, Reads h v w → R w) → (∀ w ∈ st.1, R w) →
    collectTerminals h rname fuel st v = some st' → ∀ w ∈ st'.1, R w := by
  intro fuel
  induction fuel with
  | zero => intro st st' v _ _ h; cases h
  | succ fuel ih =>
    intro st st' v hv hst hc
    unfold collectTerminals at hc
    refine foldOpt_inv (Q := fun st => ∀ w ∈ st.1, R w) _ (fun st op st' hop hst h1 => ?_) hst hc
    refine foldOpt_inv (Q := fun st => ∀ w ∈ st.1, R w) _ (fun st d st' hd hst h1 => ?_) hst h1
    have hRd : R d := hv d ⟨op, hop, hd⟩
    unfold visitDep at h1
    split at h1
    · cases h1; exact hst
    · split at h1
      · refine ih _ _ d (fun w hw => hR d w hRd hw) ?_ h1
        split
        · intro w hw
          rcases List.mem_cons.1 hw with rfl | hw
          · exact hRd
          · exact hst w hw
        · exact hst
      · cases h1; exact hst

theorem terminalsOf_sound {M : IModel} {fuel r : Nat} {ts : List Nat} (h : terminalsOf M fuel r = some ts) : ∀ v ∈ ts, DependsVar M.h r v := by
  unfold terminalsOf at h
  cases hc : collectTerminals M.h (M.h r).name fuel ([], []) r with
  | none => rw [hc] at h; cases h
  | some st =>
    rw [hc] at h
    cases h
    exact collectTerminals_sound (R := DependsVar M.h r) (fun v w h1 h2 => .tail h1 h2) fuel _ _ r (fun w hw => .single hw) (by simp) hc

theorem Setup.locals (u : Setup objs b root Ls) : root.inputs.map (objects objs).varInfo = b.locals.inputs ∧ root.outputs.map (objects objs).varInfo = b.locals.outputs ∧
    root.declared.map (objects objs).varInfo = b.locals.declared := by
  have h := u.hier.names
  cases root with
  | mk i o d c dv cn ob subs =>
    rw [OModel.toModel, Body.toModel] at h
    injection h with h1 h2
    exact ⟨by rw [← h1]; rfl, by rw [← h1]; rfl, by rw [← h1]; rfl⟩

theorem Setup.declared_at (u : Setup objs b root Ls) {v : Nat} (hv : v ∈ root.declared) : ∃ x val, b.Has x (.declare (objects objs v).name (objects objs v).shape val) := by
  have h : (objects objs).varInfo v ∈ b.locals.declared := by rw [← u.locals.2.2]; exact List.mem_map_of_mem hv
  simp only [Body.locals, List.mem_map] at h
  obtain ⟨⟨x, nm, sh⟩, h1, h2⟩ := h
  obtain ⟨e, he⟩ := has_declare h1
  injection h2 with e1 e2
  dsimp only at e1 e2
  subst e1 e2
  exact ⟨x, e, he⟩

theorem Setup.output_at (u : Setup objs b root Ls) {v : Nat} (hv : v ∈ root.outputs) : ∃ y, (y, (objects objs v).name) ∈ (b.stmts 0).filterMap outputOf ∧ b.shapes.getD y [] = (objects objs v).shape := by
  have h : (objects objs).varInfo v ∈ b.locals.outputs := by rw [← u.locals.2.1]; exact List.mem_map_of_mem hv
  simp only [Body.locals, List.mem_map] at h
  obtain ⟨⟨y, nm⟩, h1, h2⟩ := h
  injection h2 with e1 e2
  dsimp only at e1 e2
  subst e1
  exact ⟨y, h1, e2⟩

omit [Field K] [DecidableEq K] in
theorem declared_named {x : Nat} {name : Name} {shape : Shape} {val : Option (Val K)} (h : b.Has x (.declare name shape val)) : b.Named x name :=
  Or.inl ⟨shape, Or.inr (List.mem_filterMap.2 ⟨_, h, rfl⟩)⟩

omit [Field K] [DecidableEq K] in
theorem hasName_here {x : Nat} {name : Name} (h : b.Named x name) (hl : b.Live x) : HasName b [] x name := by
  obtain ⟨k, w, h1, h2⟩ := promoted_here h
  exact ⟨b, name, k, w, .here _, hl, h, h1, h2⟩

theorem Setup.accepted (u : Setup objs b root Ls) {fuel : Nat} {args : List (Name × Shape)} {states residuals expose : List Name} {maps : IMaps}
    (h : genMaps (residualModel objs root) fuel args states residuals expose = .ok maps) : ResidualModelOk b args states residuals expose := by
  obtain ⟨g1, g2, g3, g4, g5, g6, g7, g8, g9, g10, g11, _⟩ := genMaps_ok h
  have hout : ∀ {y : Nat} {nm : Name}, (y, nm) ∈ (b.stmts 0).filterMap outputOf → HasName b [] y nm := fun h => hasName_here (Or.inr h) (.output h)
  refine ⟨?_, ?_, g5, ?_, ?_⟩
  · intro n name shape val hi
    have : (⟨name, shape⟩ : VarInfo) ∈ b.locals.inputs := by
      simp only [Body.locals, List.mem_map]
      exact ⟨(n, name, shape), List.mem_filterMap.2 ⟨_, hi, rfl⟩, rfl⟩
    rw [← u.locals.1] at this
    have g1 : root.inputs = [] := g1
    rw [g1] at this
    cases this
  · intro a ha
    obtain ⟨v, hv, h1, h2⟩ := checkArgs_ok g6 a ha
    obtain ⟨x, val, hx⟩ := u.declared_at hv
    have h1 : (objects objs v).name = a.1 := h1
    have h2 : (objects objs v).shape = a.2 := h2
    rw [h1, h2] at hx
    exact ⟨x, val, hx⟩
  · intro e he
    obtain ⟨p1, _, _, _⟩ := pairUp_ok _ (by rw [List.map_fst_zip (by omega)]; exact g3) (by rw [List.map_snd_zip (by omega)]; exact g4) g10
    obtain ⟨ro, so, r1, r2, s1, s2, hsh, o1, _⟩ := p1 e he
    have r2 : (objects objs ro).name = e.2 := r2
    have s2 : (objects objs so).name = e.1 := s2
    have hsh : (objects objs ro).shape = (objects objs so).shape := hsh
    have r1 : ro ∈ root.outputs := r1
    have s1 : so ∈ root.declared := s1
    obtain ⟨y, y1, y2⟩ := u.output_at r1
    obtain ⟨x, val, hx⟩ := u.declared_at s1
    rw [r2] at y1
    rw [s2] at hx
    have hnx := declared_named hx
    refine ⟨x, y, _, val, hx, hasName_here hnx ?_, y1, hout y1, y2.trans hsh⟩
    -- the residual depends on the state
    obtain ⟨ts, t1, t2, _⟩ := (inMap_ok _ g11 e.1).1 ro o1
    obtain ⟨v, hv, hvn⟩ := List.mem_map.1 (t2 rfl)
    have hdep := terminalsOf_sound t1 v hv
    have hvn : (objects objs v).name = e.1 := hvn
    have hneeds : ∀ w, Relation.ReflTransGen (Reads (objects objs).heap) ro w → root.Needs (objects objs) w := by
      intro w hw
      induction hw with
      | refl => exact .leaf _ (List.mem_append_left _ r1)
      | tail _ h1 ih =>
        obtain ⟨op, h2, h3⟩ := h1
        exact .dep op _ (.dep _ op ih h2) h3
    have hlinked : root.Linked (objects objs) v := by
      obtain ⟨w, hw, op, h2, h3⟩ := Relation.TransGen.tail'_iff.1 hdep
      exact (linked_dep (.dep w op (hneeds w hw) h2) h3).1
    obtain ⟨sl, hsl, c⟩ := u.hier.ctx (.here root)
    have hbody : sl.body = b := by
      have := c.at_
      generalize sl.body = b' at this
      cases this
      rfl
    have huse : root.Uses (objects objs) so := Or.inr ⟨.leaf _ (List.mem_append_right _ s1), v, hlinked, by rw [hvn, s2]⟩
    have := c.live_declared (u.ok.models [] root (.here root)) u.good u.size s1 huse (x := x) (by rw [hbody, s2]; exact hnx)
    rw [hbody] at this
    exact this
  · intro e he
    have := checkNames_ok g9 e he
    obtain ⟨v, hv⟩ := nameMap_has this
    obtain ⟨v1, v2⟩ := nameMap_some hv
    obtain ⟨y, y1, _⟩ := u.output_at (v := v) v1
    have v2 : (objects objs v).name = e := v2
    rw [v2] at y1
    exact ⟨y, y1, hout y1⟩

theorem Setup.exposed_outs (u : Setup objs b root Ls) (expose : List Name) :
    exposedOuts (residualModel objs root) expose = (b.locals.outputs.filter fun w => w.name ∈ expose).map fun w => (w.name, w.shape) := by
  rw [← u.locals.2.1, List.filter_map, List.map_map]
  rfl

/-! ### C88 -/

section
variable {G I : Type}

/-- **C88, the equations.** Let `q` be a program that defines residuals, run without error in any session, and let its representation be built without error, with no connection starting at the target of an earlier one.  For arguments and states that
`q` does not compute itself, a back end that reads and writes values by name in the representation has values of the states for which the residuals are accepted exactly if the statements of `q`, read as equations, have a solution with these values of the
arguments, states and exposed variables and with accepted residuals. -/
theorem C88_solver_solves_the_equations (q : XBody K F G I) (hg : GoodNames (q.low 0)) (hno : NoChain (q.low 0).toModel) (pre done : List (PObj K (Fun F G I))) (root : OModel)
    (hr : xrunFrom pre q = .ok (done, root)) (objs : List (PObj K (Fun F G I))) (hpre : done <+: objs) (hcl : Closed objs) (hn : objs.length ≤ 63 ^ 4) (fuel : Nat) (hf : ∀ path b', XAt q path b' → (b'.locals.outputs ++ b'.locals.declared).length + objs.length ≤ fuel)
    (order : List Nat → List Nat) (ho : ∀ l x, x ∈ order l ↔ x ∈ l) (rep : Csdl.Rep) (hc : compile (xobjects objs) fuel order root = .ok rep) :
    ∃ f : Nat → Nat, ∀ (P : Power K) (den : Fun F G I → List (Val K) → Nat → Val K) (conv : Name → Val K → Prop) (args states : List (Name × Val K)) (residuals : List Name) (exposed : List (Name × Val K)),
      (∀ a ∈ (args ++ states ++ exposed).map (·.1) ++ residuals, ∃ x, (q.low 0).Named x a) →
      (∀ a ∈ args ++ states, ∀ path x, HasName (q.low 0) path x a.1 → GivenVar (q.low 0) path x) →
      (SolvedBy rep.maps rep.done (fun σ0 => execAll rep.graph ⟨fun i => decide ((xobjects objs i).kind = .op), fun i => (xobjects objs i).deps.map f, opMeaning P den objs⟩ σ0 rep.sorted) conv args states residuals exposed ↔
        ∃ ρ, ResidualSolution P den (q.low 0) conv args states residuals exposed ρ) := by
  have hf' : ∀ path c, BAt (q.low 0) path c → (c.locals.outputs ++ c.locals.declared).length + objs.length ≤ fuel := by
    intro path c hc
    obtain ⟨b', h1, rfl⟩ := bat_low hc
    exact hf path b' h1
  obtain ⟨rep0, dv, ob, cn, hc0, _, _, _, rfl⟩ := (xcompile hg hr hpre hcl hn hf' ho rep).1 hc
  exact contract_in_session pre (q.low 0) hg hno done _ (xrunFrom_low hr).1 objs hpre hcl hn fuel hf' order ho rep0 hc0

/-- **C88, the results.** Let a program `b` run without error, and call in the model at `path` an implicit operation whose residuals are defined by the program `q` (as above), with states and residuals as declared in `fac`.  Then `q` is as csdl requires
(`ResidualModelOk`).  If the arguments and states of `q` are not computed by `q` itself, then, in every solution of `b`: the back end solves the residuals for the values of the arguments exactly if the results of the operation, which are the variables
from number `n`, are values of the states and of the exposed outputs for which the statements of `q` hold as equations, with the values the arguments have in `b`, and with accepted residuals. -/
theorem C88_results_solve_residuals (b q : XBody K F G I) (pre objs : List (PObj K (Fun F G I))) (root : OModel) (hp : XPlainAfter pre.length b) (hr : xrunFrom pre b = .ok (objs, root))
    (hg : GoodNames (q.low 0)) (hno : NoChain (q.low 0).toModel) (qpre qdone : List (PObj K (Fun F G I))) (qroot : OModel)
    (hq : xrunFrom qpre q = .ok (qdone, qroot)) (qobjs : List (PObj K (Fun F G I))) (hpre : qdone <+: qobjs) (hcl : Closed qobjs) (hn : qobjs.length ≤ 63 ^ 4)
    (fuel : Nat) (hf : ∀ path b', XAt q path b' → (b'.locals.outputs ++ b'.locals.declared).length + qobjs.length ≤ fuel)
    (order : List Nat → List Nat) (ho : ∀ l x, x ∈ order l ↔ x ∈ l) (rep : Csdl.Rep) (hc : compile (xobjects qobjs) fuel order qroot = .ok rep)
    (path : List Name) (b' : XBody K F G I) (hb : XAt b path b') (P1 P2 : List (Nat × XStmt K F G I)) (n : Nat) (i : I) (depth : Nat) (fac : Factory) (expose : List Name) (args : List Nat)
    (hs : b'.stmts 0 = P1 ++ (n, .implicit i (residualModel qobjs qroot) depth fac expose args) :: P2) :
    let states := fac.states.map (·.1)
    let exposed := ((q.low 0).locals.outputs.filter fun w => w.name ∈ expose).map VarInfo.name
    ∃ (ins : List (Name × Shape)) (f : Nat → Nat), ArgsAre P1 args ins ∧ ResidualModelOk (q.low 0) ins states fac.residuals expose ∧
      (∀ (j : Nat) (s : Name), (states ++ exposed)[j]? = some s → (b'.low 0).Named (n + j) s ∧ (b'.low 0).Live (n + j)) ∧
      ∀ (P : Power K) (den : Fun F G I → List (Val K) → Nat → Val K) (conv : Name → Val K → Prop) (ρ : List Name → Nat → Val K), Solution P den (b.low 0) ρ →
        (∀ a ∈ ins.map (·.1) ++ states, ∀ path x, HasName (q.low 0) path x a → GivenVar (q.low 0) path x) →
        (SolvedBy rep.maps rep.done (fun σ0 => execAll rep.graph ⟨fun i => decide ((xobjects qobjs i).kind = .op), fun i => (xobjects qobjs i).deps.map f, opMeaning P den qobjs⟩ σ0 rep.sorted) conv
          ((ins.map (·.1)).zip (args.map (ρ path))) (named 0 states (den (.implicit i) (args.map (ρ path)))) fac.residuals (named states.length exposed (den (.implicit i) (args.map (ρ path)))) ↔
        ∃ ρ', ResidualSolution P den (q.low 0) conv ((ins.map (·.1)).zip (args.map (ρ path))) (named n states (ρ path)) fac.residuals (named (n + states.length) exposed (ρ path)) ρ') := by
  intro states exposed
  obtain ⟨ins, maps, so, h1, h2, h3, h4, h5⟩ := implicit_results b path b' hb ((C82_programs_run_iff pre b hp).1 ⟨objs, root, hr⟩ path b' hb) P1 P2 n i _ depth fac expose args hs
  obtain ⟨f, hcon⟩ := C88_solver_solves_the_equations q hg hno qpre qdone qroot hq qobjs hpre hcl hn fuel hf order ho rep hc
  obtain ⟨Ls, hh, _⟩ := runFrom_hier (xrunFrom_low hq).1 hpre
  have u : Setup qobjs (q.low 0) _ Ls := ⟨hh, hg, hcl, hn⟩
  have hstrip : residualModel qobjs qroot = residualModel qobjs (OModel.strip qroot) := by cases qroot; rfl
  rw [hstrip] at h2 h3 h4 h5
  have hok := u.accepted h2
  have hso : so.map (·.1) = states := (stateOuts_ok _ h3).1
  have hexp : (exposedOuts (residualModel qobjs (OModel.strip qroot)) expose).map (·.1) = exposed := by
    rw [u.exposed_outs, List.map_map]
    rfl
  have hnames : (so ++ exposedOuts (residualModel qobjs (OModel.strip qroot)) expose).map (·.1) = states ++ exposed := by rw [List.map_append, hso, hexp]
  have hres : ∀ (j : Nat) (s : Name), (states ++ exposed)[j]? = some s → ∃ d, (so ++ exposedOuts (residualModel qobjs (OModel.strip qroot)) expose)[j]? = some d ∧ d.1 = s := by
    intro j s hj
    rw [← hnames, List.getElem?_map] at hj
    simpa using hj
  refine ⟨ins, f, h1, hok, ?_, ?_⟩
  · intro j s hj
    obtain ⟨d, d1, rfl⟩ := hres j s hj
    exact ⟨(h5 j d d1).1, (h5 j d d1).2.1⟩
  intro P den conv ρ hρ hgiven
  have hval : ∀ j < (states ++ exposed).length, ρ path (n + j) = den (.implicit i) (args.map (ρ path)) j := by
    intro j hj
    obtain ⟨d, d1, _⟩ := hres j _ (List.getElem?_eq_getElem hj)
    exact (h5 j d d1).2.2 P den ρ hρ
  have e1 : named n states (ρ path) = named 0 states (den (.implicit i) (args.map (ρ path))) := by
    unfold named
    refine List.ext_getElem (by simp) fun j h1 h2 => ?_
    simp only [List.getElem_mapIdx, Nat.zero_add]
    rw [hval j (by simp only [List.length_mapIdx] at h1; rw [List.length_append]; omega)]
  have e2 : named (n + states.length) exposed (ρ path) = named states.length exposed (den (.implicit i) (args.map (ρ path))) := by
    unfold named
    refine List.ext_getElem (by simp) fun j h1 h2 => ?_
    simp only [List.getElem_mapIdx, Nat.add_assoc]
    rw [hval (states.length + j) (by simp only [List.length_mapIdx] at h1; rw [List.length_append]; omega)]
  rw [e1, e2]
  have hlen : args.length = ins.length := h1.length_eq
  have n1 : ((ins.map (·.1)).zip (args.map (ρ path))).map (·.1) = ins.map (·.1) := List.map_fst_zip (by simp [hlen])
  have n2 : ∀ (k : Nat) (l : List Name) (g : Nat → Val K), (named k l g).map (·.1) = l := by
    intro k l g
    refine List.ext_getElem (by simp [named]) fun j h1 h2 => ?_
    simp [named]
  refine hcon P den conv _ _ _ _ ?_ ?_
  · intro a ha
    rw [List.map_append, List.map_append, n1, n2, n2] at ha
    simp only [List.mem_append] at ha
    have hpair : ∀ a ∈ states, ∃ e ∈ states.zip fac.residuals, e.1 = a := by
      intro a ha
      rw [← List.map_fst_zip (l₁ := states) (l₂ := fac.residuals) (Nat.le_of_eq hok.count)] at ha
      obtain ⟨e, he, h⟩ := List.mem_map.1 ha
      exact ⟨e, he, h⟩
    have hpair' : ∀ a ∈ fac.residuals, ∃ e ∈ states.zip fac.residuals, e.2 = a := by
      intro a ha
      rw [← List.map_snd_zip (l₁ := states) (l₂ := fac.residuals) (Nat.le_of_eq hok.count.symm)] at ha
      obtain ⟨e, he, h⟩ := List.mem_map.1 ha
      exact ⟨e, he, h⟩
    rcases ha with ((ha | ha) | ha) | ha
    · obtain ⟨c, hc, rfl⟩ := List.mem_map.1 ha
      obtain ⟨x, val, hx⟩ := hok.args c hc
      exact ⟨x, declared_named hx⟩
    · obtain ⟨e, he, rfl⟩ := hpair a ha
      obtain ⟨x, _, _, _, hx, _⟩ := hok.states e he
      exact ⟨x, declared_named hx⟩
    · obtain ⟨w, hw, rfl⟩ := List.mem_map.1 ha
      have hw := (List.mem_filter.1 hw).1
      simp only [Body.locals, List.mem_map] at hw
      obtain ⟨⟨y, nm⟩, hy, rfl⟩ := hw
      exact ⟨y, Or.inr hy⟩
    · obtain ⟨e, he, rfl⟩ := hpair' a ha
      obtain ⟨_, y, _, _, _, _, hy, _⟩ := hok.states e he
      exact ⟨y, Or.inr hy⟩
  · intro a ha path2 x hx
    refine hgiven a.1 ?_ path2 x hx
    have : a.1 ∈ (((ins.map (·.1)).zip (args.map (ρ path))) ++ named 0 states (den (.implicit i) (args.map (ρ path)))).map (·.1) := List.mem_map_of_mem ha
    rw [List.map_append, n1, n2] at this
    exact this

end

/-! ### Example: `y * y - a = 0` -/

section
omit [Field K] [DecidableEq K]

theorem oneModel_hasName (hs : b.subs = []) {path : List Name} {x : Nat} {p : Name} (h : HasName b path x p) : path = [] ∧ b.Named x p := by
  obtain ⟨b', n, k, w, h1, _, h3, h4, h5⟩ := h
  obtain ⟨rfl, rfl⟩ := oneModel_at hs h1
  rw [Body.toModel, toSubs_nil hs] at h4
  obtain ⟨_, _, rfl⟩ := oneModel_promoted h4
  subst h5
  exact ⟨rfl, h3⟩

/-- in a single model whose variables have different names, without connections, unary pluses and parts, no two variables are the same -/
theorem oneModel_same (hs : b.subs = []) (hcn : b.locals.connections = []) (hn : ∀ x y p, b.Named x p → b.Named y p → x = y) (ha : ∀ y ∈ b.stmts 0, (∀ x, y.2 ≠ .expr (.pos x)) ∧ ∀ x k, y.2 ≠ .index x k)
    {q r : List Name × Nat} (h : Relation.EqvGen (Same b) q r) : q.2 = r.2 := by
  induction h with
  | rel q r h =>
    cases h with
    | name p h1 h2 => exact hn _ _ p (oneModel_hasName hs h1).2 (oneModel_hasName hs h2).2
    | connection path b' s t p q hb hst _ _ _ _ =>
      obtain ⟨rfl, rfl⟩ := oneModel_at hs hb
      rw [hcn] at hst
      cases hst
    | «alias» b' hb _ _ h =>
      obtain ⟨rfl, rfl⟩ := oneModel_at hs hb
      exact alias_eq ha h
  | refl => rfl
  | symm _ _ _ ih => exact ih.symm
  | trans _ _ _ _ _ ih1 ih2 => exact ih1.trans ih2
end

/-- the model that defines the residual: `a = declare_variable('a'); y = declare_variable('y'); p = y * y; register_output('p', p); r = p - a; register_output('r', r)` -/
def exR : XBody ℚ Unit Nat Unit :=
  .stmt (.plain (.declare "a".toList [1] none)) (.stmt (.plain (.declare "y".toList [1] none)) (.stmt (.plain (.expr (.mul 1 1))) (.stmt (.plain (.register "p".toList 2))
    (.stmt (.plain (.expr (.sub 2 0))) (.stmt (.plain (.register "r".toList 3)) .done)))))

/-- the main model: `a = create_input('a', val=4); y, p = op(a, expose=['p'])`, where `op` is the implicit operation defined by `M`, with state `y` and residual `r` -/
def exO (M : IModel) : XBody ℚ Unit Nat Unit := .stmt (.plain (.input "a".toList [1] fun _ => 4)) (.stmt (.implicit () M 20 exFac ["p".toList] [0]) .done)

/-- the objects of `exR` after it has run -/
def exRObjs : List (PObj ℚ (Fun Unit Nat Unit)) := match xrunProgram exR with | .ok r => r.1 | .error _ => []
def exRRoot : OModel := match xrunProgram exR with | .ok r => r.2 | .error _ => .mk [] [] [] [] [] [] none .nil

theorem exR_run : xrunProgram exR = .ok (exRObjs, exRRoot) ∧ exRObjs.length = 8 := by
  obtain ⟨⟨objs, root⟩, h1, h⟩ := ok_of_check (x := xrunProgram exR) (P := fun q => decide (q.1.length = 8)) (by decide +kernel)
  have e1 : exRObjs = objs := by unfold exRObjs; rw [h1]
  have e2 : exRRoot = root := by unfold exRRoot; rw [h1]
  rw [e1, e2]
  exact ⟨h1, of_decide_eq_true h⟩

theorem exO_run : ∃ objs root, xrunProgram (exO (residualModel exRObjs exRRoot)) = .ok (objs, root) := by
  obtain ⟨⟨objs, root⟩, h1, _⟩ := ok_of_check (x := xrunProgram (exO (residualModel exRObjs exRRoot))) (P := fun _ => true) (by decide +kernel)
  exact ⟨objs, root, h1⟩

theorem exR_compile : ∃ rep, compile (xobjects exRObjs) 20 id exRRoot = .ok rep := by
  obtain ⟨rep, h, _⟩ := ok_of_check (x := compile (xobjects exRObjs) 20 id exRRoot) (P := fun _ => true) (by decide +kernel)
  exact ⟨rep, h⟩

theorem exR_stmts : (exR.low 0).stmts 0 = [(0, .declare "a".toList [1] none), (1, .declare "y".toList [1] none), (2, .expr (.mul 1 1)), (3, .register "p".toList 2), (3, .expr (.sub 2 0)), (4, .register "r".toList 3)] := rfl

theorem exR_good : GoodNames (exR.low 0) := by
  constructor
  all_goals
    intro path b' h
    obtain ⟨_, rfl⟩ := oneModel_at rfl h
    decide

theorem exR_named {x : Nat} {p : Name} (h : (exR.low 0).Named x p) : (x, p) ∈ [(0, "a".toList), (1, "y".toList), (2, "p".toList), (3, "r".toList)] := by
  unfold Body.Named at h
  rw [exR_stmts] at h
  simp only [List.filterMap, inputOf, declaredOf, outputOf, List.mem_cons, Prod.mk.injEq, List.not_mem_nil, or_false, false_or, exists_or] at h ⊢
  rcases h with (⟨_, rfl, rfl, _⟩ | ⟨_, rfl, rfl, _⟩) | ⟨rfl, rfl⟩ | ⟨rfl, rfl⟩ <;> simp

theorem exR_unique {x y : Nat} {p : Name} (h1 : (exR.low 0).Named x p) (h2 : (exR.low 0).Named y p) : x = y := by
  have h1 := exR_named h1
  have h2 := exR_named h2
  simp only [List.mem_cons, Prod.mk.injEq, List.not_mem_nil, or_false] at h1 h2
  rcases h1 with ⟨rfl, rfl⟩ | ⟨rfl, rfl⟩ | ⟨rfl, rfl⟩ | ⟨rfl, rfl⟩ <;> rcases h2 with ⟨rfl, h⟩ | ⟨rfl, h⟩ | ⟨rfl, h⟩ | ⟨rfl, h⟩ <;> first | rfl | exact absurd h (by decide)

theorem exR_noChain : NoChain (exR.low 0).toModel := by
  have hiss : issuedPost Local.connections (exR.low 0).toModel = [] := by decide
  unfold NoChain
  rw [hiss]
  exact ⟨by simp, List.Pairwise.nil⟩

theorem exR_given {path : List Name} {x : Nat} {a : Name} (ha : a = "a".toList ∨ a = "y".toList) (h : HasName (exR.low 0) path x a) : GivenVar (exR.low 0) path x := by
  obtain ⟨b', _, _, _, hb, hl, _⟩ := id h
  obtain ⟨rfl, hn⟩ := oneModel_hasName rfl h
  refine ⟨⟨b', hb, hl⟩, fun path' b'' n t y hb' ht hc h1 h2 _ hsame => ?_⟩
  obtain ⟨rfl, rfl⟩ := oneModel_at (b := exR.low 0) rfl hb'
  have e := oneModel_same (b := exR.low 0) rfl rfl (fun _ _ _ => exR_unique) (by rw [exR_stmts]; simp) hsame
  have hn := exR_named hn
  unfold Body.Has at ht
  rw [exR_stmts] at ht
  simp only [List.mem_cons, Prod.mk.injEq, List.not_mem_nil, or_false] at ht hn
  dsimp only at e
  have hx : x = 0 ∨ x = 1 := by
    rcases hn with ⟨rfl, rfl⟩ | ⟨rfl, rfl⟩ | ⟨rfl, rfl⟩ | ⟨rfl, rfl⟩
    · simp
    · simp
    · rcases ha with h | h <;> exact absurd h (by decide)
    · rcases ha with h | h <;> exact absurd h (by decide)
  rcases ht with ⟨rfl, rfl⟩ | ⟨rfl, rfl⟩ | ⟨rfl, rfl⟩ | ⟨rfl, rfl⟩ | ⟨rfl, rfl⟩ | ⟨rfl, rfl⟩ <;> first | exact hc.elim | omega

/-- the values `a = 4`, `y = 2`, `p = 4`, `r = 0` -/
def exRValues (x : Nat) : Val ℚ := fun _ => ([4, 2, 4, 0] : List ℚ).getD x 0

theorem exR_solution (P : Power ℚ) (den : Fun Unit Nat Unit → List (Val ℚ) → Nat → Val ℚ) : Solution P den (exR.low 0) (fun _ => exRValues) := by
  have hno : ∀ {path : List Name} {b' : Body ℚ (Fun Unit Nat Unit)}, BAt (exR.low 0) path b' → ∀ {n : Nat} {t : Stmt ℚ (Fun Unit Nat Unit)}, b'.Has n t →
      (n, t) ∈ [((0 : Nat), Stmt.declare "a".toList [1] none), (1, .declare "y".toList [1] none), (2, .expr (.mul 1 1)), (3, .register "p".toList 2), (3, .expr (.sub 2 0)), (4, .register "r".toList 3)] := by
    intro path b' hb n t h
    obtain ⟨rfl, rfl⟩ := oneModel_at (b := exR.low 0) rfl hb
    exact exR_stmts ▸ h
  constructor
  · intro path b' hb n i h _
    have := hno hb h
    simp only [List.mem_cons, Prod.mk.injEq, reduceCtorEq, and_false, Stmt.expr.injEq, List.not_mem_nil, or_false, false_or] at this
    rcases this with ⟨rfl, rfl⟩ | ⟨rfl, rfl⟩
    · funext j; norm_num [Instr.meaning, exRValues, List.range, List.range.loop]
    · funext j; norm_num [Instr.meaning, exRValues, List.range, List.range.loop]
  · intro path b' hb n f args outs h
    have := hno hb h
    simp at this
  · intro path b' hb n x key h
    have := hno hb h
    simp at this
  · intro path b' hb y name shape val h
    have := hno hb h
    simp at this
  · intro path x path' y p h1 h2
    rw [exR_unique (oneModel_hasName rfl h1).2 (oneModel_hasName rfl h2).2]
  · intro path b' hb s t p q hst
    obtain ⟨rfl, rfl⟩ := oneModel_at (b := exR.low 0) rfl hb
    have hcn : (exR.low 0).locals.connections = [] := rfl
    rw [hcn] at hst
    cases hst

theorem exO_outs : stateOuts (residualModel exRObjs exRRoot) exFac.states = .ok [("y".toList, [1])] ∧ exposedOuts (residualModel exRObjs exRRoot) ["p".toList] = [("p".toList, [1])] := by decide +kernel

theorem exO_stmts : ((exO (residualModel exRObjs exRRoot)).low 0).stmts 0 = [(0, .input "a".toList [1] fun _ => 4), (1, .call (.implicit ()) [0] [[1], [1]]), (3, .register "y".toList 1), (3, .register "p".toList 2)] := by
  obtain ⟨h1, h2⟩ := exO_outs
  simp only [exO, XBody.low, XStmt.low, XStmt.results, h1, h2]
  rfl

theorem exO_plain : XPlain (exO (residualModel exRObjs exRRoot)) := by
  constructor
  · decide +kernel
  · intro path b' n s hb hs name hname
    have hb : b' = exO (residualModel exRObjs exRRoot) := by
      cases hb with
      | here => rfl
      | down h _ => simp [exO, XBody.subs] at h
    subst hb
    simp only [exO, XBody.stmts, List.mem_cons, Prod.mk.injEq, List.not_mem_nil, or_false] at hs
    have key : ∀ l : List Name, (∀ x ∈ l, ¬ AutoLike x) → name ∈ l → ¬ AutoLike name := fun l hl h => hl _ h
    rcases hs with ⟨rfl, rfl⟩ | ⟨rfl, rfl⟩
    · exact key _ (by decide +kernel) hname
    · exact key _ (by decide +kernel) hname

/-- a back end for `exO`: the operation has the results 2 and 4 -/
def exDen : Fun Unit Nat Unit → List (Val ℚ) → Nat → Val ℚ
  | .implicit _, _, 0 => fun _ => 2
  | .implicit _, _, _ => fun _ => 4
  | _, _, _ => fun _ => 0

/-- the values of the variables of `exO`: `a = 4`, `y = 2`, `p = 4` -/
def exOValues (x : Nat) : Val ℚ := fun _ => ([4, 2, 4] : List ℚ).getD x 0

theorem exO_solution (P : Power ℚ) : Solution P exDen ((exO (residualModel exRObjs exRRoot)).low 0) (fun _ => exOValues) := by
  generalize hB : (exO (residualModel exRObjs exRRoot)).low 0 = B
  have hsub : B.subs = [] := by
    obtain ⟨h1, h2⟩ := exO_outs
    rw [← hB]
    simp only [exO, XBody.low, XStmt.low, XStmt.results, h1, h2]
    rfl
  have hst := exO_stmts
  rw [hB] at hst
  have hno : ∀ {path : List Name} {b' : Body ℚ (Fun Unit Nat Unit)}, BAt B path b' → ∀ {n : Nat} {t : Stmt ℚ (Fun Unit Nat Unit)}, b'.Has n t →
      (n, t) ∈ [((0 : Nat), Stmt.input "a".toList [1] fun _ => 4), (1, .call (.implicit ()) [0] [[1], [1]]), (3, .register "y".toList 1), (3, .register "p".toList 2)] := by
    intro path b' hb n t h
    obtain ⟨rfl, rfl⟩ := oneModel_at hsub hb
    exact hst ▸ h
  have hnm : ∀ {path : List Name} {x : Nat} {p : Name}, HasName B path x p → (x, p) ∈ [(0, "a".toList), (1, "y".toList), (2, "p".toList)] := by
    intro path x p h
    have h := (oneModel_hasName hsub h).2
    unfold Body.Named at h
    rw [hst] at h
    simp only [List.filterMap, inputOf, declaredOf, outputOf, List.mem_cons, Prod.mk.injEq, List.not_mem_nil, or_false, false_or, exists_or] at h ⊢
    rcases h with ⟨_, rfl, rfl, _⟩ | ⟨rfl, rfl⟩ | ⟨rfl, rfl⟩ <;> simp
  constructor
  · intro path b' hb n i h _
    have := hno hb h
    simp at this
  · intro path b' hb n f args outs h j hj _
    have := hno hb h
    simp only [List.mem_cons, Prod.mk.injEq, reduceCtorEq, and_false, Stmt.call.injEq, List.not_mem_nil, or_false, false_or] at this
    obtain ⟨rfl, rfl, rfl, rfl⟩ := this
    have hj : j < 2 := hj
    rcases j with _ | _ | j
    · rfl
    · rfl
    · omega
  · intro path b' hb n x key h
    have := hno hb h
    simp at this
  · intro path b' hb y name shape val h
    have := hno hb h
    simp at this
  · intro path x path' y p h1 h2
    have h1 := hnm h1
    have h2 := hnm h2
    simp only [List.mem_cons, Prod.mk.injEq, List.not_mem_nil, or_false] at h1 h2
    rcases h1 with ⟨rfl, rfl⟩ | ⟨rfl, rfl⟩ | ⟨rfl, rfl⟩ <;> rcases h2 with ⟨rfl, h⟩ | ⟨rfl, h⟩ | ⟨rfl, h⟩ <;> first | rfl | exact absurd h (by decide)
  · intro path b' hb s t p q h
    obtain ⟨rfl, rfl⟩ := oneModel_at hsub hb
    simp only [Body.locals, hst, List.foldl, stepConnections] at h
    cases h

/-- C88 applies to `exO`: the arguments are `a`; for a back end with the results 2 and 4, the contract is met, with residuals that are exactly 0; and the equations of `exR` have a solution with `a = 4`, `y = 2`, `p = 4` and `r = 0` -/
example (P : Power ℚ) : ∃ objs root rep f, xrunProgram (exO (residualModel exRObjs exRRoot)) = .ok (objs, root) ∧ compile (xobjects exRObjs) 20 id exRRoot = .ok rep ∧
    ResidualModelOk (exR.low 0) [("a".toList, [1])] ["y".toList] ["r".toList] ["p".toList] ∧
    SolvedBy rep.maps rep.done (fun σ0 => execAll rep.graph ⟨fun i => decide ((xobjects exRObjs i).kind = .op), fun i => (xobjects exRObjs i).deps.map f, opMeaning P exDen exRObjs⟩ σ0 rep.sorted) (fun _ v => v = fun _ => 0)
      [("a".toList, fun _ => 4)] [("y".toList, fun _ => 2)] ["r".toList] [("p".toList, fun _ => 4)] ∧
    ∃ ρ', ResidualSolution P exDen (exR.low 0) (fun _ v => v = fun _ => 0) [("a".toList, fun _ => 4)] [("y".toList, fun _ => 2)] ["r".toList] [("p".toList, fun _ => 4)] ρ' := by
  obtain ⟨objs, root, hr⟩ := exO_run
  obtain ⟨rep, hc⟩ := exR_compile
  obtain ⟨hq, hl⟩ := exR_run
  have hf : ∀ path b', XAt exR path b' → (b'.locals.outputs ++ b'.locals.declared).length + exRObjs.length ≤ 20 := by
    intro path b' h
    rw [hl]
    cases h with
    | here => decide +kernel
    | down h _ => simp [exR, XBody.subs] at h
  obtain ⟨ins, f, h1, h2, _, h4⟩ := C88_results_solve_residuals (exO (residualModel exRObjs exRRoot)) exR [] objs root exO_plain.after hr exR_good exR_noChain [] exRObjs exRRoot hq exRObjs List.prefix_rfl
    (runFrom_closed (by simp [Closed]) (xrunFrom_low hq).1) (by rw [hl]; decide) 20 hf id (fun _ _ => Iff.rfl) rep hc [] _ (.here _) [(0, .plain (.input "a".toList [1] fun _ => 4))] [] 1 () 20 exFac ["p".toList] [0]
    (by simp [exO, XBody.stmts, XStmt.count, Stmt.count])
  have hins : ins = [("a".toList, [1])] := by
    obtain ⟨⟨nm, sh⟩, l, ⟨e1, e2⟩, hl, rfl⟩ := List.forall₂_cons_left_iff.1 h1
    cases hl
    have e2 : [1] = sh := e2
    subst e2
    simp only [NamedIn, lowAll, XStmt.low, number, Stmt.lift, List.flatMap_cons, List.flatMap_nil, List.append_nil, List.filterMap, inputOf, declaredOf, outputOf, List.mem_cons, Prod.mk.injEq, List.not_mem_nil, or_false, true_and] at e1
    obtain ⟨y, hy, _, rfl, rfl, _⟩ := e1
    rfl
  subst hins
  have hex : ((exR.low 0).locals.outputs.filter fun w => w.name ∈ ["p".toList]).map VarInfo.name = ["p".toList] := by decide
  have h5 := h4 P exDen (fun _ v => v = fun _ => 0) (fun _ => exOValues) (exO_solution P) (by
    intro a ha path x hx
    have ha : a ∈ ["a".toList, "y".toList] := ha
    simp only [List.mem_cons, List.not_mem_nil, or_false] at ha
    exact exR_given ha hx)
  rw [hex] at h5
  have hsol : ∃ ρ', ResidualSolution P exDen (exR.low 0) (fun _ v => v = fun _ => 0) [("a".toList, fun _ => 4)] [("y".toList, fun _ => 2)] ["r".toList] [("p".toList, fun _ => 4)] ρ' := by
    refine ⟨fun _ => exRValues, exR_solution P exDen, ?_, ?_, ?_⟩
    · intro a ha path x hx
      have hx := exR_named (oneModel_hasName rfl hx).2
      simp only [List.cons_append, List.nil_append, List.mem_cons, List.not_mem_nil, or_false, Prod.mk.injEq] at ha hx
      rcases ha with rfl | rfl <;> rcases hx with ⟨rfl, h⟩ | ⟨rfl, h⟩ | ⟨rfl, h⟩ | ⟨rfl, h⟩ <;> first | rfl | exact absurd h (by decide)
    · intro r hr path x hx
      have hx := exR_named (oneModel_hasName rfl hx).2
      simp only [List.mem_cons, List.not_mem_nil, or_false, Prod.mk.injEq] at hr hx
      subst hr
      rcases hx with ⟨rfl, h⟩ | ⟨rfl, h⟩ | ⟨rfl, h⟩ | ⟨rfl, h⟩ <;> first | rfl | exact absurd h (by decide)
    · intro e he path x hx
      have hx := exR_named (oneModel_hasName rfl hx).2
      simp only [List.mem_cons, List.not_mem_nil, or_false, Prod.mk.injEq] at he hx
      subst he
      rcases hx with ⟨rfl, h⟩ | ⟨rfl, h⟩ | ⟨rfl, h⟩ | ⟨rfl, h⟩ <;> first | rfl | exact absurd h (by decide)
  exact ⟨objs, root, rep, f, hr, hc, h2, h5.2 hsol, hsol⟩

/-! ### A state that is computed -/

/-- `b = declare_variable('b'); register_output('y', b * b)` -/
def exCSub : XBody ℚ Unit Nat Unit := .stmt (.plain (.declare "b".toList [1] none)) (.stmt (.plain (.expr (.mul 0 0))) (.stmt (.plain (.register "y".toList 1)) .done))

/-- `a = declare_variable('a'); y = declare_variable('y'); r = y - a; register_output('r', r); add(Sub, 'm')` -/
def exC : XBody ℚ Unit Nat Unit :=
  .stmt (.plain (.declare "a".toList [1] none)) (.stmt (.plain (.declare "y".toList [1] none)) (.stmt (.plain (.expr (.sub 1 0))) (.stmt (.plain (.register "r".toList 2)) (.add false "m".toList none exCSub .done))))

/-- **C88, computed states.** The hypothesis that states are not computed is needed, and csdl does not check it: the model `exC`, in which the declared state `y` is the promoted output `b * b` of a submodel, is accepted for an implicit operation with the
state `y` and the residual `r = y - a`, although in all solutions of its equations `y` is `b * b`, so that no choice of the state has an effect. -/
theorem C88_computed_state_accepted : ∃ objs root rep maps, xrunProgram exC = .ok (objs, root) ∧ compile (xobjects objs) 20 id root = .ok rep ∧
    genMaps (residualModel objs root) 20 [("a".toList, [1])] ["y".toList] ["r".toList] [] = .ok maps ∧
    ∀ (P : Power ℚ) (den : Fun Unit Nat Unit → List (Val ℚ) → Nat → Val ℚ) (ρ : List Name → Nat → Val ℚ), Solution P den (exC.low 0) ρ → ρ [] 1 = fun i => ρ ["m".toList] 0 i * ρ ["m".toList] 0 i := by
  obtain ⟨⟨objs, root⟩, h1, h⟩ := ok_of_check (x := xrunProgram exC) (P := fun q => okCheck (compile (xobjects q.1) 20 id q.2) (fun _ => true) &&
    okCheck (genMaps (residualModel q.1 q.2) 20 [("a".toList, [1])] ["y".toList] ["r".toList] []) fun _ => true) (by decide +kernel)
  rw [Bool.and_eq_true] at h
  obtain ⟨rep, h2, _⟩ := ok_of_check h.1
  obtain ⟨maps, h3, _⟩ := ok_of_check h.2
  refine ⟨objs, root, rep, maps, h1, h2, h3, fun P den ρ hρ => ?_⟩
  have hm : BAt (exC.low 0) ["m".toList] (exCSub.low 0) := .down (p := none) (by simp [exC, XBody.low, XStmt.low, Body.prefix, Body.subs]) (.here _)
  have hs : (exC.low 0).stmts 0 = [(0, .declare "a".toList [1] none), (1, .declare "y".toList [1] none), (2, .expr (.sub 1 0)), (3, .register "r".toList 2)] := rfl
  have hs' : (exCSub.low 0).stmts 0 = [(0, .declare "b".toList [1] none), (1, .expr (.mul 0 0)), (2, .register "y".toList 1)] := rfl
  have l1 : (exC.low 0).Live 1 := by
    have hr : (exC.low 0).Live 2 := .output (name := "r".toList) (by rw [hs]; simp [outputOf])
    exact .operand hr (n := 2) (s := .expr (.sub 1 0)) (by unfold Body.Has; rw [hs]; simp) (Nat.le_refl _) (by simp [Stmt.count]) (by decide)
  have l2 : (exCSub.low 0).Live 1 := .output (name := "y".toList) (by rw [hs']; simp [outputOf])
  have hn1 : HasName (exC.low 0) [] 1 "y".toList := hasName_here (Or.inl ⟨[1], Or.inr (by rw [hs]; simp [declaredOf])⟩) l1
  have hn2 : HasName (exC.low 0) ["m".toList] 1 "y".toList := by
    refine ⟨exCSub.low 0, "y".toList, .source, ⟨"y".toList, [1]⟩, hm, l2, Or.inr (by rw [hs']; simp [outputOf]), ?_, rfl⟩
    exact .up (s := ⟨"m".toList, none, (exCSub.low 0).toModel⟩) (List.mem_singleton.2 rfl) (.here (v := ⟨"y".toList, [1]⟩) (by decide)) (by show '.' ∉ "y".toList; decide)
  rw [hρ.shared [] 1 ["m".toList] 1 "y".toList hn1 hn2, hρ.expr ["m".toList] _ hm 1 (.mul 0 0) (by unfold Body.Has; rw [hs']; simp) l2]
  rfl

end Csdl.Prog
