import Verif.Proofs.ProgramFull3
/-
C80, C81: programs with custom operations, implicit operations and optimisation declarations.
-/
namespace Csdl.Prog
open Csdl Csdl.Arith
variable {K F G I : Type} [Field K] [DecidableEq K]

/-- **C82.** After other objects were created in the session (`pre`: by other programs, say), as in C80: the `define` methods of a program with custom operations, implicit operations and optimisation declarations run without error exactly if every method is fine: written with calls and registrations
of the results it is (C74); the `define` methods of custom operations declare inputs and outputs with shapes, the arguments are the declared inputs, by name and shape, and there are as many names as
declared outputs; implicit operations are accepted with the arguments and have a result (C34, C35); design variables are inputs, declared once; constraints are declared once; there is at most one objective. -/
theorem C82_programs_run_iff (pre : List (PObj K (Fun F G I))) (b : XBody K F G I) (hp : XPlainAfter pre.length b) : (∃ objs root, xrunFrom pre b = .ok (objs, root)) ↔ ∀ path b', XAt b path b' → XMethodOk b' := by
  rw [xrunFrom_iff pre b hp, runFrom_ok_iff pre _ hp.low]
  constructor
  · rintro ⟨h1, h2⟩ path b' hb
    exact ⟨h1 path _ (xat_low hb), h2 path b' hb⟩
  · intro h
    refine ⟨fun path c hc => ?_, fun path b' hb => (h path b' hb).stmts⟩
    obtain ⟨b', h1, rfl⟩ := bat_low hc
    exact (h path b' h1).low

/-- programs that are not too large in a new session -/
theorem XPlain.after {b : XBody K F G I} (h : XPlain b) : XPlainAfter 0 b := ⟨by simpa using h.size, h.names⟩

/-- **C80.** The `define` methods of a program with custom operations, implicit operations and optimisation declarations run without error exactly if every method is fine: written with calls and registrations
of the results it is (C74); the `define` methods of custom operations declare inputs and outputs with shapes, the arguments are the declared inputs, by name and shape, and there are as many names as
declared outputs; implicit operations are accepted with the arguments and have a result (C34, C35); design variables are inputs, declared once; constraints are declared once; there is at most one objective. -/
theorem C80_programs_run_iff (b : XBody K F G I) (hp : XPlain b) : (∃ objs root, xrunProgram b = .ok (objs, root)) ↔ ∀ path b', XAt b path b' → XMethodOk b' :=
  C82_programs_run_iff [] b hp.after

/-- **C80.** The results of a custom operation in a program that runs: there is one name for each declared output; the results are registered as outputs under these names; and in every solution of the program
(written with calls and registrations) the results are what the operation computes from the values of the arguments. -/
theorem C80_custom_operations (b : XBody K F G I) (hp : XPlain b) (objs : List (PObj K (Fun F G I))) (root : OModel) (hr : xrunProgram b = .ok (objs, root)) (path : List Name) (b' : XBody K F G I)
    (hb : XAt b path b') (n : Nat) (g : G) (calls : List (Custom.CCall K Nat)) (args : List Nat) (names : List Name) (h : (n, .custom g calls args names) ∈ b'.stmts 0) :
    names.length = (Custom.run 1000 ({} : Custom.Op Nat) calls).outputs.length ∧ ∀ (j : Nat) (name : Name), names[j]? = some name → (b'.low 0).Named (n + j) name ∧ (b'.low 0).Live (n + j) ∧
      ∀ (P : Power K) (den : Fun F G I → List (Val K) → Nat → Val K) (ρ : List Name → Nat → Val K), Prog.Solution P den (b.low 0) ρ → ρ path (n + j) = den (.custom g) (args.map (ρ path)) j := by
  have hok := ((C80_programs_run_iff b hp).1 ⟨objs, root, hr⟩ path b' hb).stmts
  obtain ⟨P1, P2, hsplit⟩ := List.append_of_mem h
  obtain ⟨o, ins, outs, h1, h2, h3, h4, h5⟩ := hok P1 _ P2 hsplit
  have hrun := loopErr_run 1000 calls _ o h1
  have hres : (XStmt.custom g calls args names : XStmt K F G I).results = outs := by
    simp only [XStmt.results, hrun, h3, List.filterMap_map]
    refine (List.filterMap_congr (g := some) fun a _ => ?_).trans List.filterMap_some
    simp
  refine ⟨by rw [hrun, h3, List.length_map, h4], fun j name hj => ?_⟩
  have hjlt : j < names.length := (List.getElem?_eq_some_iff.1 hj).1
  have hname : names[j] = name := (List.getElem?_eq_some_iff.1 hj).2
  have hcall : (b'.low 0).Has n (.call (.custom g) args (outs.map (·.2))) := by
    refine has_low h (x := (n, _)) ?_
    simp only [XStmt.low, hres]
    exact List.mem_cons_self ..
  have hreg : (b'.low 0).Has (n + outs.length) (.register name (n + j)) := by
    refine has_low h (x := (n + outs.length, _)) ?_
    simp only [XStmt.low, hres]
    refine List.mem_cons_of_mem _ ?_
    have := mem_registers (K := K) (F := F) (G := G) (I := I) names n (n + outs.length) j hjlt
    rw [hname] at this
    simpa [Stmt.count] using this
  have hout : (n + j, name) ∈ ((b'.low 0).stmts 0).filterMap outputOf := List.mem_filterMap.2 ⟨_, hreg, rfl⟩
  have hlive : (b'.low 0).Live (n + j) := .output hout
  refine ⟨Or.inr hout, hlive, fun P den ρ hρ => ?_⟩
  exact hρ.call path _ (xat_low hb) n _ args _ hcall j (by rw [List.length_map]; omega) hlive

theorem implicit_results (b : XBody K F G I) (path : List Name) (b' : XBody K F G I)
    (hb : XAt b path b') (hok : XMethodOk b') (P1 P2 : List (Nat × XStmt K F G I)) (n : Nat) (i : I) (M : IModel) (fuel : Nat) (fac : Factory) (expose : List Name) (args : List Nat) (hsplit : b'.stmts 0 = P1 ++ (n, .implicit i M fuel fac expose args) :: P2) :
    ∃ ins maps so, ArgsAre P1 args ins ∧ genMaps M fuel ins (fac.states.map (·.1)) fac.residuals expose = .ok maps ∧ stateOuts M fac.states = .ok so ∧ so ++ exposedOuts M expose ≠ [] ∧ ∀ (j : Nat) (d : Name × Shape), (so ++ exposedOuts M expose)[j]? = some d → (b'.low 0).Named (n + j) d.1 ∧ (b'.low 0).Live (n + j) ∧
      ∀ (P : Power K) (den : Fun F G I → List (Val K) → Nat → Val K) (ρ : List Name → Nat → Val K), Prog.Solution P den (b.low 0) ρ → ρ path (n + j) = den (.implicit i) (args.map (ρ path)) j := by
  obtain ⟨ins, maps, so, h1, h2, h3, h4⟩ := hok.stmts P1 _ P2 hsplit
  have h : (n, .implicit i M fuel fac expose args) ∈ b'.stmts 0 := by rw [hsplit]; simp
  have hres : (XStmt.implicit i M fuel fac expose args : XStmt K F G I).results = so ++ exposedOuts M expose := by
    simp only [XStmt.results, h3]
  refine ⟨ins, maps, so, h1, h2, h3, h4, fun j d hj => ?_⟩
  generalize so ++ exposedOuts M expose = outs at hres h4 hj
  have hjlt : j < outs.length := (List.getElem?_eq_some_iff.1 hj).1
  have hname : outs[j] = d := (List.getElem?_eq_some_iff.1 hj).2
  have hcall : (b'.low 0).Has n (.call (.implicit i) args (outs.map (·.2))) := by
    refine has_low h (x := (n, _)) ?_
    simp only [XStmt.low, hres]
    exact List.mem_cons_self ..
  have hreg : (b'.low 0).Has (n + outs.length) (.register d.1 (n + j)) := by
    refine has_low h (x := (n + outs.length, _)) ?_
    simp only [XStmt.low, hres]
    refine List.mem_cons_of_mem _ ?_
    have := mem_registers (K := K) (F := F) (G := G) (I := I) (outs.map (·.1)) n (n + outs.length) j (by simpa using hjlt)
    rw [List.getElem_map, hname] at this
    simpa [Stmt.count] using this
  have hout : (n + j, d.1) ∈ ((b'.low 0).stmts 0).filterMap outputOf := List.mem_filterMap.2 ⟨_, hreg, rfl⟩
  have hlive : (b'.low 0).Live (n + j) := .output hout
  refine ⟨Or.inr hout, hlive, fun P den ρ hρ => ?_⟩
  exact hρ.call path _ (xat_low hb) n _ args _ hcall j (by rw [List.length_map]; exact hjlt) hlive

/-- **C80.** The results of an implicit operation in a program that runs: they are the declared states and then the exposed outputs (C35, C36), registered as outputs under their names; and in every solution of the
program (written with calls and registrations) they are what the operation computes from the values of the arguments. -/
theorem C80_implicit_operations (b : XBody K F G I) (hp : XPlain b) (objs : List (PObj K (Fun F G I))) (root : OModel) (hr : xrunProgram b = .ok (objs, root)) (path : List Name) (b' : XBody K F G I)
    (hb : XAt b path b') (n : Nat) (i : I) (M : IModel) (fuel : Nat) (fac : Factory) (expose : List Name) (args : List Nat) (h : (n, .implicit i M fuel fac expose args) ∈ b'.stmts 0) :
    ∃ so, stateOuts M fac.states = .ok so ∧ so ++ exposedOuts M expose ≠ [] ∧ ∀ (j : Nat) (d : Name × Shape), (so ++ exposedOuts M expose)[j]? = some d → (b'.low 0).Named (n + j) d.1 ∧ (b'.low 0).Live (n + j) ∧
      ∀ (P : Power K) (den : Fun F G I → List (Val K) → Nat → Val K) (ρ : List Name → Nat → Val K), Prog.Solution P den (b.low 0) ρ → ρ path (n + j) = den (.implicit i) (args.map (ρ path)) j := by
  obtain ⟨P1, P2, hsplit⟩ := List.append_of_mem h
  obtain ⟨_, _, so, _, _, h3, h4, h5⟩ := implicit_results b path b' hb ((C80_programs_run_iff b hp).1 ⟨objs, root, hr⟩ path b' hb) P1 P2 n i M fuel fac expose args hsplit
  exact ⟨so, h3, h4, h5⟩

/-- **C80.** Expressions, calls of standard functions and parts mean in a program with custom operations, implicit operations and optimisation declarations what they mean without (C73). -/
theorem C80_other_statements (b : XBody K F G I) (path : List Name) (b' : XBody K F G I) (hb : XAt b path b') (P : Power K) (den : Fun F G I → List (Val K) → Nat → Val K) (ρ : List Name → Nat → Val K)
    (hρ : Prog.Solution P den (b.low 0) ρ) (n : Nat) :
    (∀ i, (n, .plain (.expr i)) ∈ b'.stmts 0 → (b'.low 0).Live n → ρ path n = i.meaning P ((List.range n).map (ρ path))) ∧
    (∀ f args outs, (n, .plain (.call f args outs)) ∈ b'.stmts 0 → ∀ j < outs.length, (b'.low 0).Live (n + j) → ρ path (n + j) = den (.std f) (args.map (ρ path)) j) ∧
    ∀ x key, (n, .plain (.index x key)) ∈ b'.stmts 0 → (b'.low 0).Live n → ρ path n = part ((b'.low 0).shapes.getD x []) key (ρ path x) := by
  refine ⟨fun i h hl => ?_, fun f args outs h j hj hl => ?_, fun x key h hl => ?_⟩
  · exact hρ.expr path _ (xat_low hb) n i (has_low h (x := (n, _)) (List.mem_singleton.2 rfl)) hl
  · exact hρ.call path _ (xat_low hb) n _ args outs (has_low h (x := (n, _)) (List.mem_singleton.2 rfl)) j hj hl
  · exact hρ.index path _ (xat_low hb) n x key (has_low h (x := (n, _)) (List.mem_singleton.2 rfl)) hl

omit [Field K] [DecidableEq K] in
theorem number_mem {l : List (Stmt K F)} {k : Nat} {x : Nat × Stmt K F} (h : x ∈ number k l) : x.2 ∈ l := by
  induction l generalizing k with
  | nil => cases h
  | cons s l ih =>
    rcases List.mem_cons.1 h with rfl | h
    · exact List.mem_cons_self ..
    · exact List.mem_cons_of_mem _ (ih h)

/-- **C80.** The other statements of the method are, with the same numbers, names, shapes, values, keys and ends of connections, statements of the program written with calls and registrations, and there are no other connections, inputs and declarations. -/
theorem C80_same_statements (b : XBody K F G I) (n : Nat) :
    (∀ name shape v, (n, .plain (.input name shape v)) ∈ b.stmts 0 ↔ (b.low 0).Has n (.input name shape v)) ∧
    (∀ name shape v, (n, .plain (.declare name shape v)) ∈ b.stmts 0 ↔ (b.low 0).Has n (.declare name shape v)) ∧
    (∀ s t, (n, .plain (.connect s t)) ∈ b.stmts 0 ↔ (b.low 0).Has n (.connect s t)) ∧
    (∀ name shape v, (n, .plain (.output name shape v)) ∈ b.stmts 0 ↔ (b.low 0).Has n (.output name shape v)) ∧
    (∀ y key x, (n, .plain (.assign y key x)) ∈ b.stmts 0 ↔ (b.low 0).Has n (.assign y key x)) ∧
    ∀ name x, (n, .plain (.register name x)) ∈ b.stmts 0 → (b.low 0).Has n (.register name x) := by
  have hback : ∀ t : Stmt K (Fun F G I), (b.low 0).Has n t → (∀ f args outs, t ≠ .call f args outs) → (∀ name x, t ≠ .register name x) → ∃ s : Stmt K F, (n, .plain s) ∈ b.stmts 0 ∧ s.lift = t := by
    intro t ht h1 h2
    unfold Body.Has at ht
    rw [low_stmts] at ht
    obtain ⟨⟨k, s⟩, hs, ht⟩ := List.mem_flatMap.1 ht
    have hreg : ∀ (k m : Nat) (names : List Name), t ∉ registers (K := K) (F := F) (G := G) (I := I) m names := by
      intro k m names h
      obtain ⟨j, _, h⟩ := List.mem_mapIdx.1 h
      exact h2 _ _ h.symm
    have hmem := number_mem ht
    cases s with
    | plain s =>
      have ht : (n, t) ∈ [(k, s.lift)] := ht
      rw [List.mem_singleton, Prod.mk.injEq] at ht
      obtain ⟨rfl, rfl⟩ := ht
      exact ⟨s, hs, rfl⟩
    | custom g calls args names =>
      rcases List.mem_cons.1 hmem with h | h
      · exact absurd h (h1 _ _ _)
      · exact absurd h (hreg k _ _)
    | implicit i M fuel fac expose args =>
      rcases List.mem_cons.1 hmem with h | h
      · exact absurd h (h1 _ _ _)
      · exact absurd h (hreg k _ _)
    | _ => cases hmem
  refine ⟨fun name shape v => ⟨fun h => has_low h (x := (n, _)) (List.mem_singleton.2 rfl), fun h => ?_⟩, fun name shape v => ⟨fun h => has_low h (x := (n, _)) (List.mem_singleton.2 rfl), fun h => ?_⟩,
    fun s t => ⟨fun h => has_low h (x := (n, _)) (List.mem_singleton.2 rfl), fun h => ?_⟩, fun name shape v => ⟨fun h => has_low h (x := (n, _)) (List.mem_singleton.2 rfl), fun h => ?_⟩,
    fun y key x => ⟨fun h => has_low h (x := (n, _)) (List.mem_singleton.2 rfl), fun h => ?_⟩, fun name x h => has_low h (x := (n, _)) (List.mem_singleton.2 rfl)⟩
  all_goals
    obtain ⟨s, h1, h2⟩ := hback _ h (by simp) (by simp)
    cases s <;> simp only [Stmt.lift, reduceCtorEq, Stmt.input.injEq, Stmt.declare.injEq, Stmt.connect.injEq, Stmt.output.injEq, Stmt.assign.injEq] at h2
    first
      | (obtain ⟨rfl, rfl, rfl⟩ := h2; exact h1)
      | (obtain ⟨rfl, rfl⟩ := h2; exact h1)

/-- **C82.** As C80, in a session with other objects: `pre` are the objects that exist when the program runs, `done` those that exist when it has run, `objs` those that exist when the representation is built.  Let a program with custom operations, implicit operations and optimisation declarations run without error, create no more objects than there are short automatic names, and let the representation of
its main model be built without error, with no connection starting at the target of an earlier one.  Then, as in C73: variables that matter are represented by variable nodes, two by the same node exactly if they are the same;
for every meaning of the functions, custom operations and implicit operations and all initial values, executing the nodes of the graph in the order of the representation gives the
only solution of the program (written with calls and registrations) with these values of the variables that must be given. -/
theorem C82_programs_mean_what_they_say (b : XBody K F G I) (hg : GoodNames (b.low 0)) (hno : NoChain (b.low 0).toModel) (pre done : List (PObj K (Fun F G I))) (root : OModel)
    (hr : xrunFrom pre b = .ok (done, root)) (objs : List (PObj K (Fun F G I))) (hpre : done <+: objs) (hcl : Closed objs) (hn : objs.length ≤ 63 ^ 4) (fuel : Nat) (hf : ∀ path b', XAt b path b' → (b'.locals.outputs ++ b'.locals.declared).length + objs.length ≤ fuel)
    (order : List Nat → List Nat) (ho : ∀ l x, x ∈ order l ↔ x ∈ l) (rep : Csdl.Rep) (hc : compile (xobjects objs) fuel order root = .ok rep) :
    ∃ (f : Nat → Nat) (node : List Name → Nat → Nat),
      (∀ path b', XAt b path b' → ∀ x, (b'.low 0).Live x → node path x ∈ rep.graph.nodes ∧ (xobjects objs (node path x)).kind = .var) ∧
      (∀ path b' path' b'', XAt b path b' → XAt b path' b'' → ∀ x y, (b'.low 0).Live x → (b''.low 0).Live y → (node path x = node path' y ↔ Relation.EqvGen (Same (b.low 0)) (path, x) (path', y))) ∧
      ∀ (P : Power K) (den : Fun F G I → List (Val K) → Nat → Val K) (σ0 : Env (Val K)),
        let value := fun path x => execAll rep.graph ⟨fun i => decide ((xobjects objs i).kind = .op), fun i => (xobjects objs i).deps.map f, opMeaning P den objs⟩ σ0 rep.sorted (node path x)
        Prog.Solution P den (b.low 0) value ∧ (∀ path x, GivenVar (b.low 0) path x → value path x = σ0 (node path x)) ∧
        ∀ ρ, Prog.Solution P den (b.low 0) ρ → (∀ path x, GivenVar (b.low 0) path x → ρ path x = σ0 (node path x)) → ∀ path b', XAt b path b' → ∀ x, (b'.low 0).Live x → ρ path x = value path x := by
  have hf' : ∀ path c, BAt (b.low 0) path c → (c.locals.outputs ++ c.locals.declared).length + objs.length ≤ fuel := by
    intro path c hc
    obtain ⟨b', h1, rfl⟩ := bat_low hc
    exact hf path b' h1
  obtain ⟨rep0, dv, ob, cn, hc0, _, _, _, rfl⟩ := (xcompile hg hr hpre hcl hn hf' ho rep).1 hc
  obtain ⟨f, node, h1, h2, h3⟩ := means_in_session pre (b.low 0) hg hno done _ (xrunFrom_low hr).1 objs hpre hcl hn fuel hf' order ho rep0 hc0
  refine ⟨f, node, fun path b' hb => h1 path _ (xat_low hb), fun path b' path' b'' hb hb' => h2 path _ path' _ (xat_low hb) (xat_low hb'), fun P den σ0 => ?_⟩
  obtain ⟨a1, a2, a3⟩ := h3 P den σ0
  exact ⟨a1, a2, fun ρ hρ hg path b' hb => a3 ρ hρ hg path _ (xat_low hb)⟩

/-- **C80.** Let a program with custom operations, implicit operations and optimisation declarations run without error, create no more objects than there are short automatic names, and let the representation of
its main model be built without error, with no connection starting at the target of an earlier one.  Then, as in C73: variables that matter are represented by variable nodes, two by the same node exactly if they are the same;
for every meaning of the functions, custom operations and implicit operations and all initial values, executing the nodes of the graph in the order of the representation gives the
only solution of the program (written with calls and registrations) with these values of the variables that must be given. -/
theorem C80_programs_mean_what_they_say (b : XBody K F G I) (hg : GoodNames (b.low 0)) (hno : NoChain (b.low 0).toModel) (objs : List (PObj K (Fun F G I))) (root : OModel) (hr : xrunProgram b = .ok (objs, root))
    (hn : objs.length ≤ 63 ^ 4) (fuel : Nat) (hf : ∀ path b', XAt b path b' → (b'.locals.outputs ++ b'.locals.declared).length + objs.length ≤ fuel)
    (order : List Nat → List Nat) (ho : ∀ l x, x ∈ order l ↔ x ∈ l) (rep : Csdl.Rep) (hc : compile (xobjects objs) fuel order root = .ok rep) :
    ∃ (f : Nat → Nat) (node : List Name → Nat → Nat),
      (∀ path b', XAt b path b' → ∀ x, (b'.low 0).Live x → node path x ∈ rep.graph.nodes ∧ (xobjects objs (node path x)).kind = .var) ∧
      (∀ path b' path' b'', XAt b path b' → XAt b path' b'' → ∀ x y, (b'.low 0).Live x → (b''.low 0).Live y → (node path x = node path' y ↔ Relation.EqvGen (Same (b.low 0)) (path, x) (path', y))) ∧
      ∀ (P : Power K) (den : Fun F G I → List (Val K) → Nat → Val K) (σ0 : Env (Val K)),
        let value := fun path x => execAll rep.graph ⟨fun i => decide ((xobjects objs i).kind = .op), fun i => (xobjects objs i).deps.map f, opMeaning P den objs⟩ σ0 rep.sorted (node path x)
        Prog.Solution P den (b.low 0) value ∧ (∀ path x, GivenVar (b.low 0) path x → value path x = σ0 (node path x)) ∧
        ∀ ρ, Prog.Solution P den (b.low 0) ρ → (∀ path x, GivenVar (b.low 0) path x → ρ path x = σ0 (node path x)) → ∀ path b', XAt b path b' → ∀ x, (b'.low 0).Live x → ρ path x = value path x :=
  C82_programs_mean_what_they_say b hg hno [] objs root hr objs List.prefix_rfl (runFrom_closed (by simp [Closed]) (xrunFrom_low hr).1) hn fuel hf order ho rep hc

/-- **C82.** As C80, in a session with other objects (`pre`, `done`, `objs` as before): a valid program with custom operations, implicit operations and optimisation declarations runs, and (if it creates no more objects than there are short automatic names) its representation is built, without
error; executing it computes the only solution with the given values of the variables that must be given. -/
theorem C82_valid_programs_compute (b : XBody K F G I) (hv : XValid b) (pre : List (PObj K (Fun F G I))) (hp : XPlainAfter pre.length b) : ∃ done root, xrunFrom pre b = .ok (done, root) ∧
    ∀ objs, done <+: objs → Closed objs → (objs.length ≤ 63 ^ 4 →
    ∀ order : List Nat → List Nat, (∀ l x, x ∈ order l ↔ x ∈ l) → ∀ fuel, (∀ path b', XAt b path b' → (b'.locals.outputs ++ b'.locals.declared).length + objs.length ≤ fuel) →
      ∃ rep, compile (xobjects objs) fuel order root = .ok rep ∧ ∃ (f : Nat → Nat) (node : List Name → Nat → Nat), ∀ (P : Power K) (den : Fun F G I → List (Val K) → Nat → Val K) (σ0 : Env (Val K)),
        let value := fun path x => execAll rep.graph ⟨fun i => decide ((xobjects objs i).kind = .op), fun i => (xobjects objs i).deps.map f, opMeaning P den objs⟩ σ0 rep.sorted (node path x)
        Prog.Solution P den (b.low 0) value ∧ (∀ path x, GivenVar (b.low 0) path x → value path x = σ0 (node path x)) ∧
        ∀ ρ, Prog.Solution P den (b.low 0) ρ → (∀ path x, GivenVar (b.low 0) path x → ρ path x = σ0 (node path x)) → ∀ path b', XAt b path b' → ∀ x, (b'.low 0).Live x → ρ path x = value path x) := by
  obtain ⟨done, root, hr⟩ := (C82_programs_run_iff pre b hp).2 fun path b' hb => ⟨hv.low.methods path _ (xat_low hb), hv.methods path b' hb⟩
  refine ⟨done, root, hr, fun objs hpre hcl hn order ho fuel hf => ?_⟩
  have hf' : ∀ path c, BAt (b.low 0) path c → (c.locals.outputs ++ c.locals.declared).length + objs.length ≤ fuel := by
    intro path c hc
    obtain ⟨b', h1, rfl⟩ := bat_low hc
    exact hf path b' h1
  have hr0 := (xrunFrom_low hr).1
  obtain ⟨rep0, hc0⟩ := valid_in_session (b.low 0) hv.low pre done _ hr0 objs hpre hcl hn fuel hf' order ho
  obtain ⟨r, hres, hpu⟩ := compile_p2u hc0
  rw [toModel_strip, resolve_strip, xrunFrom_names hr hpre] at hres
  obtain ⟨Ls, hh, _⟩ := runFrom_hier hr0 hpre
  have hd : DotFree b.toModel := by
    rw [← dotFree_strip, strip_lowModel hr]
    exact hh.dotFree hv.low.names
  rw [← xrunFrom_names hr hpre] at hd hres
  obtain ⟨dv, e1⟩ := valid_decl hd hres Local.designVars (by rw [xrunFrom_names hr hpre]; exact hv.designVars)
  obtain ⟨cn, e2⟩ := valid_decl hd hres Local.constraints (by rw [xrunFrom_names hr hpre]; exact hv.constraints)
  obtain ⟨ob, e3⟩ := valid_objective hd hres (by rw [xrunFrom_names hr hpre]; exact hv.objective)
  rw [xrunFrom_names hr hpre, ← hpu] at e1 e2 e3
  have hc := (xcompile hv.low.names hr hpre hcl hn hf' ho _).2 ⟨rep0, dv, ob, cn, hc0, e1, e3, e2, rfl⟩
  obtain ⟨f, node, _, _, h3⟩ := C82_programs_mean_what_they_say b hv.low.names hv.low.noChain pre done root hr objs hpre hcl hn fuel hf order ho _ hc
  exact ⟨_, hc, f, node, h3⟩

/-- **C80.** A valid program with custom operations, implicit operations and optimisation declarations runs, and (if it creates no more objects than there are short automatic names) its representation is built, without
error; executing it computes the only solution with the given values of the variables that must be given. -/
theorem C80_valid_programs_compute (b : XBody K F G I) (hv : XValid b) (hp : XPlain b) : ∃ objs root, xrunProgram b = .ok (objs, root) ∧ (objs.length ≤ 63 ^ 4 →
    ∀ order : List Nat → List Nat, (∀ l x, x ∈ order l ↔ x ∈ l) → ∀ fuel, (∀ path b', XAt b path b' → (b'.locals.outputs ++ b'.locals.declared).length + objs.length ≤ fuel) →
      ∃ rep, compile (xobjects objs) fuel order root = .ok rep ∧ ∃ (f : Nat → Nat) (node : List Name → Nat → Nat), ∀ (P : Power K) (den : Fun F G I → List (Val K) → Nat → Val K) (σ0 : Env (Val K)),
        let value := fun path x => execAll rep.graph ⟨fun i => decide ((xobjects objs i).kind = .op), fun i => (xobjects objs i).deps.map f, opMeaning P den objs⟩ σ0 rep.sorted (node path x)
        Prog.Solution P den (b.low 0) value ∧ (∀ path x, GivenVar (b.low 0) path x → value path x = σ0 (node path x)) ∧
        ∀ ρ, Prog.Solution P den (b.low 0) ρ → (∀ path x, GivenVar (b.low 0) path x → ρ path x = σ0 (node path x)) → ∀ path b', XAt b path b' → ∀ x, (b'.low 0).Live x → ρ path x = value path x) := by
  obtain ⟨objs, root, hr, h⟩ := C82_valid_programs_compute b hv [] hp.after
  exact ⟨objs, root, hr, h objs List.prefix_rfl (runFrom_closed (by simp [Closed]) (xrunFrom_low hr).1)⟩

/-- **C82.** As C81, in a session with other objects (`pre`, `done`, `objs` as before): the design variables of the representation of a program are exactly those declared in its `define` methods, each under the promoted name (in the main model) of what the declared name denotes in the
model that declares it, with the data given, and no name twice; so are the constraints; the objective is the only one declared. -/
theorem C82_declarations_exact (b : XBody K F G I) (hg : GoodNames (b.low 0)) (pre done : List (PObj K (Fun F G I))) (hp : XPlainAfter pre.length b) (root : OModel)
    (hr : xrunFrom pre b = .ok (done, root)) (objs : List (PObj K (Fun F G I))) (hpre : done <+: objs) (hcl : Closed objs) (hn : objs.length ≤ 63 ^ 4) (fuel : Nat) (hf : ∀ path b', XAt b path b' → (b'.locals.outputs ++ b'.locals.declared).length + objs.length ≤ fuel)
    (order : List Nat → List Nat) (ho : ∀ l x, x ∈ order l ↔ x ∈ l) (rep : Csdl.Rep) (hc : compile (xobjects objs) fuel order root = .ok rep) :
    (rep.designVars.keys.Nodup ∧ ∀ p d, (p, d) ∈ rep.designVars ↔ ∃ path b' n k q, XAt b path b' ∧ (n, .designVar k d) ∈ b'.stmts 0 ∧ Denotes b'.toModel k q ∧ Denotes b.toModel (fullName path q) p) ∧
    (rep.constraints.keys.Nodup ∧ ∀ p d, (p, d) ∈ rep.constraints ↔ ∃ path b' n k q, XAt b path b' ∧ (n, .constraint k d) ∈ b'.stmts 0 ∧ Denotes b'.toModel k q ∧ Denotes b.toModel (fullName path q) p) ∧
    ∀ p d, rep.objective = some (p, d) ↔ ∃ path b' n k q, XAt b path b' ∧ (n, .objective k d) ∈ b'.stmts 0 ∧ Denotes b'.toModel k q ∧ Denotes b.toModel (fullName path q) p := by
  have hf' : ∀ path c, BAt (b.low 0) path c → (c.locals.outputs ++ c.locals.declared).length + objs.length ≤ fuel := by
    intro path c hc
    obtain ⟨b', h1, rfl⟩ := bat_low hc
    exact hf path b' h1
  obtain ⟨rep0, dv, ob, cn, hc0, e1, e2, e3, rfl⟩ := (xcompile hg hr hpre hcl hn hf' ho rep).1 hc
  obtain ⟨r, hres, hpu⟩ := compile_p2u hc0
  rw [toModel_strip, resolve_strip, xrunFrom_names hr hpre] at hres
  obtain ⟨Ls, hh, _⟩ := runFrom_hier (xrunFrom_low hr).1 hpre
  have hd : DotFree b.toModel := by
    rw [← dotFree_strip, strip_lowModel hr]
    exact hh.dotFree hg
  rw [hpu] at e1 e2 e3
  obtain ⟨o1, o2, o3⟩ := C12_objective_exact b.toModel hd r hres
  have key : ∀ (sel : Local → Dict Name Nat) (mk : Name → Nat → XStmt K F G I), (∀ (b' : XBody K F G I) k d, (k, d) ∈ sel b'.locals ↔ ∃ n, (n, mk k d) ∈ b'.stmts 0) → ∀ d p,
      ((∃ path l subs k n, At b.toModel path (.mk l subs) ∧ (k, d) ∈ sel l ∧ Denotes (.mk l subs) k n ∧ Denotes b.toModel (fullName path n) p) ↔
        ∃ path b' n k q, XAt b path b' ∧ (n, mk k d) ∈ b'.stmts 0 ∧ Denotes b'.toModel k q ∧ Denotes b.toModel (fullName path q) p) := by
    intro sel mk hsel d p
    constructor
    · rintro ⟨path, l, subs, k, q, h1, h2, h3, h4⟩
      obtain ⟨b', h5, h6⟩ := xat_of_at h1
      unfold XBody.toModel at h6
      cases h6
      obtain ⟨n, hn⟩ := (hsel b' k d).1 h2
      exact ⟨path, b', n, k, q, h5, hn, h3, h4⟩
    · rintro ⟨path, b', n, k, q, h1, h2, h3, h4⟩
      exact ⟨path, b'.locals, b'.toSubs, k, q, at_of_xat h1, (hsel b' k d).2 ⟨n, h2⟩, h3, h4⟩
  have ho0 := ((C82_programs_run_iff pre b hp).1 ⟨done, root, hr⟩)
  have hobj : ∀ path b', XAt b path b' → ∀ k d, (k, d) ∈ b'.locals.objective.toList ↔ ∃ n, (n, .objective k d) ∈ b'.stmts 0 := by
    intro path b' hb k d
    unfold XBody.locals
    simp only
    constructor
    · intro h
      have h1 := List.mem_of_mem_head? (Option.mem_toList.1 h)
      obtain ⟨⟨n, s⟩, h2, h3⟩ := List.mem_filterMap.1 h1
      cases s <;> simp only [XStmt.objective?, reduceCtorEq, Option.some.injEq, Prod.mk.injEq] at h3
      obtain ⟨rfl, rfl⟩ := h3
      exact ⟨n, h2⟩
    · rintro ⟨n, h⟩
      obtain ⟨P1, P2, hs⟩ := List.append_of_mem h
      have h1 : P1.filterMap (fun y => y.2.objective?) = [] := (ho0 path b' hb).stmts P1 _ P2 hs
      rw [hs, List.filterMap_append, h1]
      simp [XStmt.objective?]
  have hdv : ∀ (b' : XBody K F G I) k d, (k, d) ∈ b'.locals.designVars ↔ ∃ n, (n, .designVar k d) ∈ b'.stmts 0 := by
    intro b' k d
    unfold XBody.locals
    simp only [List.mem_filterMap]
    constructor
    · rintro ⟨⟨n, s⟩, h2, h3⟩
      cases s <;> simp only [XStmt.designVar?, reduceCtorEq, Option.some.injEq, Prod.mk.injEq] at h3
      obtain ⟨rfl, rfl⟩ := h3
      exact ⟨n, h2⟩
    · rintro ⟨n, h⟩
      exact ⟨_, h, rfl⟩
  have hcn : ∀ (b' : XBody K F G I) k d, (k, d) ∈ b'.locals.constraints ↔ ∃ n, (n, .constraint k d) ∈ b'.stmts 0 := by
    intro b' k d
    unfold XBody.locals
    simp only [List.mem_filterMap]
    constructor
    · rintro ⟨⟨n, s⟩, h2, h3⟩
      cases s <;> simp only [XStmt.constraint?, reduceCtorEq, Option.some.injEq, Prod.mk.injEq] at h3
      obtain ⟨rfl, rfl⟩ := h3
      exact ⟨n, h2⟩
    · rintro ⟨n, h⟩
      exact ⟨_, h, rfl⟩
  obtain ⟨d1, d2⟩ := C12_declarations_exact Local.designVars b.toModel hd r hres dv e1
  obtain ⟨c1, c2⟩ := C12_declarations_exact Local.constraints b.toModel hd r hres cn e3
  refine ⟨⟨d1, fun p d => by rw [← key Local.designVars _ hdv]; exact d2 p d⟩, ⟨c1, fun p d => by rw [← key Local.constraints _ hcn]; exact c2 p d⟩, fun p d => ?_⟩
  show ob = some (p, d) ↔ _
  constructor
  · rintro rfl
    obtain ⟨path, m', k, q, h1, h2, h3⟩ := (o1 p d).1 e2
    obtain ⟨l, subs, rfl, hat, hk⟩ := (mem_issuedPre _ path m' (k, d)).1 (by rw [h1]; simp)
    obtain ⟨b', h4, h5⟩ := xat_of_at hat
    unfold XBody.toModel at h5
    cases h5
    obtain ⟨n, h6⟩ := (hobj path b' h4 k d).1 hk
    exact ⟨path, b', n, k, q, h4, h6, h2, h3⟩
  · rintro ⟨path, b', n, k, q, h1, h2, h3, h4⟩
    have hmem := (mem_issuedPre (sel := fun l : Local => l.objective.toList) b.toModel path b'.toModel (k, d)).2 ⟨b'.locals, b'.toSubs, rfl, at_of_xat h1, (hobj path b' h1 k d).2 ⟨n, h2⟩⟩
    have hlen : (issuedPre (fun l : Local => l.objective.toList) b.toModel).length < 2 := by
      by_contra hc
      obtain ⟨e, he⟩ := o3 (by omega)
      rw [e2] at he; cases he
    have hone : issuedPre (fun l : Local => l.objective.toList) b.toModel = [(path, b'.toModel, k, d)] := by
      generalize issuedPre (fun l : Local => l.objective.toList) b.toModel = L at hmem hlen
      match L, hmem, hlen with
      | [a], hmem, _ => rw [List.mem_singleton.1 hmem]
      | _ :: _ :: _, _, hlen => simp only [List.length_cons] at hlen; omega
    have := (o1 p d).2 ⟨path, _, k, q, hone, h3, h4⟩
    rw [e2] at this
    cases this
    rfl

/-- **C81.** The design variables of the representation of a program are exactly those declared in its `define` methods, each under the promoted name (in the main model) of what the declared name denotes in the
model that declares it, with the data given, and no name twice; so are the constraints; the objective is the only one declared. -/
theorem C81_declarations_exact (b : XBody K F G I) (hp : XPlain b) (hg : GoodNames (b.low 0)) (objs : List (PObj K (Fun F G I))) (root : OModel) (hr : xrunProgram b = .ok (objs, root))
    (hn : objs.length ≤ 63 ^ 4) (fuel : Nat) (hf : ∀ path b', XAt b path b' → (b'.locals.outputs ++ b'.locals.declared).length + objs.length ≤ fuel)
    (order : List Nat → List Nat) (ho : ∀ l x, x ∈ order l ↔ x ∈ l) (rep : Csdl.Rep) (hc : compile (xobjects objs) fuel order root = .ok rep) :
    (rep.designVars.keys.Nodup ∧ ∀ p d, (p, d) ∈ rep.designVars ↔ ∃ path b' n k q, XAt b path b' ∧ (n, .designVar k d) ∈ b'.stmts 0 ∧ Denotes b'.toModel k q ∧ Denotes b.toModel (fullName path q) p) ∧
    (rep.constraints.keys.Nodup ∧ ∀ p d, (p, d) ∈ rep.constraints ↔ ∃ path b' n k q, XAt b path b' ∧ (n, .constraint k d) ∈ b'.stmts 0 ∧ Denotes b'.toModel k q ∧ Denotes b.toModel (fullName path q) p) ∧
    ∀ p d, rep.objective = some (p, d) ↔ ∃ path b' n k q, XAt b path b' ∧ (n, .objective k d) ∈ b'.stmts 0 ∧ Denotes b'.toModel k q ∧ Denotes b.toModel (fullName path q) p :=
  C82_declarations_exact b hg [] objs hp.after root hr objs List.prefix_rfl (runFrom_closed (by simp [Closed]) (xrunFrom_low hr).1) hn fuel hf order ho rep hc

/-! ### Example: a program with a custom operation, an implicit operation and optimisation declarations -/

/-- the states `y` with residual `r` -/
def exFac : Factory := Factory.declareAll [("y".toList, "r".toList, .number)]

/-- `def define(self): self.declare_variable... ; b = create_input('b'); u = custom(b, op=g1); register_output('u', u); add_design_variable('b')` -/
def exXSub : XBody ℚ Unit Nat Unit :=
  .stmt (.plain (.input "b".toList [1] (fun _ => 1))) (.stmt (.custom 1 [.input "b".toList (.tuple [1]) (.number 1), .output "o".toList (.tuple [1]) (.number 1)] [0] ["u".toList]) (.stmt (.designVar "b".toList 4) .done))

/-- `a = create_input('a'); y, p = op(a, expose=['p']); t = custom(y, op=g0); register_output('t', t); add(Sub, 's', promotes=[]); add_design_variable('a'); add_constraint('t'); add_objective('p')` -/
def exX : XBody ℚ Unit Nat Unit :=
  .stmt (.plain (.input "a".toList [1] (fun _ => 1))) (.stmt (.implicit () exImp 9 exFac ["p".toList] [0]) (.stmt (.custom 0 [.input "y".toList (.tuple [1]) (.number 1), .output "o".toList (.tuple [1]) (.number 1)] [1] ["t".toList])
    (.add false "s".toList (some []) exXSub (.stmt (.designVar "a".toList 5) (.stmt (.constraint "t".toList 6) (.stmt (.objective "p".toList 7) .done))))))

theorem exX_at {path : List Name} {b' : XBody ℚ Unit Nat Unit} (h : XAt exX path b') : (path = [] ∧ b' = exX) ∨ (path = ["s".toList] ∧ b' = exXSub) := by
  cases h with
  | here => exact .inl ⟨rfl, rfl⟩
  | @down _ n p sub path b' h1 h2 =>
    simp only [exX, XBody.subs, List.mem_singleton, Prod.mk.injEq] at h1
    obtain ⟨rfl, rfl, rfl⟩ := h1
    cases h2 with
    | here => exact .inr ⟨rfl, rfl⟩
    | down h3 _ => simp [exXSub, XBody.subs] at h3

theorem exX_plain : XPlain exX := by
  refine ⟨by decide +kernel, fun path b' n s hb hs => ?_⟩
  have h1 : ∀ y ∈ exX.stmts 0, ∀ name ∈ y.2.names y.1, ¬ AutoLike name := by decide +kernel
  have h2 : ∀ y ∈ exXSub.stmts 0, ∀ name ∈ y.2.names y.1, ¬ AutoLike name := by decide +kernel
  rcases exX_at hb with ⟨_, rfl⟩ | ⟨_, rfl⟩
  · exact h1 _ hs
  · exact h2 _ hs

theorem exX_good : GoodNames (exX.low 0) := by
  constructor <;> intro path c hc <;> obtain ⟨b', h, rfl⟩ := bat_low hc <;> rcases exX_at h with ⟨_, rfl⟩ | ⟨_, rfl⟩ <;> decide +kernel

theorem exX_noChain : NoChain (exX.low 0).toModel := by
  have hiss : issuedPost Local.connections (exX.low 0).toModel = [] := by decide +kernel
  constructor
  · intro i hi
    rw [hiss] at hi
    cases hi
  · rw [hiss]; exact .nil

theorem exX_run : ∃ objs root rep, xrunProgram exX = .ok (objs, root) ∧ objs.length = 10 ∧ compile (xobjects objs) 20 id root = .ok rep := by
  obtain ⟨⟨objs, root⟩, h1, h⟩ := ok_of_check (x := xrunProgram exX) (P := fun q => decide (q.1.length = 10) && okCheck (compile (xobjects q.1) 20 id q.2) fun _ => true)
    (by decide +kernel)
  rw [Bool.and_eq_true] at h
  obtain ⟨rep, h2, h3⟩ := ok_of_check h.2
  exact ⟨objs, root, rep, h1, of_decide_eq_true h.1, h2⟩

/-- C80 applies: all methods are fine; the nodes of `y`, `p`, `t`, `u` get what the operations compute -/
example : ∃ objs root rep, XPlain exX ∧ GoodNames (exX.low 0) ∧ NoChain (exX.low 0).toModel ∧ xrunProgram exX = .ok (objs, root) ∧ compile (xobjects objs) 20 id root = .ok rep ∧ XMethodOk exX ∧ XMethodOk exXSub ∧
    ∃ (f : Nat → Nat) (node : List Name → Nat → Nat), ∀ (P : Power ℚ) (den : Fun Unit Nat Unit → List (Val ℚ) → Nat → Val ℚ) (σ0 : Env (Val ℚ)),
      let σ := execAll rep.graph ⟨fun i => decide ((xobjects objs i).kind = .op), fun i => (xobjects objs i).deps.map f, opMeaning P den objs⟩ σ0 rep.sorted
      σ (node [] 1) = den (.implicit ()) [σ (node [] 0)] 0 ∧ σ (node [] 2) = den (.implicit ()) [σ (node [] 0)] 1 ∧ σ (node [] 3) = den (.custom 0) [σ (node [] 1)] 0 ∧
      σ (node ["s".toList] 1) = den (.custom 1) [σ (node ["s".toList] 0)] 0 := by
  obtain ⟨objs, root, rep, hr, hl, hc⟩ := exX_run
  have hf : ∀ path b', XAt exX path b' → (b'.locals.outputs ++ b'.locals.declared).length + objs.length ≤ 20 := by
    intro path b' h
    rw [hl]
    rcases exX_at h with ⟨_, rfl⟩ | ⟨_, rfl⟩ <;> decide +kernel
  have hs : XAt exX ["s".toList] exXSub := .down (p := some []) (by simp [exX, XBody.subs]) (.here _)
  have hok := (C80_programs_run_iff exX exX_plain).1 ⟨objs, root, hr⟩
  obtain ⟨f, node, _, _, h3⟩ := C80_programs_mean_what_they_say exX exX_good exX_noChain objs root hr (by rw [hl]; decide) 20 hf id (fun _ _ => Iff.rfl) rep hc
  refine ⟨objs, root, rep, exX_plain, exX_good, exX_noChain, hr, hc, hok _ _ (.here _), hok _ _ hs, f, node, fun P den σ0 => ?_⟩
  obtain ⟨sol, _, _⟩ := h3 P den σ0
  have hst : stateOuts exImp exFac.states = .ok [("y".toList, [1])] := by decide
  have hex : exposedOuts exImp ["p".toList] = [("p".toList, [1])] := by decide
  obtain ⟨so, i1, _, i3⟩ := C80_implicit_operations exX exX_plain objs root hr [] exX (.here _) 1 () exImp 9 exFac ["p".toList] [0] (by simp [exX, XBody.stmts, XStmt.count, Stmt.count])
  rw [hst] at i1
  cases i1
  rw [hex] at i3
  have c1 := (C80_custom_operations exX exX_plain objs root hr [] exX (.here _) 3 0 _ [1] ["t".toList] (by
    simp only [exX, XBody.stmts, List.mem_cons]; right; right; left; rfl)).2 0 _ rfl
  have c2 := (C80_custom_operations exX exX_plain objs root hr _ exXSub hs 1 1 _ [0] ["u".toList] (by
    simp only [exXSub, XBody.stmts, List.mem_cons]; right; left; rfl)).2 0 _ rfl
  exact ⟨(i3 0 _ rfl).2.2 P den _ sol, (i3 1 _ rfl).2.2 P den _ sol, c1.2.2 P den _ sol, c2.2.2 P den _ sol⟩

/-- C81 applies: the design variables are `a` and `s.b`, the constraint is `t`, the objective is `p` -/
example : ∃ objs root rep, xrunProgram exX = .ok (objs, root) ∧ compile (xobjects objs) 20 id root = .ok rep ∧ rep.designVars = [("a".toList, 5), ("s.b".toList, 4)] ∧ rep.constraints = [("t".toList, 6)] ∧
    rep.objective = some ("p".toList, 7) := by
  obtain ⟨⟨objs, root⟩, h1, h⟩ := ok_of_check (x := xrunProgram exX) (P := fun q => okCheck (compile (xobjects q.1) 20 id q.2) fun rep => decide (rep.designVars = [("a".toList, 5), ("s.b".toList, 4)] ∧
    rep.constraints = [("t".toList, 6)] ∧ rep.objective = some ("p".toList, 7))) (by decide +kernel)
  obtain ⟨rep, h2, h3⟩ := ok_of_check h
  exact ⟨objs, root, rep, h1, h2, of_decide_eq_true h3⟩

/-! ### Example: the program is valid -/

theorem exXSub_promoted {path : List Name} {k : VarKind} {w : VarInfo} {p : Name} (h : PromotedAs (exXSub.low 0).toModel path k w p) :
    path = [] ∧ k = .source ∧ ((w = ⟨"b".toList, [1]⟩ ∧ p = "b".toList) ∨ (w = ⟨"u".toList, [1]⟩ ∧ p = "u".toList)) := by
  have h1 : (exXSub.low 0).locals.vars .source = [⟨"b".toList, [1]⟩, ⟨"u".toList, [1]⟩] := by decide +kernel
  have h2 : (exXSub.low 0).locals.vars .target = [] := by decide +kernel
  have h3 : (exXSub.low 0).toSubs.toList = [] := rfl
  unfold Body.toModel at h
  cases h with
  | @here _ _ k v hv =>
    cases k <;> simp only [h1, h2, List.mem_cons, List.not_mem_nil, or_false] at hv
    rcases hv with rfl | rfl <;> simp
  | @up _ _ path k v p s hs hp hpr => rw [h3] at hs; cases hs
  | @stay _ _ path k v p s hs hp hpr => rw [h3] at hs; cases hs

theorem exX_promoted {path : List Name} {k : VarKind} {w : VarInfo} {p : Name} (h : PromotedAs (exX.low 0).toModel path k w p) :
    (path = [] ∧ k = .source ∧ w.name = p ∧ w.shape = [1] ∧ (p = "a".toList ∨ p = "y".toList ∨ p = "p".toList ∨ p = "t".toList)) ∨
    (path = ["s".toList] ∧ k = .source ∧ w.shape = [1] ∧ ((w.name = "b".toList ∧ p = "s.b".toList) ∨ (w.name = "u".toList ∧ p = "s.u".toList))) := by
  have h1 : (exX.low 0).locals.vars .source = [⟨"a".toList, [1]⟩, ⟨"y".toList, [1]⟩, ⟨"p".toList, [1]⟩, ⟨"t".toList, [1]⟩] := by decide +kernel
  have h2 : (exX.low 0).locals.vars .target = [] := by decide +kernel
  have h3 : (exX.low 0).toSubs.toList = [⟨"s".toList, some [], (exXSub.low 0).toModel⟩] := rfl
  unfold Body.toModel at h
  cases h with
  | @here _ _ k v hv =>
    cases k <;> simp only [h1, h2, List.mem_cons, List.not_mem_nil, or_false] at hv
    rcases hv with rfl | rfl | rfl | rfl <;> simp
  | @up _ _ path k v p s hs hp hpr =>
    rw [h3, List.mem_singleton] at hs
    subst hs
    simp [IsPromoted] at hpr
  | @stay _ _ path k v p s hs hp hpr =>
    rw [h3, List.mem_singleton] at hs
    subst hs
    obtain ⟨rfl, rfl, ⟨rfl, rfl⟩ | ⟨rfl, rfl⟩⟩ := exXSub_promoted hp
    · exact .inr ⟨rfl, rfl, rfl, .inl ⟨rfl, rfl⟩⟩
    · exact .inr ⟨rfl, rfl, rfl, .inr ⟨rfl, rfl⟩⟩

theorem exX_stmts : (exX.low 0).stmts 0 = [(0, .input "a".toList [1] (fun _ => 1)), (1, .call (.implicit ()) [0] [[1], [1]]), (3, .register "y".toList 1), (3, .register "p".toList 2), (3, .call (.custom 0) [1] [[1]]),
    (4, .register "t".toList 3)] := by rfl

theorem exXSub_stmts : (exXSub.low 0).stmts 0 = [(0, .input "b".toList [1] (fun _ => 1)), (1, .call (.custom 1) [0] [[1]]), (2, .register "u".toList 1)] := by rfl

theorem exX_bat {path : List Name} {c : Body ℚ (Fun Unit Nat Unit)} (h : BAt (exX.low 0) path c) : (path = [] ∧ c = exX.low 0) ∨ (path = ["s".toList] ∧ c = exXSub.low 0) := by
  obtain ⟨b', h1, rfl⟩ := bat_low h
  rcases exX_at h1 with ⟨rfl, rfl⟩ | ⟨rfl, rfl⟩
  · exact .inl ⟨rfl, rfl⟩
  · exact .inr ⟨rfl, rfl⟩

theorem exX_named {x : Nat} {name : Name} (h : (exX.low 0).Named x name) : ("a".toList, 0) = (name, x) ∨ ("y".toList, 1) = (name, x) ∨ ("p".toList, 2) = (name, x) ∨ ("t".toList, 3) = (name, x) := by
  unfold Body.Named at h
  rw [exX_stmts] at h
  simp [inputOf, declaredOf, outputOf, List.filterMap_cons] at h
  rcases h with h | h | h | h <;> simp [h]

theorem exXSub_named {x : Nat} {name : Name} (h : (exXSub.low 0).Named x name) : ("b".toList, 0) = (name, x) ∨ ("u".toList, 1) = (name, x) := by
  unfold Body.Named at h
  rw [exXSub_stmts] at h
  simp [inputOf, declaredOf, outputOf, List.filterMap_cons] at h
  rcases h with h | h <;> simp [h]

/-- the variable of a promoted name -/
def exXVar (p : Name) : Nat := if p = "a".toList ∨ p = "s.b".toList then 0 else if p = "y".toList ∨ p = "s.u".toList then 1 else if p = "p".toList then 2 else 3

theorem exX_hasName {path : List Name} {x : Nat} {p : Name} (h : HasName (exX.low 0) path x p) : x = exXVar p := by
  obtain ⟨b', name, k, w, h1, _, h3, h4, rfl⟩ := h
  rcases exX_bat h1 with ⟨rfl, rfl⟩ | ⟨rfl, rfl⟩
  · rcases exX_promoted h4 with ⟨_, _, e, _, _⟩ | ⟨e, _⟩
    · rw [e] at h3
      rcases exX_named h3 with e | e | e | e <;> cases e <;> decide
    · cases e
  · rcases exX_promoted h4 with ⟨e, _⟩ | ⟨_, _, _, ⟨e, rfl⟩ | ⟨e, rfl⟩⟩
    · cases e
    · rw [e] at h3
      rcases exXSub_named h3 with e | e <;> first | (cases e; decide) | exact absurd (congrArg Prod.fst e : _) (by simp)
    · rw [e] at h3
      rcases exXSub_named h3 with e | e <;> first | (cases e; decide) | exact absurd (congrArg Prod.fst e : _) (by simp)

theorem exX_same {q r : List Name × Nat} (h : Relation.EqvGen (Same (exX.low 0)) q r) : q.2 = r.2 := by
  induction h with
  | rel q r h =>
    cases h with
    | name p h1 h2 => rw [exX_hasName h1, exX_hasName h2]
    | connection path b' s t p q hb hc h1 h2 h3 h4 =>
      exfalso
      rcases exX_bat hb with ⟨rfl, rfl⟩ | ⟨rfl, rfl⟩
      · have : (exX.low 0).locals.connections = [] := by decide +kernel
        rw [this] at hc; cases hc
      · have : (exXSub.low 0).locals.connections = [] := by decide +kernel
        rw [this] at hc; cases hc
    | @«alias» path x y b' hb hl hl' hx =>
      clear hl hl'
      induction hx with
      | refl => rfl
      | symm _ ih => exact ih.symm
      | trans _ _ ih1 ih2 => exact ih1.trans ih2
      | plus hx =>
        rcases exX_bat hb with ⟨rfl, rfl⟩ | ⟨rfl, rfl⟩
        · rw [exX_stmts] at hx; simp at hx
        · rw [exXSub_stmts] at hx; simp at hx
      | part hx =>
        rcases exX_bat hb with ⟨rfl, rfl⟩ | ⟨rfl, rfl⟩
        · rw [exX_stmts] at hx; simp at hx
        · rw [exXSub_stmts] at hx; simp at hx
  | refl => rfl
  | symm _ _ _ ih => exact ih.symm
  | trans _ _ _ _ _ ih1 ih2 => exact ih1.trans ih2

theorem exX_feeds {q r : List Name × Nat} (h : Feeds (exX.low 0) q r) : q.2 < r.2 := by
  obtain ⟨path, x⟩ := q
  obtain ⟨path', y⟩ := r
  rcases h with ⟨b', n, s, e, hb, hs, hc, h1, h2, _, hx⟩ | ⟨b', _, _, _, _, _, hb, _, n, z, h, _⟩
  · simp only at e hb h1 h2 hx
    subst e
    unfold Body.Has at hs
    show x < y
    rcases exX_bat hb with ⟨rfl, rfl⟩ | ⟨rfl, rfl⟩
    · rw [exX_stmts] at hs
      simp only [List.mem_cons, Prod.mk.injEq, List.not_mem_nil, or_false] at hs
      rcases hs with ⟨rfl, rfl⟩ | ⟨rfl, rfl⟩ | ⟨rfl, rfl⟩ | ⟨rfl, rfl⟩ | ⟨rfl, rfl⟩ | ⟨rfl, rfl⟩ <;> simp [Stmt.operands] at hx <;> omega
    · rw [exXSub_stmts] at hs
      simp only [List.mem_cons, Prod.mk.injEq, List.not_mem_nil, or_false] at hs
      rcases hs with ⟨rfl, rfl⟩ | ⟨rfl, rfl⟩ | ⟨rfl, rfl⟩ <;> simp [Stmt.operands] at hx <;> omega
  · exfalso
    unfold Body.Has at h
    rcases exX_bat hb with ⟨_, rfl⟩ | ⟨_, rfl⟩
    · rw [exX_stmts] at h; simp at h
    · rw [exXSub_stmts] at h; simp at h

theorem exX_low_valid : ValidProgram (exX.low 0) := by
  obtain ⟨objs, root, rep, hr, _, _⟩ := exX_run
  have hok := (C80_programs_run_iff exX exX_plain).1 ⟨objs, root, hr⟩
  have hiss : issuedPost Local.connections (exX.low 0).toModel = [] := by decide +kernel
  have hsz : ∀ {path b'}, BAt (exX.low 0) path b' → ∀ {path k v p}, PromotedAs b'.toModel path k v p → v.shape = [1] := by
    intro path b' hb path' k v p h
    rcases exX_bat hb with ⟨_, rfl⟩ | ⟨_, rfl⟩
    · rcases exX_promoted h with ⟨_, _, _, h, _⟩ | ⟨_, _, h, _⟩ <;> exact h
    · obtain ⟨_, _, ⟨rfl, _⟩ | ⟨rfl, _⟩⟩ := exXSub_promoted h <;> rfl
  refine ⟨?_, exX_good, ?_, ?_, ?_, ?_, ?_, exX_noChain, ?_⟩
  · intro path c hc
    obtain ⟨b', h1, rfl⟩ := bat_low hc
    exact (hok path b' h1).low
  · intro path b' hb p path1 v1 path2 v2 h1 h2
    rcases exX_bat hb with ⟨_, rfl⟩ | ⟨_, rfl⟩
    · rcases exX_promoted h1 with ⟨rfl, _, _, _, h3⟩ | ⟨rfl, _, _, h3⟩ <;> rcases exX_promoted h2 with ⟨rfl, _, _, _, h4⟩ | ⟨rfl, _, _, h4⟩ <;> first | rfl | skip
      · exfalso; rcases h3 with rfl | rfl | rfl | rfl <;> rcases h4 with ⟨_, h4⟩ | ⟨_, h4⟩ <;> exact absurd h4 (by decide)
      · exfalso; rcases h4 with rfl | rfl | rfl | rfl <;> rcases h3 with ⟨_, h3⟩ | ⟨_, h3⟩ <;> exact absurd h3 (by decide)
    · rw [(exXSub_promoted h1).1, (exXSub_promoted h2).1]
  · intro path b' hb p k1 path1 v1 k2 path2 v2 h1 h2 _
    rw [hsz hb h1, hsz hb h2]
  · intro path b' hb n q sub hs x hx
    rcases exX_bat hb with ⟨_, rfl⟩ | ⟨_, rfl⟩
    · rw [low_subs] at hs
      simp only [exX, XBody.subs, List.map_cons, List.map_nil, List.mem_singleton, Prod.mk.injEq, Option.some.injEq] at hs
      obtain ⟨rfl, rfl, rfl⟩ := hs
      cases hx
    · rw [low_subs] at hs
      simp [exXSub, XBody.subs] at hs
  · intro path b' a c hb hc
    exfalso
    rcases exX_bat hb with ⟨_, rfl⟩ | ⟨_, rfl⟩
    · have : (exX.low 0).locals.connections = [] := by decide +kernel
      rw [this] at hc; cases hc
    · have : (exXSub.low 0).locals.connections = [] := by decide +kernel
      rw [this] at hc; cases hc
  · rw [hiss]; exact .nil
  · rintro ⟨q, hq⟩
    have : ∀ q r : List Name × Nat, Relation.TransGen (fun a c => ∃ a', Relation.EqvGen (Same (exX.low 0)) a a' ∧ Feeds (exX.low 0) a' c) q r → q.2 < r.2 := by
      intro q r h
      induction h with
      | single h => obtain ⟨a', h1, h2⟩ := h; rw [exX_same h1]; exact exX_feeds h2
      | tail _ h ih => obtain ⟨a', h1, h2⟩ := h; exact ih.trans (by rw [exX_same h1]; exact exX_feeds h2)
    exact absurd (this q q hq) (by omega)

/-- C80, valid programs: the program above is valid -/
theorem exX_valid : XValid exX := by
  obtain ⟨objs, root, rep, hr, hl, hc⟩ := exX_run
  have hok := (C80_programs_run_iff exX exX_plain).1 ⟨objs, root, hr⟩
  obtain ⟨r, hres, _⟩ := ok_of_check (x := resolve exX.toModel none) (P := fun _ => true) (by decide +kernel)
  have hd : DotFree exX.toModel := dotFree_of (by decide +kernel)
  have hmods : ∀ {path : List Name} {l : Local} {subs : Subs}, At exX.toModel path (.mk l subs) → (path = [] ∧ l = exX.locals ∧ subs = exX.toSubs) ∨ (path = ["s".toList] ∧ l = exXSub.locals ∧ subs = exXSub.toSubs) := by
    intro path l subs h
    obtain ⟨b', h1, h2⟩ := xat_of_at h
    unfold XBody.toModel at h2
    cases h2
    rcases exX_at h1 with ⟨rfl, rfl⟩ | ⟨rfl, rfl⟩
    · exact .inl ⟨rfl, rfl, rfl⟩
    · exact .inr ⟨rfl, rfl, rfl⟩
  have v : ∀ x : VarInfo, x ∈ exX.locals.vars .source → PromotedAs exX.toModel [] .source x x.name := fun x hx => .here hx
  have vs : ∀ x : VarInfo, x ∈ exXSub.locals.vars .source → PromotedAs exXSub.toModel [] .source x x.name := fun x hx => .here hx
  have vb : PromotedAs exX.toModel ["s".toList] .source ⟨"b".toList, [1]⟩ "s.b".toList :=
    PromotedAs.stay (s := ⟨"s".toList, some [], exXSub.toModel⟩) (by simp [exX, XBody.toSubs, Subs.toList, XBody.toModel]) (vs ⟨"b".toList, [1]⟩ (by decide +kernel)) (by simp [IsPromoted])
  have da : Denotes exX.toModel "a".toList "a".toList := .promoted (v ⟨"a".toList, [1]⟩ (by decide +kernel))
  have dt : Denotes exX.toModel "t".toList "t".toList := .promoted (v ⟨"t".toList, [1]⟩ (by decide +kernel))
  have dp : Denotes exX.toModel "p".toList "p".toList := .promoted (v ⟨"p".toList, [1]⟩ (by decide +kernel))
  have db : Denotes exX.toModel "s.b".toList "s.b".toList := .promoted vb
  have db' : Denotes exXSub.toModel "b".toList "b".toList := .promoted (vs ⟨"b".toList, [1]⟩ (by decide +kernel))
  have uniq : ∀ {x p q : Name}, Denotes exX.toModel x p → Denotes exX.toModel x q → p = q := fun h1 h2 => C09_denotation_unique exX.toModel hd r hres _ _ _ h1 h2
  obtain ⟨rs, hress, _⟩ := ok_of_check (x := resolve exXSub.toModel none) (P := fun _ => true) (by decide +kernel)
  have uniqs : ∀ {x p q : Name}, Denotes exXSub.toModel x p → Denotes exXSub.toModel x q → p = q := fun h1 h2 => C09_denotation_unique exXSub.toModel (dotFree_of (by decide +kernel)) rs hress _ _ _ h1 h2
  refine ⟨fun path b' hb => (hok path b' hb).stmts, exX_low_valid, ⟨?_, ?_⟩, ⟨?_, ?_⟩, ?_, ?_⟩
  · intro path l subs k d hat hk
    rcases hmods hat with ⟨rfl, rfl, rfl⟩ | ⟨rfl, rfl, rfl⟩
    · have : exX.locals.designVars = [("a".toList, 5)] := by rfl
      rw [this, List.mem_singleton] at hk
      cases hk
      exact ⟨_, _, da, da⟩
    · have : exXSub.locals.designVars = [("b".toList, 4)] := by rfl
      rw [this, List.mem_singleton] at hk
      cases hk
      exact ⟨_, _, db', db⟩
  · have : issuedPre Local.designVars exX.toModel = [([], exX.toModel, "a".toList, 5), (["s".toList], exXSub.toModel, "b".toList, 4)] := by rfl
    unfold DeclaredOnce
    rw [this]
    refine .cons ?_ (.cons (by simp) .nil)
    intro i hi
    rw [List.mem_singleton] at hi
    subst hi
    intro x x' p h1 h2 h3 h4
    simp only at h1 h2 h3 h4
    have e1 := uniq da h1
    subst e1
    have e2 := uniqs db' h3
    subst e2
    have e3 := uniq da h2
    have e4 := uniq db h4
    rw [← e3] at e4
    exact absurd e4 (by decide)
  · intro path l subs k d hat hk
    rcases hmods hat with ⟨rfl, rfl, rfl⟩ | ⟨rfl, rfl, rfl⟩
    · have : exX.locals.constraints = [("t".toList, 6)] := by rfl
      rw [this, List.mem_singleton] at hk
      cases hk
      exact ⟨_, _, dt, dt⟩
    · have : exXSub.locals.constraints = [] := by rfl
      rw [this] at hk
      cases hk
  · have : issuedPre Local.constraints exX.toModel = [([], exX.toModel, "t".toList, 6)] := by rfl
    unfold DeclaredOnce
    rw [this]
    exact .cons (by simp) .nil
  · intro path l subs k d hat hk
    rcases hmods hat with ⟨rfl, rfl, rfl⟩ | ⟨rfl, rfl, rfl⟩
    · have : exX.locals.objective = some ("p".toList, 7) := by rfl
      simp only [this, Option.toList_some, List.mem_singleton] at hk
      cases hk
      exact ⟨_, _, dp, dp⟩
    · have : exXSub.locals.objective = none := by rfl
      simp only [this, Option.toList_none] at hk
      cases hk
  · decide +kernel

end Csdl.Prog
