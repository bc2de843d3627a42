import Verif.Proofs.Inline
import Verif.Props.ProgramFull
import Verif.Props.Library
/-
C85: submodels defined in `with` blocks (`with self.create_submodel(name, promotes) as m:`) instead of in methods of their own.
-/
namespace Csdl.Prog
open Csdl Csdl.Arith
variable {K F G I : Type} [Field K] [DecidableEq K]

/-- **C85.** Whether a program runs without error does not depend on which of its submodels are defined in `with` blocks (when the objects of the block are created before later ones of the parent) and which in methods of their own
(when they are created after all of the parent's).  `pre`, `pre'`: the objects that exist when the programs run. -/
theorem C85_blocks_run_iff (b c : XBody K F G I) (h : XSameText b c) (pre pre' : List (PObj K (Fun F G I))) (hp : XPlainAfter pre.length b) (hp' : XPlainAfter pre'.length c) :
    (∃ objs root, xrunFrom pre b = .ok (objs, root)) ↔ ∃ objs root, xrunFrom pre' c = .ok (objs, root) := by
  rw [C82_programs_run_iff pre b hp, C82_programs_run_iff pre' c hp']
  constructor
  · intro hb path c' hc
    obtain ⟨b', g1, g2⟩ := h.symm.at_ hc
    exact g2.symm.methodOk (hb path b' g1)
  · intro hb path c' hc
    obtain ⟨b', g1, g2⟩ := h.at_ hc
    exact g2.symm.methodOk (hb path b' g1)

/-- **C85.** A valid program stays valid, so it runs and its representation is built (C82), however its submodels are given. -/
theorem C85_blocks_valid (b c : XBody K F G I) (h : XSameText b c) (hv : XValid b) (pre : List (PObj K (Fun F G I))) (hp : XPlainAfter pre.length b) :
    XValid c ∧ ∃ done root, xrunFrom pre c = .ok (done, root) ∧ ∀ objs, done <+: objs → Closed objs → objs.length ≤ 63 ^ 4 → ∀ order : List Nat → List Nat, (∀ l x, x ∈ order l ↔ x ∈ l) →
      ∀ fuel, (∀ path b', XAt b path b' → (b'.locals.outputs ++ b'.locals.declared).length + objs.length ≤ fuel) → ∃ rep, compile (xobjects objs) fuel order root = .ok rep := by
  have hvc := h.valid hv
  obtain ⟨done, root, hr, hall⟩ := C82_valid_programs_compute c hvc pre (h.plainAfter hp)
  refine ⟨hvc, done, root, hr, fun objs h1 h2 h3 order ho fuel hf => ?_⟩
  obtain ⟨rep, hc, _⟩ := hall objs h1 h2 h3 order ho fuel fun path c' hc => by
    obtain ⟨b', g1, g2⟩ := h.symm.at_ hc
    rw [g2.locals]
    exact hf path b' g1
  exact ⟨rep, hc⟩

/-- **C85.** Two programs that differ only in how submodels are given compute the same: let both run and their representations be built.  Then in both the same pairs of variables are represented by the same node; and from the same values of the
variables that must be given, executing the two representations gives every variable that matters the same value. -/
theorem C85_blocks_same_values (b c : XBody K F G I) (h : XSameText b c) (hg : GoodNames (b.low 0)) (hno : NoChain (b.low 0).toModel)
    (pre done : List (PObj K (Fun F G I))) (root : OModel) (hr : xrunFrom pre b = .ok (done, root)) (objs : List (PObj K (Fun F G I))) (hpre : done <+: objs) (hcl : Closed objs) (hn : objs.length ≤ 63 ^ 4)
    (pre' done' : List (PObj K (Fun F G I))) (root' : OModel) (hr' : xrunFrom pre' c = .ok (done', root')) (objs' : List (PObj K (Fun F G I))) (hpre' : done' <+: objs') (hcl' : Closed objs') (hn' : objs'.length ≤ 63 ^ 4)
    (fuel fuel' : Nat) (hf : ∀ path b', XAt b path b' → (b'.locals.outputs ++ b'.locals.declared).length + objs.length ≤ fuel)
    (hf' : ∀ path c', XAt c path c' → (c'.locals.outputs ++ c'.locals.declared).length + objs'.length ≤ fuel')
    (order order' : List Nat → List Nat) (ho : ∀ l x, x ∈ order l ↔ x ∈ l) (ho' : ∀ l x, x ∈ order' l ↔ x ∈ l)
    (rep rep' : Csdl.Rep) (hc : compile (xobjects objs) fuel order root = .ok rep) (hc' : compile (xobjects objs') fuel' order' root' = .ok rep') :
    ∃ (f f' : Nat → Nat) (node node' : List Name → Nat → Nat),
      (∀ path b', XAt b path b' → ∀ x, (b'.low 0).Live x → (node path x ∈ rep.graph.nodes ∧ (xobjects objs (node path x)).kind = .var) ∧ (node' path x ∈ rep'.graph.nodes ∧ (xobjects objs' (node' path x)).kind = .var)) ∧
      (∀ path b' path' b'', XAt b path b' → XAt b path' b'' → ∀ x y, (b'.low 0).Live x → (b''.low 0).Live y → (node path x = node path' y ↔ node' path x = node' path' y)) ∧
      ∀ (P : Power K) (den : Fun F G I → List (Val K) → Nat → Val K) (σ0 σ0' : Env (Val K)), (∀ path x, GivenVar (b.low 0) path x → σ0 (node path x) = σ0' (node' path x)) →
        ∀ path b', XAt b path b' → ∀ x, (b'.low 0).Live x →
          execAll rep.graph ⟨fun i => decide ((xobjects objs i).kind = .op), fun i => (xobjects objs i).deps.map f, opMeaning P den objs⟩ σ0 rep.sorted (node path x) =
          execAll rep'.graph ⟨fun i => decide ((xobjects objs' i).kind = .op), fun i => (xobjects objs' i).deps.map f', opMeaning P den objs'⟩ σ0' rep'.sorted (node' path x) := by
  have hl := h.low 0
  obtain ⟨f, node, a1, a2, a3⟩ := C82_programs_mean_what_they_say b hg hno pre done root hr objs hpre hcl hn fuel hf order ho rep hc
  obtain ⟨f', node', b1, b2, b3⟩ := C82_programs_mean_what_they_say c (hl.goodNames hg) (by rw [← hl.toModel]; exact hno) pre' done' root' hr' objs' hpre' hcl' hn' fuel' hf' order' ho' rep' hc'
  refine ⟨f, f', node, node', fun path b' hb x hx => ?_, fun path b' path' b'' hb hb' x y hx hy => ?_, fun P den σ0 σ0' hσ path b' hb x hx => ?_⟩
  · obtain ⟨c', g1, g2⟩ := h.at_ hb
    exact ⟨a1 path b' hb x hx, b1 path c' g1 x ((g2.low 0).live hx)⟩
  · obtain ⟨c', g1, g2⟩ := h.at_ hb
    obtain ⟨c'', k1, k2⟩ := h.at_ hb'
    rw [a2 path b' path' b'' hb hb' x y hx hy, b2 path c' path' c'' g1 k1 x y ((g2.low 0).live hx) ((k2.low 0).live hy)]
    exact ⟨hl.eqv, hl.symm.eqv⟩
  · obtain ⟨s1, s2, s3⟩ := b3 P den σ0'
    obtain ⟨t1, t2, t3⟩ := a3 P den σ0
    exact (t3 _ (hl.symm.solution s1) (fun path x hgv => (s2 path x (hl.given hgv)).trans (hσ path x hgv).symm) path b' hb x hx).symm

/-- **C85.** So are the optimisation declarations: design variables, constraints and objective of the two representations have the same names and data. -/
theorem C85_blocks_same_declarations (b c : XBody K F G I) (h : XSameText b c) (hg : GoodNames (b.low 0))
    (pre done : List (PObj K (Fun F G I))) (hp : XPlainAfter pre.length b) (root : OModel) (hr : xrunFrom pre b = .ok (done, root)) (objs : List (PObj K (Fun F G I))) (hpre : done <+: objs) (hcl : Closed objs) (hn : objs.length ≤ 63 ^ 4)
    (pre' done' : List (PObj K (Fun F G I))) (hp' : XPlainAfter pre'.length c) (root' : OModel) (hr' : xrunFrom pre' c = .ok (done', root')) (objs' : List (PObj K (Fun F G I))) (hpre' : done' <+: objs') (hcl' : Closed objs') (hn' : objs'.length ≤ 63 ^ 4)
    (fuel fuel' : Nat) (hf : ∀ path b', XAt b path b' → (b'.locals.outputs ++ b'.locals.declared).length + objs.length ≤ fuel)
    (hf' : ∀ path c', XAt c path c' → (c'.locals.outputs ++ c'.locals.declared).length + objs'.length ≤ fuel')
    (order order' : List Nat → List Nat) (ho : ∀ l x, x ∈ order l ↔ x ∈ l) (ho' : ∀ l x, x ∈ order' l ↔ x ∈ l)
    (rep rep' : Csdl.Rep) (hc : compile (xobjects objs) fuel order root = .ok rep) (hc' : compile (xobjects objs') fuel' order' root' = .ok rep') :
    (∀ p d, (p, d) ∈ rep.designVars ↔ (p, d) ∈ rep'.designVars) ∧ (∀ p d, (p, d) ∈ rep.constraints ↔ (p, d) ∈ rep'.constraints) ∧ rep.objective = rep'.objective := by
  obtain ⟨⟨_, a1⟩, ⟨_, a2⟩, a3⟩ := C82_declarations_exact b hg pre done hp root hr objs hpre hcl hn fuel hf order ho rep hc
  obtain ⟨⟨_, b1⟩, ⟨_, b2⟩, b3⟩ := C82_declarations_exact c ((h.low 0).goodNames hg) pre' done' hp' root' hr' objs' hpre' hcl' hn' fuel' hf' order' ho' rep' hc'
  have key : ∀ {b c : XBody K F G I}, XSameText b c → ∀ (s : Name → XStmt K F G I) (p : Name),
      (∃ path b' n k q, XAt b path b' ∧ (n, s k) ∈ b'.stmts 0 ∧ Denotes b'.toModel k q ∧ Denotes b.toModel (fullName path q) p) →
      ∃ path b' n k q, XAt c path b' ∧ (n, s k) ∈ b'.stmts 0 ∧ Denotes b'.toModel k q ∧ Denotes c.toModel (fullName path q) p := by
    rintro b c h s p ⟨path, b', n, k, q, h1, h2, h3, h4⟩
    obtain ⟨c', g1, g2⟩ := h.at_ h1
    exact ⟨path, c', n, k, q, g1, by rw [← g2.stmts]; exact h2, by rw [← g2.toModel]; exact h3, by rw [← h.toModel]; exact h4⟩
  have key' : ∀ (s : Nat → Name → XStmt K F G I) (p : Name) (d : Nat),
      (∃ path b' n k q, XAt b path b' ∧ (n, s d k) ∈ b'.stmts 0 ∧ Denotes b'.toModel k q ∧ Denotes b.toModel (fullName path q) p) ↔
      ∃ path b' n k q, XAt c path b' ∧ (n, s d k) ∈ b'.stmts 0 ∧ Denotes b'.toModel k q ∧ Denotes c.toModel (fullName path q) p :=
    fun s p d => ⟨key h (s d) p, key h.symm (s d) p⟩
  refine ⟨fun p d => ?_, fun p d => ?_, ?_⟩
  · rw [a1, b1]; exact key' (fun d k => .designVar k d) p d
  · rw [a2, b2]; exact key' (fun d k => .constraint k d) p d
  · apply Option.ext
    rintro ⟨p, d⟩
    rw [a3, b3]
    exact key' (fun d k => .objective k d) p d

/-- **C85.** The same for programs that call functions of the standard library: whether the program runs does not depend on how submodels are given, and the programs written with plain operations differ only in how submodels are given, too. -/
theorem C85_library_blocks (b c : LBody K G I) (h : LSameText b c) :
    (∀ b', b.typed [] = .ok b' → ∃ c', c.typed [] = .ok c' ∧ XSameText b' c') ∧
    ∀ pre pre' : List (PObj K (Fun (LOp K) G I)), (∀ b', b.typed [] = .ok b' → XPlainAfter pre.length b') → (∀ c', c.typed [] = .ok c' → XPlainAfter pre'.length c') →
      ((∃ objs root, lrunFrom pre b = .ok (objs, root)) ↔ ∃ objs root, lrunFrom pre' c = .ok (objs, root)) := by
  refine ⟨fun b' hb => h.typed [] b' hb, fun pre pre' hp hp' => ?_⟩
  constructor
  · rintro ⟨objs, root, hr⟩
    obtain ⟨b', hb, hx⟩ := (C83_library_programs pre b _).1 hr
    obtain ⟨c', hc, hs⟩ := h.typed [] b' hb
    obtain ⟨objs', root', hr'⟩ := (C85_blocks_run_iff b' c' hs pre pre' (hp b' hb) (hp' c' hc)).1 ⟨objs, root, hx⟩
    exact ⟨objs', root', (C83_library_programs pre' c _).2 ⟨c', hc, hr'⟩⟩
  · rintro ⟨objs, root, hr⟩
    obtain ⟨c', hc, hx⟩ := (C83_library_programs pre' c _).1 hr
    obtain ⟨b', hb, hs⟩ := h.symm.typed [] c' hc
    obtain ⟨objs', root', hr'⟩ := (C85_blocks_run_iff b' c' hs.symm pre pre' (hp b' hb) (hp' c' hc)).2 ⟨objs, root, hx⟩
    exact ⟨objs', root', (C83_library_programs pre b _).2 ⟨b', hb, hr'⟩⟩

/-! ### Example -/

/-- `a = create_input('a')`, then the submodel `s` (in a block, if `i`), then an implicit operation, a custom operation and declarations -/
def exBlk (i : Bool) : XBody ℚ Unit Nat Unit :=
  .stmt (.plain (.input "a".toList [1] (fun _ => 1))) (.add i "s".toList (some []) exXSub (.stmt (.implicit () exImp 9 exFac ["p".toList] [0])
    (.stmt (.custom 0 [.input "y".toList (.tuple [1]) (.number 1), .output "o".toList (.tuple [1]) (.number 1)] [1] ["t".toList]) (.stmt (.designVar "a".toList 5) (.stmt (.objective "p".toList 7) .done)))))

theorem exXSub_same : XSameText exXSub exXSub := .stmt _ (.stmt _ (.stmt _ .done))

theorem exBlk_same (i j : Bool) : XSameText (exBlk i) (exBlk j) := .stmt _ (.add i j _ _ exXSub_same (.stmt _ (.stmt _ (.stmt _ (.stmt _ .done)))))

theorem exBlk_at {i : Bool} {path : List Name} {b' : XBody ℚ Unit Nat Unit} (h : XAt (exBlk i) path b') : (path = [] ∧ b' = exBlk i) ∨ (path = ["s".toList] ∧ b' = exXSub) := by
  cases h with
  | here => exact .inl ⟨rfl, rfl⟩
  | @down _ n p sub path b' h1 h2 =>
    simp only [exBlk, XBody.subs, List.mem_singleton, Prod.mk.injEq] at h1
    obtain ⟨rfl, rfl, rfl⟩ := h1
    cases h2 with
    | here => exact .inr ⟨rfl, rfl⟩
    | down h3 _ => simp [exXSub, XBody.subs] at h3

theorem exBlk_plain (i : Bool) : XPlainAfter 0 (exBlk i) := by
  refine (exBlk_same false i).plainAfter ⟨by decide +kernel, fun path b' n s hb hs => ?_⟩
  have h1 : ∀ y ∈ (exBlk false).stmts 0, ∀ name ∈ y.2.names y.1, ¬ AutoLike name := by decide +kernel
  have h2 : ∀ y ∈ exXSub.stmts 0, ∀ name ∈ y.2.names y.1, ¬ AutoLike name := by decide +kernel
  rcases exBlk_at hb with ⟨_, rfl⟩ | ⟨_, rfl⟩
  · exact h1 _ hs
  · exact h2 _ hs

theorem exBlk_good : GoodNames ((exBlk false).low 0) := by
  constructor <;> intro path c hc <;> obtain ⟨b', h, rfl⟩ := bat_low hc <;> rcases exBlk_at h with ⟨_, rfl⟩ | ⟨_, rfl⟩ <;> decide +kernel

theorem exBlk_noChain : NoChain ((exBlk false).low 0).toModel := by
  have hiss : issuedPost Local.connections ((exBlk false).low 0).toModel = [] := by decide +kernel
  constructor
  · intro i hi
    rw [hiss] at hi
    cases hi
  · rw [hiss]; exact .nil

/-- both programs run; with the block, the objects of `s` (`b`, the operation, `u`) come right after `a`, so the numbers of the objects differ -/
theorem exBlk_run : ∃ objs root rep objs' root' rep', xrunProgram (exBlk false) = .ok (objs, root) ∧ xrunProgram (exBlk true) = .ok (objs', root') ∧
    objs.map (·.obj.name) ≠ objs'.map (·.obj.name) ∧ objs.length = 10 ∧ objs'.length = 10 ∧ compile (xobjects objs) 20 id root = .ok rep ∧ compile (xobjects objs') 20 id root' = .ok rep' := by
  obtain ⟨⟨objs, root⟩, h1, h⟩ := ok_of_check (x := xrunProgram (exBlk false)) (P := fun q => okCheck (compile (xobjects q.1) 20 id q.2) fun _ => okCheck (xrunProgram (exBlk true)) fun q' =>
    decide (q.1.map (·.obj.name) ≠ q'.1.map (·.obj.name) ∧ q.1.length = 10 ∧ q'.1.length = 10) && okCheck (compile (xobjects q'.1) 20 id q'.2) fun _ => true) (by decide +kernel)
  obtain ⟨rep, h2, h⟩ := ok_of_check h
  obtain ⟨⟨objs', root'⟩, h3, h⟩ := ok_of_check h
  rw [Bool.and_eq_true] at h
  obtain ⟨rep', h4, _⟩ := ok_of_check h.2
  obtain ⟨k1, k2, k3⟩ := of_decide_eq_true h.1
  exact ⟨objs, root, rep, objs', root', rep', h1, h3, k1, k2, k3, h2, h4⟩

/-- C85 applies: `t` of the main model and `u` of the submodel get the same values in both programs -/
example : ∃ (rep rep' : Csdl.Rep) (objs objs' : List (PObj ℚ (Fun Unit Nat Unit))) (f f' : Nat → Nat) (node node' : List Name → Nat → Nat), ∀ (P : Power ℚ) (den : Fun Unit Nat Unit → List (Val ℚ) → Nat → Val ℚ) (σ0 σ0' : Env (Val ℚ)),
    (∀ path x, GivenVar ((exBlk false).low 0) path x → σ0 (node path x) = σ0' (node' path x)) → ∀ q ∈ ([([], 3), (["s".toList], 1)] : List (List Name × Nat)),
    execAll rep.graph ⟨fun i => decide ((xobjects objs i).kind = .op), fun i => (xobjects objs i).deps.map f, opMeaning P den objs⟩ σ0 rep.sorted (node q.1 q.2) =
    execAll rep'.graph ⟨fun i => decide ((xobjects objs' i).kind = .op), fun i => (xobjects objs' i).deps.map f', opMeaning P den objs'⟩ σ0' rep'.sorted (node' q.1 q.2) := by
  obtain ⟨objs, root, rep, objs', root', rep', h1, h2, _, h3, h4, h5, h6⟩ := exBlk_run
  have hf : ∀ i path b', XAt (exBlk i) path b' → (b'.locals.outputs ++ b'.locals.declared).length + 10 ≤ 20 := by
    intro i path b' h
    rcases exBlk_at h with ⟨_, rfl⟩ | ⟨_, rfl⟩
    · cases i <;> decide +kernel
    · decide +kernel
  obtain ⟨f, f', node, node', _, _, h⟩ := C85_blocks_same_values (exBlk false) (exBlk true) (exBlk_same _ _) exBlk_good exBlk_noChain [] objs root h1 objs List.prefix_rfl
    (runFrom_closed (by simp [Closed]) (xrunFrom_low h1).1) (by rw [h3]; decide) [] objs' root' h2 objs' List.prefix_rfl (runFrom_closed (by simp [Closed]) (xrunFrom_low h2).1) (by rw [h4]; decide) 20 20
    (by rw [h3]; exact hf false) (by rw [h4]; exact hf true) id id (fun _ _ => Iff.rfl) (fun _ _ => Iff.rfl) rep rep' h5 h6
  refine ⟨rep, rep', objs, objs', f, f', node, node', fun P den σ0 σ0' hσ q hq => ?_⟩
  have hs : XAt (exBlk false) ["s".toList] exXSub := .down (p := some []) (by simp [exBlk, XBody.subs]) (.here _)
  have live1 : ((exBlk false).low 0).Live 3 := (C80_custom_operations (exBlk false) ⟨by simpa using (exBlk_plain false).size, (exBlk_plain false).names⟩ objs root h1 [] _ (.here _) 3 0 _ [1] ["t".toList] (by
    simp only [exBlk, XBody.stmts, List.mem_cons]; right; right; left; rfl)).2 0 _ rfl |>.2.1
  have live2 : (exXSub.low 0).Live 1 := (C80_custom_operations (exBlk false) ⟨by simpa using (exBlk_plain false).size, (exBlk_plain false).names⟩ objs root h1 _ exXSub hs 1 1 _ [0] ["u".toList] (by
    simp only [exXSub, XBody.stmts, List.mem_cons]; right; left; rfl)).2 0 _ rfl |>.2.1
  simp only [List.mem_cons, List.not_mem_nil, or_false] at hq
  rcases hq with rfl | rfl
  · exact h P den σ0 σ0' hσ [] _ (.here _) 3 live1
  · exact h P den σ0 σ0' hσ _ _ hs 1 live2

/-- the declarations, too -/
example : ∃ objs root rep, xrunProgram (exBlk true) = .ok (objs, root) ∧ compile (xobjects objs) 20 id root = .ok rep ∧ rep.designVars = [("a".toList, 5), ("s.b".toList, 4)] ∧ rep.objective = some ("p".toList, 7) := by
  obtain ⟨⟨objs, root⟩, h1, h⟩ := ok_of_check (x := xrunProgram (exBlk true)) (P := fun q => okCheck (compile (xobjects q.1) 20 id q.2) fun rep => decide (rep.designVars = [("a".toList, 5), ("s.b".toList, 4)] ∧
    rep.objective = some ("p".toList, 7))) (by decide +kernel)
  obtain ⟨rep, h2, h3⟩ := ok_of_check h
  exact ⟨objs, root, rep, h1, h2, of_decide_eq_true h3⟩

/-- `x = create_input('x', shape=(2,))`, then the submodel `s` (in a block, if `i`): `y = create_input('y', shape=(3,)); register_output('v', csdl.sum(y))` -/
def exLBlk (i : Bool) : LBody ℚ Unit Unit :=
  .stmt (.base (.plain (.input "x".toList [2] (fun _ => 1)))) (.add i "s".toList (some []) (.stmt (.base (.plain (.input "y".toList [3] (fun _ => 1)))) (.stmt (.call (.sum .none) [0]) (.stmt (.base (.plain (.register "v".toList 1))) .done))) .done)

/-- C85 for library programs applies -/
example : LSameText (exLBlk false) (exLBlk true) ∧ (∃ objs root, lrunFrom [] (exLBlk true) = .ok (objs, root)) ∧ ∃ objs root, lrunFrom [] (exLBlk false) = .ok (objs, root) :=
  ⟨.stmt _ (.add _ _ _ _ (.stmt _ (.stmt _ (.stmt _ .done))) .done),
    (ok_of_check (x := lrunFrom [] (exLBlk true)) (P := fun _ => true) (by decide +kernel)).elim fun q h => ⟨q.1, q.2, h.1⟩,
    (ok_of_check (x := lrunFrom [] (exLBlk false)) (P := fun _ => true) (by decide +kernel)).elim fun q h => ⟨q.1, q.2, h.1⟩⟩

end Csdl.Prog
