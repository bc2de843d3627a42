import Verif.Proofs.Reorder2
import Verif.Props.Defaults
import Verif.Props.ValidProgram
/-
C91: the places of submodels and connections in the methods of a program do not matter.
-/
namespace Csdl.Prog
open Csdl Csdl.Arith
variable {K F : Type} [Field K] [DecidableEq K]

omit [DecidableEq K] in
/-- **C91 (acceptance).** A program whose submodels and connections are at other places is valid too, if its connections still do not form chains; so it runs and is accepted (C74). -/
theorem C91_valid_partial (b b' : Body K F) (h : Reordered b b') (hno : NoChain b.toModel) (hno' : NoChain b'.toModel) : ValidProgram b ↔ ValidProgram b' := ⟨h.valid hno', h.symm.valid hno⟩

/-- **C91 (values).** If a valid program and the same program with submodels and connections at other places (which do not form chains) are run and compiled, then executing the representations with the same values for the
variables that must be given yields the same values for all variables that matter, whatever the functions mean. -/
theorem C91_values_partial (b b' : Body K F) (hv : ValidProgram b) (hr : Reordered b b') (hno : NoChain b'.toModel) (hs : b.Assigns → b.maxObjects ≤ 63 ^ 4) :
    ∃ objs root objs' root', runProgram b = .ok (objs, root) ∧ runProgram b' = .ok (objs', root') ∧ (objs.length ≤ 63 ^ 4 → objs'.length ≤ 63 ^ 4 →
      ∀ order : List Nat → List Nat, (∀ l x, x ∈ order l ↔ x ∈ l) → ∀ fuel, (∀ path c, BAt b path c → (c.locals.outputs ++ c.locals.declared).length + max objs.length objs'.length ≤ fuel) →
      ∃ rep rep', compile (objects objs) fuel order root = .ok rep ∧ compile (objects objs') fuel order root' = .ok rep' ∧
        ∃ (f f' : Nat → Nat) (node node' : List Name → Nat → Nat), ∀ (P : Power K) (den : F → List (Val K) → Nat → Val K) (σ0 σ0' : Env (Val K)),
          let value := fun path x => execAll rep.graph ⟨fun i => decide ((objects objs i).kind = .op), fun i => (objects objs i).deps.map f, opMeaning P den objs⟩ σ0 rep.sorted (node path x)
          let value' := fun path x => execAll rep'.graph ⟨fun i => decide ((objects objs' i).kind = .op), fun i => (objects objs' i).deps.map f', opMeaning P den objs'⟩ σ0' rep'.sorted (node' path x)
          Solution P den b value ∧ Solution P den b' value' ∧ (∀ path x, GivenVar b path x → value path x = σ0 (node path x) ∧ value' path x = σ0' (node' path x)) ∧
          ((∀ path x, GivenVar b path x → σ0 (node path x) = σ0' (node' path x)) → ∀ path c, BAt b path c → ∀ x, c.Live x → value path x = value' path x)) := by
  have hv' := hr.valid hno hv
  obtain ⟨objs, root, h1, h2⟩ := C74_valid_programs_compute b hv hs
  obtain ⟨objs', root', h1', h2'⟩ := C74_valid_programs_compute b' hv' (fun ha => hr.maxObjects ▸ hs (hr.symm.assigns ha))
  refine ⟨objs, root, objs', root', h1, h1', fun hn hn' order ho fuel hf => ?_⟩
  obtain ⟨rep, hc, f, node, h3⟩ := h2 hn order ho fuel fun path c hc => (Nat.add_le_add_left (Nat.le_max_left ..) _).trans (hf path c hc)
  obtain ⟨rep', hc', f', node', h3'⟩ := h2' hn' order ho fuel fun path c hc => by
    obtain ⟨c', g1, g2⟩ := hr.symm.at hc
    rw [g2.localOutputs, g2.localDeclared]
    exact (Nat.add_le_add_left (Nat.le_max_right ..) _).trans (hf path c' g1)
  refine ⟨rep, rep', hc, hc', f, f', node, node', fun P den σ0 σ0' => ?_⟩
  obtain ⟨s1, s2, s3⟩ := h3 P den σ0
  obtain ⟨t1, t2, _⟩ := h3' P den σ0'
  refine ⟨s1, t1, fun path x hg => ⟨s2 path x hg, t2 path x (hr.given hg)⟩, fun he path c hb x hl => (s3 _ (hr.symm.solution t1) (fun path x hg => ?_) path c hb x hl).symm⟩
  exact (t2 path x (hr.given hg)).trans (he path x hg).symm

omit [Field K] [DecidableEq K] in
theorem Reordered.lastDeclared {b b' : Body K F} (h : Reordered b b') {name : Name} {y : Nat} (hl : b.LastDeclared name y) : b'.LastDeclared name y := fun y' shape val h' => hl y' shape val (h.symm.has rfl h')

omit [Field K] [DecidableEq K] in
theorem Reordered.targetName {b b' : Body K F} (h : Reordered b b') {p : Name} (ht : TargetName b.toModel p) : TargetName b'.toModel p := by
  obtain ⟨path, l, subs, a, c, h1, h2, h3⟩ := ht
  have key : ∀ {m : Model} {path : List Name} {m' : Model}, At m path m' → ∀ {b b' : Body K F}, Reordered b b' → m = b.toModel → ∃ c c', m' = Body.toModel c ∧ At b'.toModel path (Body.toModel c') ∧ Reordered (K := K) (F := F) c c' := by
    intro m path m' hat
    induction hat with
    | here m => intro b b' h e; exact ⟨b, b', e, .here _, h⟩
    | down hs _ ih =>
      intro b b' h e
      cases e
      obtain ⟨sub, g1, g2⟩ := mem_toSubs.1 hs
      obtain ⟨sub', g3, g4⟩ := h.subs _ _ _ g1
      obtain ⟨c, c', e1, e2, e3⟩ := ih g4 g2
      exact ⟨c, c', e1, .down (s := ⟨_, _, sub'.toModel⟩) (mem_toSubs.2 ⟨sub', g3, rfl⟩) e2, e3⟩
  obtain ⟨d, d', e1, e2, e3⟩ := key h1 h rfl
  cases e1
  exact ⟨path, _, _, a, c, e2, e3.connections.mem_iff.1 h2, h.denotes.1 h3⟩

omit [Field K] [DecidableEq K] in
/-- the places of submodels and connections do not influence which values are given for a variable in the program -/
theorem Reordered.defaultOf {b b' : Body K F} (h : Reordered b b') {path : List Name} {x : Nat} {v : Option (Val K)} (hd : DefaultOf b path x v) : DefaultOf b' path x v := by
  cases hd with
  | input h1 h2 h3 h4 =>
    obtain ⟨c, g1, g2⟩ := h.at h1
    exact .input g1 (g2.has rfl h2) (h.sameAll h3) fun p hp ht => h4 p (h.symm.hasName hp) (h.symm.targetName ht)
  | declare h1 h2 h3 h4 h5 h6 =>
    obtain ⟨c, g1, g2⟩ := h.at h1
    refine .declare g1 (g2.has rfl h2) (h.sameAll h3) (g2.lastDeclared h4) (fun path2 b2 z nm s w k1 k2 k3 => ?_) fun path2 b2 z nm s w k1 k2 k3 => ?_
    · obtain ⟨c2, l1, l2⟩ := h.symm.at k1
      exact h5 path2 c2 z nm s w l1 (l2.has rfl k2) (h.symm.sameAll k3)
    · obtain ⟨c2, l1, l2⟩ := h.symm.at k1
      obtain ⟨m1, m2, m3⟩ := h6 path2 c2 z nm s w l1 (l2.has rfl k2) (h.symm.sameAll k3)
      exact ⟨m1, fun e hl => m2 e (l2.lastDeclared hl), m3⟩

/-- **C91 (values given in the program).** If the program gives at most one value for every variable that must be given (by the rules of C86), executing the two representations with the values given in the program yields the
same values for all variables that matter. -/
theorem C91_default_values_partial (b b' : Body K F) (hg : GoodNames b) (hr : Reordered b b') (hno : NoChain b.toModel) (hno' : NoChain b'.toModel)
    (hone : ∀ path x, GivenVar b path x → ∀ v w, DefaultOf b path x v → DefaultOf b path x w → v.getD (fun _ => 1) = w.getD fun _ => 1)
    (objs objs' : List (PObj K F)) (root root' : OModel) (h1 : runProgram b = .ok (objs, root)) (h1' : runProgram b' = .ok (objs', root'))
    (hn : objs.length ≤ 63 ^ 4) (hn' : objs'.length ≤ 63 ^ 4) (fuel : Nat) (hf : ∀ path c, BAt b path c → (c.locals.outputs ++ c.locals.declared).length + max objs.length objs'.length ≤ fuel)
    (order : List Nat → List Nat) (ho : ∀ l x, x ∈ order l ↔ x ∈ l) (rep rep' : Csdl.Rep) (hc : compile (objects objs) fuel order root = .ok rep) (hc' : compile (objects objs') fuel order root' = .ok rep') :
    ∃ (f f' : Nat → Nat) (node node' : List Name → Nat → Nat),
      (∀ path c, BAt b path c → ∀ x, c.Live x → node path x ∈ rep.graph.nodes ∧ node' path x ∈ rep'.graph.nodes) ∧ ∀ (P : Power K) (den : F → List (Val K) → Nat → Val K),
        let value := fun path x => execAll rep.graph ⟨fun i => decide ((objects objs i).kind = .op), fun i => (objects objs i).deps.map f, opMeaning P den objs⟩ (initial objs) rep.sorted (node path x)
        let value' := fun path x => execAll rep'.graph ⟨fun i => decide ((objects objs' i).kind = .op), fun i => (objects objs' i).deps.map f', opMeaning P den objs'⟩ (initial objs') rep'.sorted (node' path x)
        Solution P den b value ∧ (∀ path x, GivenVar b path x → ∃ v, DefaultOf b path x v ∧ value path x = v.getD fun _ => 1) ∧ ∀ path c, BAt b path c → ∀ x, c.Live x → value path x = value' path x := by
  have hf1 : ∀ path c, BAt b path c → (c.locals.outputs ++ c.locals.declared).length + objs.length ≤ fuel := fun path c hc => (Nat.add_le_add_left (Nat.le_max_left ..) _).trans (hf path c hc)
  have hf2 : ∀ path c, BAt b' path c → (c.locals.outputs ++ c.locals.declared).length + objs'.length ≤ fuel := fun path c hc => by
    obtain ⟨c', g1, g2⟩ := hr.symm.at hc
    rw [g2.localOutputs, g2.localDeclared]
    exact (Nat.add_le_add_left (Nat.le_max_right ..) _).trans (hf path c' g1)
  obtain ⟨f, node, n1, d1⟩ := C86_default_values b hg hno objs root h1 hn fuel hf1 order ho rep hc
  obtain ⟨f', node', n2, d2⟩ := C86_default_values b' (hr.goodNames hg) hno' objs' root' h1' hn' fuel hf2 order ho rep' hc'
  refine ⟨f, f', node, node', fun path c hb x hl => ?_, fun P den => ?_⟩
  · obtain ⟨c', g1, g2⟩ := hr.at hb
    exact ⟨(n1 path c hb x hl).1, (n2 path c' g1 x (g2.live hl)).1⟩
  · obtain ⟨s1, s2, _, s4⟩ := d1 P den
    obtain ⟨t1, t2, _, _⟩ := d2 P den
    refine ⟨s1, s2, fun path c hb x hl => (s4 _ (hr.symm.solution t1) (fun path x hgv => ?_) path c hb x hl).symm⟩
    obtain ⟨v, v1, v2⟩ := s2 path x hgv
    obtain ⟨w, w1, w2⟩ := t2 path x (hr.given hgv)
    exact w2.trans ((hone path x hgv w v (hr.symm.defaultOf w1) v1).trans v2.symm)

/-! ### Example: the program of C73, with the submodel first (in a `create_submodel` block) and the connection last -/

/-- `with create_submodel('m', promotes=['c']): ...; x = create_input('x'); q = x * x; p = +q; register_output('s', p); c = declare_variable('c'); t = c + x; register_output('t', t); connect('s', 'm.a')` -/
def exMoved : Body ℚ Unit :=
  .add true "m".toList (some ["c".toList]) exSub (.stmt (.input "x".toList [1] (fun _ => 1)) (.stmt (.expr (.mul 0 0)) (.stmt (.expr (.pos 1)) (.stmt (.register "s".toList 2)
    (.stmt (.declare "c".toList [1] none) (.stmt (.expr (.add 3 0)) (.stmt (.register "t".toList 4) (.stmt (.connect "s".toList "m.a".toList) .done))))))))

theorem exMoved_reordered : Reordered exMain exMoved := by
  unfold exMain exMoved
  have conn : ∀ (s1 s2 s3 : Stmt ℚ Unit), Reordered (.stmt (.connect "s".toList "m.a".toList) (.stmt s1 (.stmt s2 (.stmt s3 .done)))) (.stmt s1 (.stmt s2 (.stmt s3 (.stmt (.connect "s".toList "m.a".toList) .done)))) :=
    fun s1 s2 s3 => .trans (.connectLater ..) (.stmt _ (.trans (.connectLater ..) (.stmt _ (.connectLater ..))))
  have sub : ∀ (s1 s2 s3 s4 : Stmt ℚ Unit) (r : Body ℚ Unit), Reordered (.stmt s1 (.stmt s2 (.stmt s3 (.stmt s4 (.add false "m".toList (some ["c".toList]) exSub r)))))
      (.add true "m".toList (some ["c".toList]) exSub (.stmt s1 (.stmt s2 (.stmt s3 (.stmt s4 r))))) := fun s1 s2 s3 s4 r =>
    .trans (.stmt _ (.trans (.stmt _ (.trans (.stmt _ (.addEarlier ..)) (.addEarlier ..))) (.addEarlier ..))) (.trans (.addEarlier ..) (.add _ _ _ _ (.refl _) (.refl _)))
  refine .trans (.stmt _ (.stmt _ (.stmt _ (.stmt _ (.trans (.addEarlier ..) (.add _ _ _ _ (.refl _) (conn _ _ _))))))) (sub _ _ _ _ _)

omit [Field K] [DecidableEq K] in
/-- connections that are collected in the same order form no chains either -/
theorem Reordered.noChain {b b' : Body K F} (h : Reordered b b') (e : issuedPost Local.connections b.toModel = issuedPost Local.connections b'.toModel) (hno : NoChain b.toModel) : NoChain b'.toModel := by
  obtain ⟨h1, h2⟩ := hno
  rw [e] at h1 h2
  exact ⟨fun i hi p g1 g2 => h1 i hi p (h.denotes.2 g1) (h.denotes.2 g2), h2.imp fun hij p g1 g2 => hij p (h.denotes.2 g1) (h.denotes.2 g2)⟩

theorem exMoved_noChain : NoChain exMoved.toModel := exMoved_reordered.noChain (by decide) exMain_noChain

/-- the hypotheses hold of the example: with the same values for `x`, the value of `t` is the same -/
example : ∃ objs root objs' root' rep rep', runProgram exMain = .ok (objs, root) ∧ runProgram exMoved = .ok (objs', root') ∧ compile (objects objs) 20 id root = .ok rep ∧ compile (objects objs') 20 id root' = .ok rep' ∧
    ∃ (f f' : Nat → Nat) (node node' : List Name → Nat → Nat), ∀ (P : Power ℚ) (den : Unit → List (Val ℚ) → Nat → Val ℚ) (σ0 σ0' : Env (Val ℚ)), (∀ path x, GivenVar exMain path x → σ0 (node path x) = σ0' (node' path x)) →
      execAll rep.graph ⟨fun i => decide ((objects objs i).kind = .op), fun i => (objects objs i).deps.map f, opMeaning P den objs⟩ σ0 rep.sorted (node [] 4) =
        execAll rep'.graph ⟨fun i => decide ((objects objs' i).kind = .op), fun i => (objects objs' i).deps.map f', opMeaning P den objs'⟩ σ0' rep'.sorted (node' [] 4) := by
  obtain ⟨objs, root, objs', root', h1, h1', h2⟩ := C91_values_partial exMain exMoved exMain_valid exMoved_reordered exMoved_noChain fun h => absurd h exMain_plain
  obtain ⟨⟨os, rt⟩, r1, r2⟩ := ok_of_check (x := runProgram exMain) (P := fun q => decide (q.1.length = 12)) (by decide +kernel)
  obtain ⟨⟨os', rt'⟩, r1', r2'⟩ := ok_of_check (x := runProgram exMoved) (P := fun q => decide (q.1.length = 12)) (by decide +kernel)
  rw [r1] at h1
  rw [r1'] at h1'
  cases h1
  cases h1'
  have l1 := of_decide_eq_true r2
  have l2 := of_decide_eq_true r2'
  dsimp only at l1 l2
  obtain ⟨rep, rep', c1, c2, f, f', node, node', h3⟩ := h2 (by rw [l1]; decide) (by rw [l2]; decide) id (fun _ _ => Iff.rfl) 20 (by
    intro path b' h
    rw [l1, l2]
    rcases exMain_at h with ⟨_, rfl⟩ | ⟨_, rfl⟩ <;> decide)
  refine ⟨_, _, _, _, rep, rep', r1, r1', c1, c2, f, f', node, node', fun P den σ0 σ0' he => ?_⟩
  exact (h3 P den σ0 σ0').2.2.2 he [] exMain (.here _) 4 (.output (name := "t".toList) (by decide))

/-- so do those of `C91_default_values_partial`: all values given in the example are 1 -/
theorem exMain_default {path : List Name} {x : Nat} {v : Option (Val ℚ)} (h : DefaultOf exMain path x v) : v.getD (fun _ => 1) = fun _ => 1 := by
  cases h with
  | input h1 h2 _ _ =>
    unfold Body.Has at h2
    rcases exMain_at h1 with ⟨_, rfl⟩ | ⟨_, rfl⟩
    · rw [exMain_stmts] at h2
      simp only [List.mem_cons, Prod.mk.injEq, Stmt.input.injEq, reduceCtorEq, and_false, List.not_mem_nil, or_false] at h2
      obtain ⟨_, _, _, rfl⟩ := h2
      rfl
    · rw [exSub_stmts] at h2
      simp at h2
  | declare h1 h2 _ _ _ _ =>
    unfold Body.Has at h2
    rcases exMain_at h1 with ⟨_, rfl⟩ | ⟨_, rfl⟩
    · rw [exMain_stmts] at h2
      simp only [List.mem_cons, Prod.mk.injEq, Stmt.declare.injEq, reduceCtorEq, and_false, List.not_mem_nil, or_false, false_or] at h2
      obtain ⟨_, _, _, rfl⟩ := h2
      rfl
    · rw [exSub_stmts] at h2
      simp only [List.mem_cons, Prod.mk.injEq, Stmt.declare.injEq, reduceCtorEq, and_false, List.not_mem_nil, or_false] at h2
      obtain ⟨_, _, _, rfl⟩ := h2
      rfl

example : ∃ objs root objs' root' rep rep', runProgram exMain = .ok (objs, root) ∧ runProgram exMoved = .ok (objs', root') ∧ compile (objects objs) 20 id root = .ok rep ∧ compile (objects objs') 20 id root' = .ok rep' ∧
    ∃ (f f' : Nat → Nat) (node node' : List Name → Nat → Nat), ∀ (P : Power ℚ) (den : Unit → List (Val ℚ) → Nat → Val ℚ),
      execAll rep.graph ⟨fun i => decide ((objects objs i).kind = .op), fun i => (objects objs i).deps.map f, opMeaning P den objs⟩ (initial objs) rep.sorted (node [] 4) =
        execAll rep'.graph ⟨fun i => decide ((objects objs' i).kind = .op), fun i => (objects objs' i).deps.map f', opMeaning P den objs'⟩ (initial objs') rep'.sorted (node' [] 4) := by
  obtain ⟨⟨objs, root⟩, h1, h⟩ := ok_of_check (x := runProgram exMain) (P := fun q => decide (q.1.length = 12) && okCheck (compile (objects q.1) 20 id q.2) fun _ => true) (by decide +kernel)
  obtain ⟨⟨objs', root'⟩, h1', h'⟩ := ok_of_check (x := runProgram exMoved) (P := fun q => decide (q.1.length = 12) && okCheck (compile (objects q.1) 20 id q.2) fun _ => true) (by decide +kernel)
  rw [Bool.and_eq_true] at h h'
  obtain ⟨rep, h2, _⟩ := ok_of_check h.2
  obtain ⟨rep', h2', _⟩ := ok_of_check h'.2
  have l1 := of_decide_eq_true h.1
  have l2 := of_decide_eq_true h'.1
  dsimp only at l1 l2
  obtain ⟨f, f', node, node', _, h3⟩ := C91_default_values_partial exMain exMoved exMain_good exMoved_reordered exMain_noChain exMoved_noChain (fun _ _ _ v w hv hw => (exMain_default hv).trans (exMain_default hw).symm)
    objs objs' root root' h1 h1' (by rw [l1]; decide) (by rw [l2]; decide) 20 (by
      intro path b' h
      rw [l1, l2]
      rcases exMain_at h with ⟨_, rfl⟩ | ⟨_, rfl⟩ <;> decide) id (fun _ _ => Iff.rfl) rep rep' h2 h2'
  exact ⟨objs, root, objs', root', rep, rep', h1, h1', h2, h2', f, f', node, node', fun P den => (h3 P den).2.2 [] exMain (.here _) 4 (.output (name := "t".toList) (by decide))⟩

/-! ### The order does matter for chains of connections, and for values given twice -/

/-- `x = create_input('x', val=1); y = create_input('y', val=2); z = declare_variable('z'); r = z * 2; register_output('r', r); connect('y', 'z'); connect('x', 'y')` -/
def exChainA : Body ℚ Unit :=
  .stmt (.input "x".toList [1] fun _ => 1) <| .stmt (.input "y".toList [1] fun _ => 2) <| .stmt (.declare "z".toList [1] none) <| .stmt (.expr (.mulc 2 (.num 2))) <| .stmt (.register "r".toList 3) <|
  .stmt (.connect "y".toList "z".toList) <| .stmt (.connect "x".toList "y".toList) .done

/-- the same with the two connections exchanged -/
def exChainB : Body ℚ Unit :=
  .stmt (.input "x".toList [1] fun _ => 1) <| .stmt (.input "y".toList [1] fun _ => 2) <| .stmt (.declare "z".toList [1] none) <| .stmt (.expr (.mulc 2 (.num 2))) <| .stmt (.register "r".toList 3) <|
  .stmt (.connect "x".toList "y".toList) <| .stmt (.connect "y".toList "z".toList) .done

/-- **C91, refutation of the full statement.** If the source of a connection is the target of another one, the order of the two connections matters: the two programs are accepted without error, but the operation
computing `r` (object 3) reads the value of `x` in the first one and the value of `y` in the second one. -/
theorem C91_order_of_connections_matters : Reordered exChainA exChainB ∧ ∃ objs root rep objs' root' rep', runProgram exChainA = .ok (objs, root) ∧ compile (objects objs) 20 id root = .ok rep ∧
    runProgram exChainB = .ok (objs', root') ∧ compile (objects objs') 20 id root' = .ok rep' ∧
    ((objects objs 0).name = "x".toList ∧ (objects objs 3).kind = .op ∧ (objects objs 3).outs = [4] ∧ (objects objs 4).name = "r".toList ∧ ∀ i, rep.graph.Edge i 3 ↔ i = 0) ∧
    (objects objs' 1).name = "y".toList ∧ (objects objs' 3).kind = .op ∧ (objects objs' 3).outs = [4] ∧ (objects objs' 4).name = "r".toList ∧ ∀ i, rep'.graph.Edge i 3 ↔ i = 1 := by
  refine ⟨.stmt _ (.stmt _ (.stmt _ (.stmt _ (.stmt _ (.connectLater ..))))), ?_⟩
  obtain ⟨⟨objs, root⟩, h1, h2⟩ := ok_of_check (x := runProgram exChainA) (P := fun q => okCheck (compile (objects q.1) 20 id q.2) fun rep => decide ((objects q.1 0).name = "x".toList ∧
      (objects q.1 3).kind = .op ∧ (objects q.1 3).outs = [4] ∧ (objects q.1 4).name = "r".toList ∧ rep.graph.edges = [(3, 4), (0, 3)])) (by decide +kernel)
  obtain ⟨rep, h3, h4⟩ := ok_of_check h2
  obtain ⟨⟨objs', root'⟩, k1, k2⟩ := ok_of_check (x := runProgram exChainB) (P := fun q => okCheck (compile (objects q.1) 20 id q.2) fun rep => decide ((objects q.1 1).name = "y".toList ∧
      (objects q.1 3).kind = .op ∧ (objects q.1 3).outs = [4] ∧ (objects q.1 4).name = "r".toList ∧ rep.graph.edges = [(3, 4), (1, 3)])) (by decide +kernel)
  obtain ⟨rep', k3, k4⟩ := ok_of_check k2
  obtain ⟨e1, e2, e3, e4, e5⟩ := of_decide_eq_true h4
  obtain ⟨d1, d2, d3, d4, d5⟩ := of_decide_eq_true k4
  refine ⟨objs, root, rep, objs', root', rep', h1, h3, k1, k3, ⟨e1, e2, e3, e4, fun i => ?_⟩, d1, d2, d3, d4, fun i => ?_⟩
  · unfold Graph.Edge; rw [e5]; simp
  · unfold Graph.Edge; rw [d5]; simp

/-- `def define(self): a = declare_variable('a', val=v); q = a * 3; register_output(name, q)` -/
def exPart (name : Name) (v : ℚ) : Body ℚ Unit := .stmt (.declare "a".toList [1] (some fun _ => v)) (.stmt (.expr (.mulc 0 (.num 3))) (.stmt (.register name 1) .done))

/-- `def define(self): add(sub1, 'm'); add(sub2, 'n')` -/
def exTwoA : Body ℚ Unit := .add false "m".toList none (exPart "p".toList 5) (.add false "n".toList none (exPart "q".toList 7) .done)

/-- `def define(self): add(sub2, 'n'); add(sub1, 'm')` -/
def exTwoB : Body ℚ Unit := .add false "n".toList none (exPart "q".toList 7) (.add false "m".toList none (exPart "p".toList 5) .done)

/-- **C91, where two values are given.** If two submodels give different values for the same variable, the order of the submodels determines the value: the variable `a` has the value 7 in the first program and 5
in the second one. -/
theorem C91_order_of_values_matters : Reordered exTwoA exTwoB ∧ ∃ objs root rep objs' root' rep', runProgram exTwoA = .ok (objs, root) ∧ compile (objects objs) 20 id root = .ok rep ∧
    runProgram exTwoB = .ok (objs', root') ∧ compile (objects objs') 20 id root' = .ok rep' ∧
    (rep.graph.nodes.filter fun i => (objects objs i).name = "a".toList).map (fun i => initial objs i [0]) = [7] ∧
    (rep'.graph.nodes.filter fun i => (objects objs' i).name = "a".toList).map (fun i => initial objs' i [0]) = [5] := by
  refine ⟨.swapAdds .., ?_⟩
  obtain ⟨⟨objs, root⟩, h1, h2⟩ := ok_of_check (x := runProgram exTwoA) (P := fun q => okCheck (compile (objects q.1) 20 id q.2) fun rep =>
      decide ((rep.graph.nodes.filter fun i => (objects q.1 i).name = "a".toList).map (fun i => initial q.1 i [0]) = [7])) (by decide +kernel)
  obtain ⟨rep, h3, h4⟩ := ok_of_check h2
  obtain ⟨⟨objs', root'⟩, k1, k2⟩ := ok_of_check (x := runProgram exTwoB) (P := fun q => okCheck (compile (objects q.1) 20 id q.2) fun rep =>
      decide ((rep.graph.nodes.filter fun i => (objects q.1 i).name = "a".toList).map (fun i => initial q.1 i [0]) = [5])) (by decide +kernel)
  obtain ⟨rep', k3, k4⟩ := ok_of_check k2
  exact ⟨objs, root, rep, objs', root', rep', h1, h3, k1, k3, of_decide_eq_true h4, of_decide_eq_true k4⟩

end Csdl.Prog
