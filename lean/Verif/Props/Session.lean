import Verif.Model.Session
import Verif.Props.ProgramFull
import Mathlib.Algebra.Order.BigOperators.Group.List
/-
C82: programs in one session do not influence each other.
-/
namespace Csdl.Prog
open Csdl Csdl.Arith
variable {K F G I : Type} [Field K] [DecidableEq K]

/-- **C82.** A program adds objects and leaves the objects that existed before as they were; if these refer to objects that exist, so do all after it. -/
theorem C82_objects_untouched (pre objs : List (PObj K (Fun F G I))) (b : XBody K F G I) (root : OModel) (hr : xrunFrom pre b = .ok (objs, root)) : pre <+: objs ∧ (Closed pre → Closed objs) := by
  obtain ⟨Ls, _, h, _⟩ := runFrom_hier (xrunFrom_low hr).1 List.prefix_rfl
  exact ⟨h, fun hp => runFrom_closed hp (xrunFrom_low hr).1⟩

/-- the programs are not too large, all together, and no name in them looks like an automatic one -/
structure SessionPlain (n : Nat) (bs : List (XBody K F G I)) : Prop where
  size : n + (bs.map fun b => (b.low 0).maxObjects).sum ≤ 63 ^ 4
  names : ∀ b ∈ bs, ∀ path b' n s, XAt b path b' → (n, s) ∈ b'.stmts 0 → ∀ name ∈ s.names n, ¬ AutoLike name

omit [DecidableEq K] in
theorem SessionPlain.tail {n m : Nat} {b : XBody K F G I} {bs : List (XBody K F G I)} (h : SessionPlain n (b :: bs)) (hm : m ≤ n + (b.low 0).maxObjects) : SessionPlain m bs := by
  refine ⟨?_, fun b' hb => h.names b' (List.mem_cons_of_mem _ hb)⟩
  have := h.size
  simp only [List.map_cons, List.sum_cons] at this
  omega

omit [DecidableEq K] in
theorem SessionPlain.head {n : Nat} {b : XBody K F G I} {bs : List (XBody K F G I)} (h : SessionPlain n (b :: bs)) : XPlainAfter n b ∧ XPlain b := by
  have := h.size
  simp only [List.map_cons, List.sum_cons] at this
  have hn := h.names b (List.mem_cons_self ..)
  exact ⟨⟨by omega, hn⟩, ⟨by omega, hn⟩⟩

theorem xrunFrom_length {pre : List (PObj K (Fun F G I))} {b : XBody K F G I} {objs : List (PObj K (Fun F G I))} {root : OModel} (h : xrunFrom pre b = .ok (objs, root)) :
    objs.length ≤ pre.length + (b.low 0).maxObjects := runFrom_length (xrunFrom_low h).1

theorem session_iff : ∀ (bs : List (XBody K F G I)) (pre : List (PObj K (Fun F G I))), SessionPlain pre.length bs →
    ((∃ objs roots, runSession pre bs = .ok (objs, roots)) ↔ ∀ b ∈ bs, ∃ objs root, xrunProgram b = .ok (objs, root))
  | [], pre, _ => by simp [runSession]
  | b :: bs, pre, h => by
    obtain ⟨h1, h2⟩ := h.head
    have e1 := C82_programs_run_iff pre b h1
    have e2 := C80_programs_run_iff b h2
    rw [← e2] at e1
    simp only [List.forall_mem_cons]
    rw [← e1, runSession]
    cases hb : xrunFrom pre b with
    | error e => simp
    | ok q =>
      obtain ⟨objs, root⟩ := q
      have ih := session_iff bs objs (h.tail (xrunFrom_length hb))
      rw [← ih]
      simp only
      cases hs : runSession objs bs with
      | error e => simp
      | ok q => exact ⟨fun _ => ⟨⟨_, _, rfl⟩, _, _, rfl⟩, fun _ => ⟨_, _, rfl⟩⟩

/-- **C82.** Programs that are run one after the other in one session run without error exactly if each of them does in a session of its own (if the session creates no more objects than there are short automatic names). -/
theorem C82_session_runs_iff (bs : List (XBody K F G I)) (hp : SessionPlain 0 bs) : (∃ objs roots, runSession [] bs = .ok (objs, roots)) ↔ ∀ b ∈ bs, ∃ objs root, xrunProgram b = .ok (objs, root) :=
  session_iff bs [] hp

/-- the state of the session before and after one of its programs -/
theorem session_at : ∀ (bs : List (XBody K F G I)) (pre objs : List (PObj K (Fun F G I))) (roots : List OModel), runSession pre bs = .ok (objs, roots) → Closed pre → SessionPlain pre.length bs →
    roots.length = bs.length ∧ pre <+: objs ∧ Closed objs ∧ ∀ (i : Nat) b root, bs[i]? = some b → roots[i]? = some root → ∃ before after, XPlainAfter before.length b ∧ xrunFrom before b = .ok (after, root) ∧ after <+: objs
  | [], pre, objs, roots, h, hp, _ => by
    cases h
    exact ⟨rfl, List.prefix_rfl, hp, fun i b root hb => by simp at hb⟩
  | b :: bs, pre, objs, roots, h, hp, hs0 => by
    rw [runSession] at h
    cases hb : xrunFrom pre b with
    | error e => rw [hb] at h; cases h
    | ok q =>
      obtain ⟨objs1, root1⟩ := q
      rw [hb] at h
      simp only at h
      obtain ⟨g1, g2⟩ := C82_objects_untouched pre objs1 b root1 hb
      cases hs : runSession objs1 bs with
      | error e => rw [hs] at h; cases h
      | ok q =>
        obtain ⟨all, roots1⟩ := q
        rw [hs] at h
        cases h
        obtain ⟨a1, a2, a3, a4⟩ := session_at bs objs1 objs roots1 hs (g2 hp) (hs0.tail (xrunFrom_length hb))
        refine ⟨by simp [a1], g1.trans a2, a3, fun i b' root hb' hr' => ?_⟩
        cases i with
        | zero =>
          simp only [List.getElem?_cons_zero, Option.some.injEq] at hb' hr'
          subst hb' hr'
          exact ⟨pre, objs1, hs0.head.1, hb, a2⟩
        | succ i => exact a4 i b' root (by simpa using hb') (by simpa using hr')

/-- **C82.** Programs in one session do not influence each other.  Let programs run one after the other in one session (that creates no more objects than there are short automatic names), let `b` be one of them, with main model `root`,
and let the representation of `root` be built without error at the end of the session; let `b` also be run, and its representation be built, in a session of its own.  Then variables that matter are represented in both by nodes, two by the
same node in one exactly if they are in the other; executing the two representations gives the same values to all variables of `b` that matter, if the initial values of the variables that must be given are the same, for
all meanings of the functions, custom operations and implicit operations; the design variables, constraints and objective are the same. -/
theorem C82_no_interference (bs : List (XBody K F G I)) (hp : SessionPlain 0 bs) (objs : List (PObj K (Fun F G I))) (roots : List OModel) (hr : runSession [] bs = .ok (objs, roots)) (hn : objs.length ≤ 63 ^ 4)
    (i : Nat) (b : XBody K F G I) (root : OModel) (hb : bs[i]? = some b) (hroot : roots[i]? = some root) (hg : GoodNames (b.low 0)) (hno : NoChain (b.low 0).toModel)
    (fuel : Nat) (hf : ∀ path b', XAt b path b' → (b'.locals.outputs ++ b'.locals.declared).length + objs.length ≤ fuel) (order : List Nat → List Nat) (ho : ∀ l x, x ∈ order l ↔ x ∈ l)
    (rep : Csdl.Rep) (hc : compile (xobjects objs) fuel order root = .ok rep)
    (objs' : List (PObj K (Fun F G I))) (root' : OModel) (hr' : xrunProgram b = .ok (objs', root'))
    (fuel' : Nat) (hf' : ∀ path b', XAt b path b' → (b'.locals.outputs ++ b'.locals.declared).length + objs'.length ≤ fuel') (order' : List Nat → List Nat) (ho' : ∀ l x, x ∈ order' l ↔ x ∈ l)
    (rep' : Csdl.Rep) (hc' : compile (xobjects objs') fuel' order' root' = .ok rep') :
    (∃ (f f' : Nat → Nat) (node node' : List Name → Nat → Nat),
      (∀ path b', XAt b path b' → ∀ x, (b'.low 0).Live x → node path x ∈ rep.graph.nodes ∧ node' path x ∈ rep'.graph.nodes) ∧
      (∀ path b' path' b'', XAt b path b' → XAt b path' b'' → ∀ x y, (b'.low 0).Live x → (b''.low 0).Live y → (node path x = node path' y ↔ node' path x = node' path' y)) ∧
      ∀ (P : Power K) (den : Fun F G I → List (Val K) → Nat → Val K) (σ σ' : Env (Val K)), (∀ path x, GivenVar (b.low 0) path x → σ (node path x) = σ' (node' path x)) →
        ∀ path b', XAt b path b' → ∀ x, (b'.low 0).Live x →
          execAll rep.graph ⟨fun i => decide ((xobjects objs i).kind = .op), fun i => (xobjects objs i).deps.map f, opMeaning P den objs⟩ σ rep.sorted (node path x) =
          execAll rep'.graph ⟨fun i => decide ((xobjects objs' i).kind = .op), fun i => (xobjects objs' i).deps.map f', opMeaning P den objs'⟩ σ' rep'.sorted (node' path x)) ∧
    (∀ p d, (p, d) ∈ rep.designVars ↔ (p, d) ∈ rep'.designVars) ∧ (∀ p d, (p, d) ∈ rep.constraints ↔ (p, d) ∈ rep'.constraints) ∧ rep.objective = rep'.objective := by
  obtain ⟨h0, _, hcl, h1⟩ := session_at bs [] objs roots hr (by simp [Closed]) hp
  obtain ⟨pre, done, hpa, h2, h3⟩ := h1 i b root hb hroot
  have hmem : b ∈ bs := List.mem_of_getElem? hb
  have hpl : XPlain b := by
    refine ⟨?_, hp.names b hmem⟩
    have h4 := List.single_le_sum (l := bs.map fun b => (b.low 0).maxObjects) (by simp) _ (List.mem_map_of_mem hmem)
    have := hp.size
    omega
  have hcl' : Closed objs' := (C82_objects_untouched [] objs' b root' hr').2 (by simp [Closed])
  have hn' : objs'.length ≤ 63 ^ 4 := by
    have := xrunFrom_length (pre := []) hr'
    have := hpl.size
    simp only [List.length_nil] at *
    omega
  obtain ⟨f, node, m1, m2, m3⟩ := C82_programs_mean_what_they_say b hg hno pre done root h2 objs h3 hcl hn fuel hf order ho rep hc
  obtain ⟨f', node', k1, k2, k3⟩ := C80_programs_mean_what_they_say b hg hno objs' root' hr' hn' fuel' hf' order' ho' rep' hc'
  refine ⟨⟨f, f', node, node', fun path b' hb x hl => ⟨(m1 path b' hb x hl).1, (k1 path b' hb x hl).1⟩, fun path b' path' b'' hb hb' x y hl hl' => ?_, fun P den σ σ' he path b' hb x hl => ?_⟩, ?_⟩
  · rw [m2 path b' path' b'' hb hb' x y hl hl', k2 path b' path' b'' hb hb' x y hl hl']
  · obtain ⟨a1, a2, a3⟩ := m3 P den σ
    obtain ⟨b1, b2, b3⟩ := k3 P den σ'
    exact b3 _ a1 (fun path x hgv => (a2 path x hgv).trans (he path x hgv)) path b' hb x hl
  · obtain ⟨⟨_, d1⟩, ⟨_, d2⟩, d3⟩ := C82_declarations_exact b hg pre done hpa root h2 objs h3 hcl hn fuel hf order ho rep hc
    obtain ⟨⟨_, e1⟩, ⟨_, e2⟩, e3⟩ := C81_declarations_exact b hpl hg objs' root' hr' hn' fuel' hf' order' ho' rep' hc'
    refine ⟨fun p d => by rw [d1, e1], fun p d => by rw [d2, e2], Option.ext fun q => ?_⟩
    rw [d3 q.1 q.2, e3 q.1 q.2]

/-! ### Example: the program of C80 after another one -/

/-- a program with an input and an output, and the program of C80, in one session -/
def exSession : List (XBody ℚ Unit Nat Unit) := [.stmt (.plain (.input "x".toList [1] (fun _ => 1))) (.stmt (.plain (.expr (.mul 0 0))) (.stmt (.plain (.register "y".toList 1)) .done)), exX]

theorem exSession_plain : SessionPlain 0 exSession := by
  refine ⟨by decide +kernel, ?_⟩
  simp only [exSession, List.forall_mem_cons]
  refine ⟨fun path b' n s hb hs => ?_, exX_plain.names, by simp⟩
  have h1 : ∀ y ∈ (XBody.stmt (.plain (.input "x".toList [1] (fun _ => 1))) (.stmt (.plain (.expr (.mul 0 0))) (.stmt (.plain (.register "y".toList 1)) .done)) : XBody ℚ Unit Nat Unit).stmts 0, ∀ name ∈ y.2.names y.1, ¬ AutoLike name := by
    decide +kernel
  cases hb with
  | here => exact h1 _ hs
  | down h3 _ => simp [XBody.subs] at h3

/-- the hypotheses of C82 are met: the second program of the session; 5 objects exist before it, and 15 after it; its representation is built -/
example : ∃ objs roots root rep objs' root' rep', runSession [] exSession = .ok (objs, roots) ∧ objs.length = 15 ∧ exSession[1]? = some exX ∧ roots[1]? = some root ∧ compile (xobjects objs) 40 id root = .ok rep ∧
    xrunProgram exX = .ok (objs', root') ∧ objs'.length = 10 ∧ compile (xobjects objs') 20 id root' = .ok rep' ∧ rep.sorted ≠ rep'.sorted ∧ rep.designVars = rep'.designVars := by
  obtain ⟨⟨objs, roots⟩, h1, h⟩ := ok_of_check (x := runSession [] exSession) (P := fun q => decide (q.1.length = 15) && (match q.2[1]? with
      | some root => okCheck (compile (xobjects q.1) 40 id root) fun rep => okCheck (xrunProgram exX) fun p => decide (p.1.length = 10) && okCheck (compile (xobjects p.1) 20 id p.2) fun rep' =>
          decide (rep.sorted ≠ rep'.sorted) && decide (rep.designVars = rep'.designVars)
      | none => false)) (by decide +kernel)
  simp only [Bool.and_eq_true, decide_eq_true_eq] at h
  obtain ⟨h2, h⟩ := h
  cases h3 : roots[1]? with
  | none => simp only [h3] at h; cases h
  | some root =>
    simp only [h3] at h
    obtain ⟨rep, h4, h⟩ := ok_of_check h
    obtain ⟨⟨objs', root'⟩, h5, h⟩ := ok_of_check h
    simp only [Bool.and_eq_true, decide_eq_true_eq] at h
    obtain ⟨h6, h⟩ := h
    obtain ⟨rep', h7, h⟩ := ok_of_check h
    simp only [Bool.and_eq_true, decide_eq_true_eq] at h
    exact ⟨objs, roots, root, rep, objs', root', rep', h1, h2, rfl, h3, h4, h5, h6, h7, h.1, h.2⟩

end Csdl.Prog
