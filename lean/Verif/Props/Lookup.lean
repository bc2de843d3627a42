import Verif.Spec.Lookup
import Verif.Props.Defaults
/-!
# C87: finding variables by name in the representation
-/
namespace Csdl

/-- following the connections ends at one node at most -/
theorem Leads.unique {done : Dict Nat Nat} {t v w : Nat} (h : Leads done t v) : Leads done t w → v = w := by
  induction h with
  | stop h =>
    intro h'
    cases h' with
    | stop => rfl
    | step h1 _ => rw [h] at h1; cases h1
  | step h _ ih =>
    intro h'
    cases h' with
    | stop h1 => rw [h] at h1; cases h1
    | step h1 h2 => rw [h] at h1; cases h1; exact ih h2

namespace Prog
open Csdl Csdl.Arith
variable {K F : Type} [Field K] [DecidableEq K]

theorem lookup_in_session (pre : List (PObj K F)) (b : Body K F) (hg : GoodNames b) (hno : NoChain b.toModel) (done : List (PObj K F)) (root : OModel) (hr : runFrom pre b = .ok (done, root))
    (objs : List (PObj K F)) (hpre : done <+: objs) (hcl : Closed objs) (hn : objs.length ≤ 63 ^ 4) (fuel : Nat) (hf : ∀ path b', BAt b path b' → (b'.locals.outputs ++ b'.locals.declared).length + objs.length ≤ fuel)
    (order : List Nat → List Nat) (ho : ∀ l x, x ∈ order l ↔ x ∈ l) (rep : Csdl.Rep) (hc : compile (objects objs) fuel order root = .ok rep) :
    ∃ (f : Nat → Nat) (node : List Name → Nat → Nat),
      (∀ path b', BAt b path b' → ∀ x, b'.Live x → node path x ∈ rep.graph.nodes ∧ (objects objs (node path x)).kind = .var) ∧
      (∀ path x p, HasName b path x p → ∃ t, rep.maps.p2n.get? p = some t ∧ Leads rep.done t (node path x) ∧
        ∀ path' k w, PromotedAs b.toModel path' k w p → rep.maps.u2n.get? (fullName path' w.name) = some t) ∧
      (∀ n t, rep.maps.p2n.get? n = some t → ∃ path x, HasName b path x n) ∧
      (∀ n t, rep.maps.u2n.get? n = some t → ∃ path k w p path' x, PromotedAs b.toModel path k w p ∧ n = fullName path w.name ∧ HasName b path' x p) ∧
      ∀ (P : Power K) (den : F → List (Val K) → Nat → Val K) (σ0 : Env (Val K)),
        let σ := execAll rep.graph ⟨fun i => decide ((objects objs i).kind = .op), fun i => (objects objs i).deps.map f, opMeaning P den objs⟩ σ0 rep.sorted
        Solution P den b (fun path x => σ (node path x)) ∧ (∀ path x, GivenVar b path x → σ (node path x) = σ0 (node path x)) ∧
        ∀ path x p n, HasName b path x p → Denotes b.toModel n p → ∀ v, ValueByName rep.maps rep.done σ n v ↔ v = σ (node path x) := by
  obtain ⟨Ls, f, node, u, hk, rfl, f1, f2, h1, h2, h3⟩ := means_kept pre b hg hno done root hr objs hpre hcl hn fuel hf order ho rep hc
  have hnames : root.toModel (objects objs) = b.toModel := u.hier.names
  have e1 : ∀ path x p, HasName b path x p → ∃ t, rep.maps.p2n.get? p = some t ∧ Leads rep.done t (f (objOf Ls path x)) ∧
        ∀ path' k w, PromotedAs b.toModel path' k w p → rep.maps.u2n.get? (fullName path' w.name) = some t := by
    intro path x p hp
    obtain ⟨t, t1, t2, t3⟩ := hk.found _ p (u.rep_of_hasName hp).2
    exact ⟨t, t1, t2, by rw [← hnames]; exact t3⟩
  have e2 : ∀ n t, rep.maps.p2n.get? n = some t → ∃ path x, HasName b path x n := by
    intro n t h
    obtain ⟨path, x, _, h⟩ := u.hasName_of_named (hk.foundP n t h)
    exact ⟨path, x, h⟩
  refine ⟨f, fun path x => f (objOf Ls path x), h1, e1, e2, ?_, ?_⟩
  · intro n t h
    obtain ⟨path, k, w, p, h1, h2, h3⟩ := hk.foundU n t h
    obtain ⟨path', x, _, h⟩ := u.hasName_of_named h3
    exact ⟨path, k, w, p, path', x, by rw [← hnames]; exact h1, h2, h⟩
  · intro P den σ0
    obtain ⟨s1, s2, _⟩ := h3 P den σ0
    refine ⟨s1, s2, fun path x p n hp hd v => ?_⟩
    obtain ⟨r, g, kids, hres, _⟩ := compile_ok hc
    rw [hnames] at hres
    have hdf : DotFree b.toModel := hnames ▸ u.ok.dotFree
    obtain ⟨t, t1, t2, t3⟩ := e1 path x p hp
    have hfind : findNode rep.maps n = .ok t := by
      unfold findNode
      cases hd with
      | promoted hw => rw [t1]
      | full hw =>
        rename_i path' k w
        cases hg : rep.maps.p2n.get? (fullName path' w.name) with
        | none => dsimp only; rw [t3 path' k w hw]
        | some t' =>
          obtain ⟨path2, x2, hp2⟩ := e2 _ t' hg
          have hp2' := hp2
          obtain ⟨_, _, k2, w2, _, _, _, hw2, _⟩ := hp2
          have := C09_denotation_unique b.toModel hdf r hres _ _ _ (Denotes.promoted hw2) (Denotes.full hw)
          rw [this] at hg
          rw [t1] at hg
          cases hg; rfl
    constructor
    · rintro ⟨t', v', h5, h6, rfl⟩
      rw [hfind] at h5; cases h5
      exact congrArg _ (t2.unique h6).symm
    · rintro rfl
      exact ⟨t, _, hfind, t2, rfl⟩

/-- **C87.** Let a program run without error and the representation of its main model be built without error, with no connection starting at the target of an earlier one.  Then for every variable of the program that matters and has a promoted name `p`,
the map from promoted names to nodes has an entry for `p`, the map from full names to nodes has the same entry for the full name of every variable with the promoted name `p`, and following the map from targets of connections to their sources from this entry
ends at the node that represents the variable.  Neither map has other names.  So reading a value by promoted or full name gives the value of the variable with this name, in the solution of the program that is found by executing the representation. -/
theorem C87_value_by_name (b : Body K F) (hg : GoodNames b) (hno : NoChain b.toModel) (objs : List (PObj K F)) (root : OModel) (hr : runProgram b = .ok (objs, root)) (hn : objs.length ≤ 63 ^ 4)
    (fuel : Nat) (hf : ∀ path b', BAt b path b' → (b'.locals.outputs ++ b'.locals.declared).length + objs.length ≤ fuel)
    (order : List Nat → List Nat) (ho : ∀ l x, x ∈ order l ↔ x ∈ l) (rep : Csdl.Rep) (hc : compile (objects objs) fuel order root = .ok rep) :
    ∃ (f : Nat → Nat) (node : List Name → Nat → Nat),
      (∀ path b', BAt b path b' → ∀ x, b'.Live x → node path x ∈ rep.graph.nodes ∧ (objects objs (node path x)).kind = .var) ∧
      (∀ path x p, HasName b path x p → ∃ t, rep.maps.p2n.get? p = some t ∧ Leads rep.done t (node path x) ∧
        ∀ path' k w, PromotedAs b.toModel path' k w p → rep.maps.u2n.get? (fullName path' w.name) = some t) ∧
      (∀ n t, rep.maps.p2n.get? n = some t → ∃ path x, HasName b path x n) ∧
      (∀ n t, rep.maps.u2n.get? n = some t → ∃ path k w p path' x, PromotedAs b.toModel path k w p ∧ n = fullName path w.name ∧ HasName b path' x p) ∧
      ∀ (P : Power K) (den : F → List (Val K) → Nat → Val K) (σ0 : Env (Val K)),
        let σ := execAll rep.graph ⟨fun i => decide ((objects objs i).kind = .op), fun i => (objects objs i).deps.map f, opMeaning P den objs⟩ σ0 rep.sorted
        Solution P den b (fun path x => σ (node path x)) ∧ (∀ path x, GivenVar b path x → σ (node path x) = σ0 (node path x)) ∧
        ∀ path x p n, HasName b path x p → Denotes b.toModel n p → ∀ v, ValueByName rep.maps rep.done σ n v ↔ v = σ (node path x) :=
  lookup_in_session [] b hg hno objs root hr objs List.prefix_rfl (runFrom_closed (by simp [Closed]) hr) hn fuel hf order ho rep hc

/-- **C87, in a session, with custom operations, implicit operations and optimisation declarations**, as in `C82`: the maps find the nodes of variables by their names. -/
theorem C87_value_by_name_in_session {F G I : Type} (b : XBody K F G I) (hg : GoodNames (b.low 0)) (hno : NoChain (b.low 0).toModel) (pre done : List (PObj K (Fun F G I))) (root : OModel)
    (hr : xrunFrom pre b = .ok (done, root)) (objs : List (PObj K (Fun F G I))) (hpre : done <+: objs) (hcl : Closed objs) (hn : objs.length ≤ 63 ^ 4) (fuel : Nat) (hf : ∀ path b', XAt b path b' → (b'.locals.outputs ++ b'.locals.declared).length + objs.length ≤ fuel)
    (order : List Nat → List Nat) (ho : ∀ l x, x ∈ order l ↔ x ∈ l) (rep : Csdl.Rep) (hc : compile (xobjects objs) fuel order root = .ok rep) :
    ∃ (f : Nat → Nat) (node : List Name → Nat → Nat),
      (∀ path b', XAt b path b' → ∀ x, (b'.low 0).Live x → node path x ∈ rep.graph.nodes ∧ (xobjects objs (node path x)).kind = .var) ∧
      (∀ path x p, HasName (b.low 0) path x p → ∃ t, rep.maps.p2n.get? p = some t ∧ Leads rep.done t (node path x) ∧
        ∀ path' k w, PromotedAs (b.low 0).toModel path' k w p → rep.maps.u2n.get? (fullName path' w.name) = some t) ∧
      (∀ n t, rep.maps.p2n.get? n = some t → ∃ path x, HasName (b.low 0) path x n) ∧
      (∀ n t, rep.maps.u2n.get? n = some t → ∃ path k w p path' x, PromotedAs (b.low 0).toModel path k w p ∧ n = fullName path w.name ∧ HasName (b.low 0) path' x p) ∧
      ∀ (P : Power K) (den : Fun F G I → List (Val K) → Nat → Val K) (σ0 : Env (Val K)),
        let σ := execAll rep.graph ⟨fun i => decide ((xobjects objs i).kind = .op), fun i => (xobjects objs i).deps.map f, opMeaning P den objs⟩ σ0 rep.sorted
        Solution P den (b.low 0) (fun path x => σ (node path x)) ∧ (∀ path x, GivenVar (b.low 0) path x → σ (node path x) = σ0 (node path x)) ∧
        ∀ path x p n, HasName (b.low 0) path x p → Denotes (b.low 0).toModel n p → ∀ v, ValueByName rep.maps rep.done σ n v ↔ v = σ (node path x) := by
  have hf' : ∀ path c, BAt (b.low 0) path c → (c.locals.outputs ++ c.locals.declared).length + objs.length ≤ fuel := by
    intro path c hc
    obtain ⟨b', h1, rfl⟩ := bat_low hc
    exact hf path b' h1
  obtain ⟨rep0, dv, ob, cn, hc0, _, _, _, rfl⟩ := (xcompile hg hr hpre hcl hn hf' ho rep).1 hc
  obtain ⟨f, node, h1, h2⟩ := lookup_in_session pre (b.low 0) hg hno done _ (xrunFrom_low hr).1 objs hpre hcl hn fuel hf' order ho rep0 hc0
  exact ⟨f, node, fun path b' hb => h1 path _ (xat_low hb), h2⟩

/-- `z` of `exZ`, the target of the connection from `x`, is found by its name: the map has its node 1, the map from targets to sources leads to node 0, and the value read is 2, the value of `x` -/
example : ∃ objs root rep, runProgram exZ = .ok (objs, root) ∧ compile (objects objs) 20 id root = .ok rep ∧ rep.maps.p2n.get? "z".toList = some 1 ∧ rep.done.get? 1 = some 0 ∧ HasName exZ [] 1 "z".toList ∧
    ∃ f : Nat → Nat, ∀ (P : Power ℚ) (den : Unit → List (Val ℚ) → Nat → Val ℚ) (v : Val ℚ), ValueByName rep.maps rep.done
      (execAll rep.graph ⟨fun i => decide ((objects objs i).kind = .op), fun i => (objects objs i).deps.map f, opMeaning P den objs⟩ (fun _ _ => 2) rep.sorted) "z".toList v ↔ v = fun _ => 2 := by
  obtain ⟨⟨objs, root⟩, hr, h⟩ := ok_of_check (x := runProgram exZ) (P := fun q => decide (q.1.length = 4) && okCheck (compile (objects q.1) 20 id q.2) fun rep =>
    decide (rep.maps.p2n.get? "z".toList = some 1 ∧ rep.done.get? 1 = some 0)) (by decide +kernel)
  rw [Bool.and_eq_true] at h
  have hl : objs.length = 4 := of_decide_eq_true h.1
  obtain ⟨rep, hc, h⟩ := ok_of_check h.2
  obtain ⟨h4, h5⟩ := of_decide_eq_true h
  have hf : ∀ path b', BAt exZ path b' → (b'.locals.outputs ++ b'.locals.declared).length + objs.length ≤ 20 := by
    intro path b' h
    obtain ⟨_, rfl⟩ := oneModel_at (b := exZ) rfl h
    rw [hl]; decide
  have hz : PromotedAs exZ.toModel [] .source ⟨"z".toList, [1]⟩ "z".toList := .here (v := ⟨"z".toList, [1]⟩) (by decide)
  have hname : HasName exZ [] 1 "z".toList :=
    ⟨exZ, "z".toList, .source, ⟨"z".toList, [1]⟩, .here _, .input (x := 1) (name := "z".toList) (s := [1]) (by simp [exZ, Body.stmts, Stmt.count, inputOf]), Or.inl ⟨[1], Or.inl (by simp [exZ, Body.stmts, Stmt.count, inputOf])⟩, hz, rfl⟩
  obtain ⟨f, node, _, _, _, _, h6⟩ := C87_value_by_name exZ exZ_good exZ_noChain objs root hr (by rw [hl]; decide) 20 hf id (fun _ _ => Iff.rfl) rep hc
  refine ⟨objs, root, rep, hr, hc, h4, h5, hname, f, fun P den v => ?_⟩
  obtain ⟨_, g1, g2⟩ := h6 P den (fun _ _ => 2)
  have := g1 [] 1 exZ_given
  rw [g2 [] 1 "z".toList "z".toList hname (.promoted hz) v, this]

/-- `a = create_input('a'); b = create_input('b'); c = declare_variable('c'); y = c * 2; register_output('y', y); connect('b', 'c'); connect('a', 'b')` -/
def exW : Body ℚ Unit :=
  .stmt (.input "a".toList [1] fun _ => 2) (.stmt (.input "b".toList [1] fun _ => 7) (.stmt (.declare "c".toList [1] none) (.stmt (.expr (.mulc 2 (.num 2))) (.stmt (.register "y".toList 3)
    (.stmt (.connect "b".toList "c".toList) (.stmt (.connect "a".toList "b".toList) .done))))))

/-- **C87, one step is not enough.** With the connections `b` to `c` and then `a` to `b`, the map from targets to sources sends the node of `c` (2) to that of `b` (1), which is not in the graph: only following the map again, to `a` (0), finds the node that represents `c`. -/
theorem C87_one_step_not_enough : ∃ objs root rep, runProgram exW = .ok (objs, root) ∧ compile (objects objs) 20 id root = .ok rep ∧ rep.maps.p2n.get? "c".toList = some 2 ∧ rep.done.get? 2 = some 1 ∧ 1 ∉ rep.graph.nodes ∧
    rep.done.get? 1 = some 0 ∧ rep.done.get? 0 = none ∧ 0 ∈ rep.graph.nodes := by
  obtain ⟨⟨objs, root⟩, hr, h⟩ := ok_of_check (x := runProgram exW) (P := fun q => okCheck (compile (objects q.1) 20 id q.2) fun rep =>
    decide (rep.maps.p2n.get? "c".toList = some 2 ∧ rep.done.get? 2 = some 1 ∧ 1 ∉ rep.graph.nodes ∧ rep.done.get? 1 = some 0 ∧ rep.done.get? 0 = none ∧ 0 ∈ rep.graph.nodes)) (by decide +kernel)
  obtain ⟨rep, hc, h⟩ := ok_of_check h
  exact ⟨objs, root, rep, hr, hc, of_decide_eq_true h⟩

end Prog
end Csdl
