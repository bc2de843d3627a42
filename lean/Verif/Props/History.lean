import Verif.Spec.History
import Verif.Props.Optimise
import Verif.Props.MergedSizes
/-
C115: the results of a run depend on the values given last for the variables, not on what was done before.
-/
namespace Csdl.Prog
open Csdl Csdl.Arith
variable {K F : Type} [Field K] [DecidableEq K]

omit [Field K] [DecidableEq K] in
theorem LastGiven.unique {V : Type} {b : Body K F} {start : List Name → Nat → V} {steps : List (SimStep V)} {path : List Name} {x : Nat} {v w : V} (h : LastGiven b start steps path x v) : LastGiven b start steps path x w → v = w := by
  induction h with
  | never => intro h'; cases h'; rfl
  | set h =>
    intro h'
    cases h' with
    | set _ => rfl
    | other h1 _ => exact absurd h h1
  | other h _ ih =>
    intro h'
    cases h' with
    | set h1 => exact absurd h1 h
    | other _ h2 => exact ih h2
  | run _ ih =>
    intro h'
    cases h' with
    | run h2 => exact ih h2

theorem _root_.Csdl.NodeByName.unique {maps : NodeMaps} {done : Dict Nat Nat} {n : Name} {u w : Nat} : NodeByName maps done n u → NodeByName maps done n w → u = w := by
  rintro ⟨t, h1, h2⟩ ⟨t', h3, h4⟩
  rw [h1] at h3; cases h3
  exact h2.unique h4

theorem _root_.Csdl.SimStep.Does.unique {V : Type} {maps : NodeMaps} {done : Dict Nat Nat} {exec : (Nat → V) → Nat → V} {σ σ' σ'' : Nat → V} {s : SimStep V} : s.Does maps done exec σ σ' → s.Does maps done exec σ σ'' → σ' = σ'' := by
  rintro h h'
  cases h with
  | set h1 =>
    cases h' with
    | set h2 => rw [h1.unique h2]
    | unknown h2 => obtain ⟨t, h3, _⟩ := h1; rw [h2] at h3; cases h3
  | unknown h1 =>
    cases h' with
    | set h2 => obtain ⟨t, h3, _⟩ := h2; rw [h1] at h3; cases h3
    | unknown _ => rfl
  | run => cases h'; rfl

theorem history_in_session (pre : List (PObj K F)) (b : Body K F) (hv : ValidProgram b) (hs : b.maxObjects ≤ 63 ^ 4) (done : List (PObj K F)) (root : OModel) (hr : runFrom pre b = .ok (done, root))
    (objs : List (PObj K F)) (hpre : done <+: objs) (hcl : Closed objs) (hn : objs.length ≤ 63 ^ 4) (fuel : Nat) (hf : ∀ path b', BAt b path b' → (b'.locals.outputs ++ b'.locals.declared).length + objs.length ≤ fuel)
    (order : List Nat → List Nat) (ho : ∀ l x, x ∈ order l ↔ x ∈ l) (rep : Csdl.Rep) (hc : compile (objects objs) fuel order root = .ok rep) :
    ∃ (f : Nat → Nat) (node : List Name → Nat → Nat), (∀ path x p n, HasName b path x p → Denotes b.toModel n p → ∀ i, NodeByName rep.maps rep.done n i ↔ i = node path x) ∧
      (∀ n, (∃ e, findNode rep.maps n = .error e) ↔ ∀ path x, ¬ Concerns b n path x) ∧
      ∀ (P : Power K) (den : F → List (Val K) → Nat → Val K) (σ0 : Env (Val K)),
        let exec := fun σ => execAll rep.graph ⟨fun i => decide ((objects objs i).kind = .op), fun i => (objects objs i).deps.map f, opMeaning P den objs⟩ σ rep.sorted
        ∀ steps, ∃ σ, SimHistory rep.maps rep.done exec σ0 steps σ ∧ (∀ σ', SimHistory rep.maps rep.done exec σ0 steps σ' → σ' = σ) ∧
          (∀ path x, GivenVar b path x → LastGiven b (fun path x => σ0 (node path x)) steps path x (σ (node path x))) ∧
          ∀ older, steps = .run :: older → Solution P den b (fun path x => σ (node path x)) ∧
            ∀ ρ, Solution P den b ρ → (∀ path x, GivenVar b path x → LastGiven b (fun path x => σ0 (node path x)) older path x (ρ path x)) → ∀ path c, BAt b path c → ∀ x, c.Live x → ρ path x = σ (node path x) := by
  have R := ready hv hs
  obtain ⟨Ls, f, node, u, hk, rfl, _, _, h1, h2, h3⟩ := means_kept pre b hv.names hv.noChain done root hr objs hpre hcl hn fuel hf order ho rep hc
  have hnames : root.toModel (objects objs) = b.toModel := u.hier.names
  have e1 : ∀ path x p, HasName b path x p → ∃ t, rep.maps.p2n.get? p = some t ∧ Leads rep.done t (f (objOf Ls path x)) ∧
        ∀ path' k w, PromotedAs b.toModel path' k w p → rep.maps.u2n.get? (fullName path' w.name) = some t := by
    intro path x p hp
    obtain ⟨t, t1, t2, t3⟩ := hk.found _ p (u.rep_of_hasName hp).2
    exact ⟨t, t1, t2, by rw [← hnames]; exact t3⟩
  have e2 : ∀ n t, rep.maps.p2n.get? n = some t → ∃ path x, HasName b path x n := by
    intro n t h
    obtain ⟨path, x, _, h⟩ := u.hasName_of_named (hk.foundP n t h)
    exact ⟨path, x, h⟩
  have e3 : ∀ n t, findNode rep.maps n = .ok t → ∃ path x p, HasName b path x p ∧ Denotes b.toModel n p := by
    intro n t h
    unfold findNode at h
    cases hp : rep.maps.p2n.get? n with
    | some t' =>
      obtain ⟨path, x, hp'⟩ := e2 _ _ hp
      obtain ⟨_, _, k, w, _, _, _, h4, _⟩ := id hp'
      exact ⟨path, x, n, hp', .promoted h4⟩
    | none =>
      rw [hp] at h
      cases hu : rep.maps.u2n.get? n with
      | none => rw [hu] at h; cases h
      | some t' =>
        obtain ⟨path, k, w, p, g1, g2, g3⟩ := hk.foundU n t' hu
        obtain ⟨path', x, _, g4⟩ := u.hasName_of_named g3
        rw [hnames] at g1
        exact ⟨path', x, p, g4, g2 ▸ .full g1⟩
  have e4 : ∀ path x p n, HasName b path x p → Denotes b.toModel n p → NodeByName rep.maps rep.done n (f (objOf Ls path x)) := fun path x p n hp hd => find_denoted R e1 e2 hp hd
  refine ⟨f, fun path x => f (objOf Ls path x), fun path x p n hp hd i => ⟨fun h => h.unique (e4 path x p n hp hd), fun h => h ▸ e4 path x p n hp hd⟩, fun n => ⟨?_, fun h => ?_⟩, fun P den σ0 => ?_⟩
  · rintro ⟨e, he⟩ path x ⟨p, path', y, g1, g2, _⟩
    obtain ⟨t, g3, _⟩ := e4 path' y p n g2 g1
    rw [he] at g3; cases g3
  · cases hfn : findNode rep.maps n with
    | error e => exact ⟨e, rfl⟩
    | ok t =>
      obtain ⟨path, x, p, g1, g2⟩ := e3 n t hfn
      exact absurd ⟨p, path, x, g2, g1, .refl _⟩ (h path x)
  · intro exec steps
    have hall : ∀ steps : List (SimStep (Val K)), ∃ σ, SimHistory rep.maps rep.done exec σ0 steps σ ∧ (∀ σ', SimHistory rep.maps rep.done exec σ0 steps σ' → σ' = σ) ∧
        ∀ path x, GivenVar b path x → LastGiven b (fun path x => σ0 (f (objOf Ls path x))) steps path x (σ (f (objOf Ls path x))) := by
      intro steps
      induction steps with
      | nil => exact ⟨σ0, .start, fun σ' h => by cases h; rfl, fun path x _ => .never⟩
      | cons s older ih =>
        obtain ⟨σ, g1, g2, g3⟩ := ih
        suffices H : ∃ σ', s.Does rep.maps rep.done exec σ σ' ∧ ∀ path x, GivenVar b path x → LastGiven b (fun path x => σ0 (f (objOf Ls path x))) (s :: older) path x (σ' (f (objOf Ls path x))) by
          obtain ⟨σ', k1, k2⟩ := H
          refine ⟨σ', .step g1 k1, fun τ h => ?_, k2⟩
          cases h with
          | step a1 a2 =>
            rw [g2 _ a1] at a2
            exact a2.unique k1
        cases s with
        | run =>
          refine ⟨_, .run, fun path x hg => .run ?_⟩
          have k := (h3 P den σ).2.1 path x hg
          have k' := g3 path x hg
          dsimp only at k
          rw [← k] at k'
          exact k'
        | set n v =>
          cases hfn : findNode rep.maps n with
          | error e =>
            refine ⟨_, .unknown hfn, fun path x hg => .other ?_ (g3 path x hg)⟩
            rintro ⟨p, path', y, k1, k2, _⟩
            obtain ⟨t, k3, _⟩ := e4 path' y p n k2 k1
            rw [hfn] at k3; cases k3
          | ok t =>
            obtain ⟨path1, x1, p1, k1, k2⟩ := e3 n t hfn
            have k3 := e4 path1 x1 p1 n k1 k2
            refine ⟨_, .set k3, fun path x hg => ?_⟩
            obtain ⟨⟨c, hc1, hl1⟩, _⟩ := id hg
            obtain ⟨c1, _, _, _, hc2, hl2, _⟩ := id k1
            by_cases he : f (objOf Ls path x) = f (objOf Ls path1 x1)
            · rw [if_pos he]
              exact .set ⟨p1, path1, x1, k2, k1, (h2 _ _ _ _ hc2 hc1 _ _ hl2 hl1).1 he.symm⟩
            · rw [if_neg he]
              refine .other ?_ (g3 path x hg)
              rintro ⟨p, path', y, m1, m2, m3⟩
              obtain ⟨c2, _, _, _, hc3, hl3, _⟩ := id m2
              exact he (((h2 _ _ _ _ hc3 hc1 _ _ hl3 hl1).2 m3).symm.trans ((e4 path' y p n m2 m1).unique k3))
    obtain ⟨σ, g1, g2, g3⟩ := hall steps
    refine ⟨σ, g1, g2, g3, ?_⟩
    rintro older rfl
    cases g1 with
    | @step _ _ τ _ a1 a2 =>
      cases a2
      obtain ⟨s1, s2, s3⟩ := h3 P den τ
      refine ⟨s1, fun ρ hρ hgiven => s3 ρ hρ fun path x hg => ?_⟩
      obtain ⟨τ', b1, b2, b3⟩ := hall older
      obtain rfl := b2 _ a1
      exact (hgiven path x hg).unique (b3 path x hg)

/-- **C115.** Run and compile a valid program.  Then a name is unknown to the representation exactly if it denotes no variable that matters, and whatever a user does with a simulator, setting values by name and running it in any order, any number of times (unknown names raise
KeyError), there is one result; at each time every variable that nothing computes has the value given for it last, by a name of it or of a variable that is the same variable, or the value it had from the start, if none was given; and after a run the variables have the values
of the one solution of the program with the values given last: neither earlier values, nor earlier runs, nor values set for variables that are computed, matter. -/
theorem C115_runs_forget (b : Body K F) (hv : ValidProgram b) (hs : b.maxObjects ≤ 63 ^ 4) : ∃ objs root, runProgram b = .ok (objs, root) ∧
    ∀ order : List Nat → List Nat, (∀ l x, x ∈ order l ↔ x ∈ l) → ∀ fuel, (∀ path b', BAt b path b' → (b'.locals.outputs ++ b'.locals.declared).length + objs.length ≤ fuel) → objs.length ≤ 63 ^ 4 →
      ∃ rep, compile (objects objs) fuel order root = .ok rep ∧ ∃ (f : Nat → Nat) (node : List Name → Nat → Nat),
        (∀ path x p n, HasName b path x p → Denotes b.toModel n p → ∀ i, NodeByName rep.maps rep.done n i ↔ i = node path x) ∧ (∀ n, (∃ e, findNode rep.maps n = .error e) ↔ ∀ path x, ¬ Concerns b n path x) ∧
        ∀ (P : Power K) (den : F → List (Val K) → Nat → Val K) (σ0 : Env (Val K)),
          let exec := fun σ => execAll rep.graph ⟨fun i => decide ((objects objs i).kind = .op), fun i => (objects objs i).deps.map f, opMeaning P den objs⟩ σ rep.sorted
          ∀ steps, ∃ σ, SimHistory rep.maps rep.done exec σ0 steps σ ∧ (∀ σ', SimHistory rep.maps rep.done exec σ0 steps σ' → σ' = σ) ∧
            (∀ path x, GivenVar b path x → LastGiven b (fun path x => σ0 (node path x)) steps path x (σ (node path x))) ∧
            ∀ older, steps = .run :: older → Solution P den b (fun path x => σ (node path x)) ∧
              ∀ ρ, Solution P den b ρ → (∀ path x, GivenVar b path x → LastGiven b (fun path x => σ0 (node path x)) older path x (ρ path x)) → ∀ path c, BAt b path c → ∀ x, c.Live x → ρ path x = σ (node path x) := by
  obtain ⟨objs, root, h1, h2⟩ := C74_valid_programs_accepted b hv fun _ => hs
  refine ⟨objs, root, h1, fun order ho fuel hf hn => ?_⟩
  obtain ⟨rep, hc⟩ := h2 hn fuel hf order ho
  exact ⟨rep, hc, history_in_session [] b hv hs objs root h1 objs List.prefix_rfl (runFrom_closed (by simp [Closed]) h1) hn fuel hf order ho rep hc⟩

/-- **C115, in a session, with custom operations, implicit operations and optimisation declarations** (as in C82 and C87): if the program is valid when its custom and implicit operations are written as calls and registrations, and it runs and is compiled in a session, the same holds. -/
theorem C115_runs_forget_in_session {F G I : Type} (b : XBody K F G I) (hv : ValidProgram (b.low 0)) (hs : (b.low 0).maxObjects ≤ 63 ^ 4) (pre done : List (PObj K (Fun F G I))) (root : OModel)
    (hr : xrunFrom pre b = .ok (done, root)) (objs : List (PObj K (Fun F G I))) (hpre : done <+: objs) (hcl : Closed objs) (hn : objs.length ≤ 63 ^ 4) (fuel : Nat) (hf : ∀ path b', XAt b path b' → (b'.locals.outputs ++ b'.locals.declared).length + objs.length ≤ fuel)
    (order : List Nat → List Nat) (ho : ∀ l x, x ∈ order l ↔ x ∈ l) (rep : Csdl.Rep) (hc : compile (xobjects objs) fuel order root = .ok rep) :
    ∃ (f : Nat → Nat) (node : List Name → Nat → Nat), (∀ path x p n, HasName (b.low 0) path x p → Denotes (b.low 0).toModel n p → ∀ i, NodeByName rep.maps rep.done n i ↔ i = node path x) ∧
      (∀ n, (∃ e, findNode rep.maps n = .error e) ↔ ∀ path x, ¬ Concerns (b.low 0) n path x) ∧
      ∀ (P : Power K) (den : Fun F G I → List (Val K) → Nat → Val K) (σ0 : Env (Val K)),
        let exec := fun σ => execAll rep.graph ⟨fun i => decide ((xobjects objs i).kind = .op), fun i => (xobjects objs i).deps.map f, opMeaning P den objs⟩ σ rep.sorted
        ∀ steps, ∃ σ, SimHistory rep.maps rep.done exec σ0 steps σ ∧ (∀ σ', SimHistory rep.maps rep.done exec σ0 steps σ' → σ' = σ) ∧
          (∀ path x, GivenVar (b.low 0) path x → LastGiven (b.low 0) (fun path x => σ0 (node path x)) steps path x (σ (node path x))) ∧
          ∀ older, steps = .run :: older → Prog.Solution P den (b.low 0) (fun path x => σ (node path x)) ∧
            ∀ ρ, Prog.Solution P den (b.low 0) ρ → (∀ path x, GivenVar (b.low 0) path x → LastGiven (b.low 0) (fun path x => σ0 (node path x)) older path x (ρ path x)) →
              ∀ path c, XAt b path c → ∀ x, (c.low 0).Live x → ρ path x = σ (node path x) := by
  have hf' : ∀ path c, BAt (b.low 0) path c → (c.locals.outputs ++ c.locals.declared).length + objs.length ≤ fuel := by
    intro path c hc
    obtain ⟨b', h1, rfl⟩ := bat_low hc
    exact hf path b' h1
  obtain ⟨rep0, dv, ob, cn, hc0, _, _, _, rfl⟩ := (xcompile hv.names hr hpre hcl hn hf' ho rep).1 hc
  obtain ⟨f, node, h1, h2, h3⟩ := history_in_session pre (b.low 0) hv hs done _ (xrunFrom_low hr).1 objs hpre hcl hn fuel hf' order ho rep0 hc0
  refine ⟨f, node, h1, h2, fun P den σ0 => ?_⟩
  intro exec steps
  obtain ⟨σ, g1, g2, g3, g4⟩ := h3 P den σ0 steps
  exact ⟨σ, g1, g2, g3, fun older ho' => ⟨(g4 older ho').1, fun ρ hρ hgiven path c hc x hx => (g4 older ho').2 ρ hρ hgiven path _ (xat_low hc) x hx⟩⟩

/-! ### Example: setting a value by the full name of a variable declared in a submodel -/

/-- in `exFlat` the full name `m.x` of the variable declared in the submodel is a name of the input `x` of the main model, which must be given, and `y` is the name of a variable that is computed; so after setting `x` to 1, running, setting `m.x` to 2, setting `y` to 5, and running, the
value given last for `x` is 2 -/
example (start : List Name → Nat → Val ℚ) : ValidProgram exFlat ∧ GivenVar exFlat [] 0 ∧
    LastGiven exFlat start [.run, .set "y".toList (fun _ => (5 : ℚ)), .set "m.x".toList (fun _ => 2), .run, .set "x".toList (fun _ => 1)] [] 0 fun _ => (2 : ℚ) := by
  have hb : BAt exFlat ["m".toList] exFlatSub := .down (p := none) (by simp [exFlat, Body.subs]) (.here _)
  have hl1 : exFlatSub.Live 1 := .output (name := "y".toList) (by decide)
  have hl0 : exFlat.Live 0 := .input (name := "x".toList) (s := [2, 3]) (by decide)
  have hnt : ∀ p, ¬ TargetName exFlat.toModel p := by
    rintro p ⟨path, l, subs, a, c, h1, h2, _⟩
    obtain ⟨d, hd, e⟩ := BAt.locals h1
    rw [Body.toModel] at e
    cases e
    rcases exFlat_at hd with ⟨_, rfl⟩ | ⟨_, rfl⟩ <;> simp [Body.locals, exFlat, exFlatSub, Body.stmts, Stmt.count, stepConnections] at h2
  have hg : GivenVar exFlat [] 0 := (C109_given_iff exFlat exFlat_valid (by decide) [] exFlat (.here _) 0 hl0).2
    (Or.inl ⟨[], 0, .refl _, exFlat, "x".toList, [2, 3], fun _ => 2, .here _, by simp [Body.Has, exFlat, Body.stmts], fun p _ => hnt p⟩)
  have px : HasName exFlat [] 0 "x".toList := ⟨exFlat, "x".toList, .source, ⟨"x".toList, [2, 3]⟩, .here _, hl0, Or.inl ⟨[2, 3], Or.inl (by decide)⟩, .here (v := ⟨"x".toList, [2, 3]⟩) (by decide), rfl⟩
  have mx : PromotedAs exFlat.toModel ["m".toList] .target ⟨"x".toList, [6]⟩ "x".toList :=
    .up (s := ⟨"m".toList, none, exFlatSub.toModel⟩) (List.mem_singleton.2 rfl) (.here (v := ⟨"x".toList, [6]⟩) (by decide)) (by simp [IsPromoted])
  have my : PromotedAs exFlat.toModel ["m".toList] .source ⟨"y".toList, [6]⟩ "y".toList :=
    .up (s := ⟨"m".toList, none, exFlatSub.toModel⟩) (List.mem_singleton.2 rfl) (.here (v := ⟨"y".toList, [6]⟩) (by decide)) (by simp [IsPromoted])
  have py : HasName exFlat ["m".toList] 1 "y".toList := ⟨exFlatSub, "y".toList, .source, ⟨"y".toList, [6]⟩, hb, hl1, Or.inr (by decide), my, rfl⟩
  refine ⟨exFlat_valid, hg, .run (.other ?_ (.set ⟨"x".toList, [], 0, .full mx, px, .refl _⟩))⟩
  rintro ⟨p, path', z, h1, h2, h3⟩
  obtain rfl := (ready exFlat_valid (by decide)).denotes h1 (.promoted my)
  refine hg.2 ["m".toList] exFlatSub 1 (.expr (.mulc 0 (.num 3))) 1 hb (by simp [Body.Has, exFlatSub, Body.stmts, Stmt.count]) (by simp [Stmt.Computes]) (le_refl _) (by simp [Stmt.count]) hl1 ?_
  exact (h3.symm.trans _ _ _ (.rel _ _ (.name _ h2 py)))

end Csdl.Prog
