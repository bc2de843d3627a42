import Verif.Proofs.Program12
/-
C74: valid programs are accepted and compute their meaning.
-/
namespace Csdl.Prog
open Csdl Csdl.Arith
variable {K F : Type} [Field K] [DecidableEq K]

/-- **C74.** The `define` methods of a program run without error exactly if every method is fine: operands exist and have equal shapes, keys of parts select elements, no division by the number zero, names of allowed characters, outputs
that are results of operations, registered once and under a new name, outputs assembled from at least one part, whose parts are disjoint, within the output, of the shape of what is assigned, which was not
assigned before to another part, no connection of a name to itself, submodels with different names, no empty model.  (If there are assignments to parts, no name in the program may look like an automatic
one: assignments are recorded under the name of what is assigned.) -/
theorem C74_programs_run_iff (b : Body K F) (hp : PlainNames b) : (∃ objs root, runProgram b = .ok (objs, root)) ↔ ∀ path b', BAt b path b' → MethodOk b' := runProgram_ok_iff b hp

/-- good names are plain names, in programs that are not too large -/
theorem plainNames {b : Body K F} (h : GoodNames b) (hs : b.Assigns → b.maxObjects ≤ 63 ^ 4) : PlainNames b := by
  refine fun ha => ⟨hs ha, fun path b' n t name hb ht hd => ?_⟩
  have hna := h.notAuto path b' hb
  simp only [Local.sources, Body.locals, List.mem_append, List.mem_map] at hna
  cases t <;> simp only [Stmt.defines, Option.some.injEq, reduceCtorEq] at hd <;> subst hd
  · exact hna ⟨_, _⟩ (Or.inl (Or.inl ⟨(n, _, _), List.mem_filterMap.2 ⟨_, ht, rfl⟩, rfl⟩))
  · exact hna ⟨_, _⟩ (Or.inr ⟨(n, _, _), List.mem_filterMap.2 ⟨_, ht, rfl⟩, rfl⟩)
  · exact hna ⟨_, _⟩ (Or.inl (Or.inr ⟨(n, _), List.mem_filterMap.2 ⟨_, ht, rfl⟩, rfl⟩))
  · exact hna ⟨_, _⟩ (Or.inl (Or.inr ⟨(_, _), List.mem_filterMap.2 ⟨_, ht, rfl⟩, rfl⟩))

/-- C74 for a program that runs in a session in which other objects exist -/
theorem valid_in_session (b : Body K F) (hv : ValidProgram b) (pre done : List (PObj K F)) (root : OModel) (hr : runFrom pre b = .ok (done, root)) (objs : List (PObj K F)) (hpre : done <+: objs) (hcl : Closed objs)
    (hn : objs.length ≤ 63 ^ 4) (fuel : Nat) (hf : ∀ path b', BAt b path b' → (b'.locals.outputs ++ b'.locals.declared).length + objs.length ≤ fuel) (order : List Nat → List Nat) (ho : ∀ l x, x ∈ order l ↔ x ∈ l) :
    ∃ rep, compile (objects objs) fuel order root = .ok rep := by
  obtain ⟨Ls, hh, _⟩ := runFrom_hier hr hpre
  have u : Setup objs b root Ls := ⟨hh, hv.names, hcl, hn⟩
  refine C72_valid_accepted (objects objs) objs.length fuel root (u.valid hv) ?_ order ho
  intro path m hm
  obtain ⟨s, hs, c⟩ := hh.ctx hm
  have := hf path s.body c.at_
  have e1 : s.body.locals.outputs.length = m.outputs.length := by
    rw [c.mat.outputs, c.inv.outputs.length_eq]
    simp [Body.locals]
  have e2 : s.body.locals.declared.length = m.declared.length := by
    rw [c.mat.declared, c.inv.declared.length_eq]
    simp [Body.locals]
  simp only [List.length_append] at this ⊢
  omega

/-- **C74.** A valid program runs, and (if it creates no more objects than there are short automatic names) its representation is built: there is no error. -/
theorem C74_valid_programs_accepted (b : Body K F) (hv : ValidProgram b) (hs : b.Assigns → b.maxObjects ≤ 63 ^ 4) : ∃ objs root, runProgram b = .ok (objs, root) ∧ (objs.length ≤ 63 ^ 4 →
    ∀ fuel, (∀ path b', BAt b path b' → (b'.locals.outputs ++ b'.locals.declared).length + objs.length ≤ fuel) → ∀ order : List Nat → List Nat, (∀ l x, x ∈ order l ↔ x ∈ l) →
      ∃ rep, compile (objects objs) fuel order root = .ok rep) := by
  obtain ⟨objs, root, hr⟩ := (runProgram_ok_iff b (plainNames hv.names hs)).2 hv.methods
  refine ⟨objs, root, hr, fun hn fuel hf order ho => ?_⟩
  exact valid_in_session b hv [] objs root hr objs List.prefix_rfl (runFrom_closed (by simp [Closed]) hr) hn fuel hf order ho

/-- **C74.** Every valid program has, for all meanings of the functions and all values of the variables that must be given, exactly one solution on the variables that matter (if it creates no more objects
than there are short automatic names), and it is computed by executing its representation, which is built without error. -/
theorem C74_valid_programs_compute (b : Body K F) (hv : ValidProgram b) (hs : b.Assigns → b.maxObjects ≤ 63 ^ 4) : ∃ objs root, runProgram b = .ok (objs, root) ∧ (objs.length ≤ 63 ^ 4 →
    ∀ order : List Nat → List Nat, (∀ l x, x ∈ order l ↔ x ∈ l) → ∀ fuel, (∀ path b', BAt b path b' → (b'.locals.outputs ++ b'.locals.declared).length + objs.length ≤ fuel) →
      ∃ rep, compile (objects objs) fuel order root = .ok rep ∧ ∃ (f : Nat → Nat) (node : List Name → Nat → Nat), ∀ (P : Power K) (den : F → List (Val K) → Nat → Val K) (σ0 : Env (Val K)),
        let value := fun path x => execAll rep.graph ⟨fun i => decide ((objects objs i).kind = .op), fun i => (objects objs i).deps.map f, opMeaning P den objs⟩ σ0 rep.sorted (node path x)
        Solution P den b value ∧ (∀ path x, GivenVar b path x → value path x = σ0 (node path x)) ∧
        ∀ ρ, Solution P den b ρ → (∀ path x, GivenVar b path x → ρ path x = σ0 (node path x)) → ∀ path b', BAt b path b' → ∀ x, b'.Live x → ρ path x = value path x) := by
  obtain ⟨objs, root, hr, h⟩ := C74_valid_programs_accepted b hv hs
  refine ⟨objs, root, hr, fun hn order ho fuel hf => ?_⟩
  obtain ⟨rep, hc⟩ := h hn fuel hf order ho
  obtain ⟨f, node, _, _, h3⟩ := C73_programs_mean_what_they_say b hv.names hv.noChain objs root hr hn fuel hf order ho rep hc
  exact ⟨rep, hc, f, node, h3⟩

/-! ### Example: the program of C73 is valid -/

theorem exSub_promoted {path : List Name} {k : VarKind} {w : VarInfo} {p : Name} (h : PromotedAs exSub.toModel path k w p) :
    (path = [] ∧ k = .source ∧ w = ⟨"c".toList, [1]⟩ ∧ p = "c".toList) ∨ (path = [] ∧ k = .target ∧ w = ⟨"a".toList, [1]⟩ ∧ p = "a".toList) := by
  have h1 : exSub.locals.vars .source = [⟨"c".toList, [1]⟩] := by decide
  have h2 : exSub.locals.vars .target = [⟨"a".toList, [1]⟩] := by decide
  unfold Body.toModel at h
  cases h with
  | @here _ _ k v hv => cases k <;> simp only [h1, h2, List.mem_singleton] at hv <;> subst hv <;> simp
  | @up _ _ path k v p s hs hp hpr => simp [exSub, Body.toSubs, Subs.toList] at hs
  | @stay _ _ path k v p s hs hp hpr => simp [exSub, Body.toSubs, Subs.toList] at hs

theorem exMain_promoted {path : List Name} {k : VarKind} {w : VarInfo} {p : Name} (h : PromotedAs exMain.toModel path k w p) :
    (path = [] ∧ k = .source ∧ w = ⟨"x".toList, [1]⟩ ∧ p = "x".toList) ∨ (path = [] ∧ k = .source ∧ w = ⟨"s".toList, [1]⟩ ∧ p = "s".toList) ∨
    (path = [] ∧ k = .source ∧ w = ⟨"t".toList, [1]⟩ ∧ p = "t".toList) ∨ (path = [] ∧ k = .target ∧ w = ⟨"c".toList, [1]⟩ ∧ p = "c".toList) ∨
    (path = ["m".toList] ∧ k = .source ∧ w = ⟨"c".toList, [1]⟩ ∧ p = "c".toList) ∨ (path = ["m".toList] ∧ k = .target ∧ w = ⟨"a".toList, [1]⟩ ∧ p = "m.a".toList) := by
  have h1 : exMain.locals.vars .source = [⟨"x".toList, [1]⟩, ⟨"s".toList, [1]⟩, ⟨"t".toList, [1]⟩] := by decide
  have h2 : exMain.locals.vars .target = [⟨"c".toList, [1]⟩] := by decide
  have h3 : exMain.toSubs.toList = [⟨"m".toList, some ["c".toList], exSub.toModel⟩] := rfl
  unfold Body.toModel at h
  cases h with
  | @here _ _ k v hv =>
    cases k <;> simp only [h1, h2, List.mem_singleton, List.mem_cons, List.not_mem_nil, or_false] at hv
    · rcases hv with rfl | rfl | rfl <;> simp
    · subst hv; simp
  | @up _ _ path k v p s hs hp hpr =>
    rw [h3, List.mem_singleton] at hs
    subst hs
    rcases exSub_promoted hp with ⟨rfl, rfl, rfl, rfl⟩ | ⟨rfl, rfl, rfl, rfl⟩
    · simp
    · simp [IsPromoted] at hpr
  | @stay _ _ path k v p s hs hp hpr =>
    rw [h3, List.mem_singleton] at hs
    subst hs
    rcases exSub_promoted hp with ⟨rfl, rfl, rfl, rfl⟩ | ⟨rfl, rfl, rfl, rfl⟩
    · simp [IsPromoted] at hpr
    · exact Or.inr (Or.inr (Or.inr (Or.inr (Or.inr ⟨rfl, rfl, rfl, rfl⟩))))

theorem exMain_stmts : exMain.stmts 0 = [(0, .input "x".toList [1] (fun _ => 1)), (1, .expr (.mul 0 0)), (2, .expr (.pos 1)), (3, .register "s".toList 2), (3, .connect "s".toList "m.a".toList),
    (3, .declare "c".toList [1] none), (4, .expr (.add 3 0)), (5, .register "t".toList 4)] := rfl

theorem exSub_stmts : exSub.stmts 0 = [(0, .declare "a".toList [1] none), (1, .call () [0] [[1]]), (2, .register "c".toList 1)] := rfl

theorem exMain_plain : ¬ exMain.Assigns := by
  rintro ⟨path, b', n, z, key, x, hb, h⟩
  unfold Body.Has at h
  rcases exMain_at hb with ⟨_, rfl⟩ | ⟨_, rfl⟩
  · rw [exMain_stmts] at h; simp at h
  · rw [exSub_stmts] at h; simp at h

/-- by C74, the methods are fine because the program runs -/
theorem exMain_methods : ∀ path b', BAt exMain path b' → MethodOk b' := by
  obtain ⟨objs, root, _, h, _⟩ := exMain_run
  exact (C74_programs_run_iff exMain fun h => absurd h exMain_plain).1 ⟨objs, root, h⟩

/-- a rank that statements increase -/
def exRank : List Name × Nat → Nat
  | ([], x) => [0, 1, 1, 2, 3].getD x 0
  | (_ :: _, x) => [1, 2].getD x 0

/-- the rank by promoted name -/
def exNameRank (p : Name) : Nat := if p = "x".toList then 0 else if p = "s".toList ∨ p = "m.a".toList then 1 else if p = "c".toList then 2 else 3

theorem exMain_named {x : Nat} {name : Name} (h : exMain.Named x name) : (x = 0 ∧ name = "x".toList) ∨ (x = 2 ∧ name = "s".toList) ∨ (x = 3 ∧ name = "c".toList) ∨ (x = 4 ∧ name = "t".toList) := by
  have h1 : (exMain.stmts 0).filterMap inputOf = [(0, "x".toList, [1])] := by decide
  have h2 : (exMain.stmts 0).filterMap declaredOf = [(3, "c".toList, [1])] := by decide
  have h3 : (exMain.stmts 0).filterMap outputOf = [(2, "s".toList), (4, "t".toList)] := by decide
  unfold Body.Named at h
  rw [h1, h2, h3] at h
  simp only [List.mem_singleton, Prod.mk.injEq, List.mem_cons, List.not_mem_nil, or_false] at h
  rcases h with ⟨s, h | h⟩ | h | h
  · exact Or.inl ⟨h.1, h.2.1⟩
  · exact Or.inr (Or.inr (Or.inl ⟨h.1, h.2.1⟩))
  · exact Or.inr (Or.inl h)
  · exact Or.inr (Or.inr (Or.inr h))

theorem exSub_named {x : Nat} {name : Name} (h : exSub.Named x name) : (x = 0 ∧ name = "a".toList) ∨ (x = 1 ∧ name = "c".toList) := by
  have h1 : (exSub.stmts 0).filterMap inputOf = [] := by decide
  have h2 : (exSub.stmts 0).filterMap declaredOf = [(0, "a".toList, [1])] := by decide
  have h3 : (exSub.stmts 0).filterMap outputOf = [(1, "c".toList)] := by decide
  unfold Body.Named at h
  rw [h1, h2, h3] at h
  simp only [List.mem_singleton, Prod.mk.injEq, List.not_mem_nil, false_or] at h
  rcases h with ⟨s, h⟩ | h
  · exact Or.inl ⟨h.1, h.2.1⟩
  · exact Or.inr h

theorem exMain_hasName {path : List Name} {x : Nat} {p : Name} (h : HasName exMain path x p) : exRank (path, x) = exNameRank p := by
  obtain ⟨b', name, k, w, h1, _, h3, h4, h5⟩ := h
  rcases exMain_at h1 with ⟨rfl, rfl⟩ | ⟨rfl, rfl⟩
  · rcases exMain_promoted h4 with ⟨_, rfl, rfl, rfl⟩ | ⟨_, rfl, rfl, rfl⟩ | ⟨_, rfl, rfl, rfl⟩ | ⟨_, rfl, rfl, rfl⟩ | ⟨e, _⟩ | ⟨e, _⟩ <;> first | (cases e; done) | skip
    all_goals
      subst h5
      rcases exMain_named h3 with ⟨rfl, e⟩ | ⟨rfl, e⟩ | ⟨rfl, e⟩ | ⟨rfl, e⟩ <;> first | exact absurd e (by decide) | decide
  · rcases exMain_promoted h4 with ⟨e, _⟩ | ⟨e, _⟩ | ⟨e, _⟩ | ⟨e, _⟩ | ⟨_, rfl, rfl, rfl⟩ | ⟨_, rfl, rfl, rfl⟩ <;> first | (cases e; done) | skip
    all_goals
      subst h5
      rcases exSub_named h3 with ⟨rfl, e⟩ | ⟨rfl, e⟩ <;> first | exact absurd e (by decide) | decide

theorem exMain_denotes {x p q : Name} (h1 : Denotes exMain.toModel x p) (h2 : Denotes exMain.toModel x q) : p = q := by
  obtain ⟨r, hr, _⟩ := ok_of_check (x := resolve exMain.toModel none) (P := fun _ => true) (by decide)
  exact C09_denotation_unique exMain.toModel (dotFree_of (by decide)) r hr _ _ _ h1 h2

theorem exMain_same {q r : List Name × Nat} (h : Relation.EqvGen (Same exMain) q r) : exRank q = exRank r := by
  induction h with
  | rel q r h =>
    cases h with
    | name p h1 h2 => rw [exMain_hasName h1, exMain_hasName h2]
    | connection path b' s t p q hb hc h1 h2 h3 h4 =>
      rw [exMain_hasName h3, exMain_hasName h4]
      rcases exMain_at hb with ⟨rfl, rfl⟩ | ⟨rfl, rfl⟩
      · have : exMain.locals.connections = [("s".toList, "m.a".toList)] := by decide
        rw [this, List.mem_singleton, Prod.mk.injEq] at hc
        obtain ⟨rfl, rfl⟩ := hc
        rw [exMain_denotes h1 (Denotes.promoted exMain_vars.1), exMain_denotes h2 (Denotes.promoted exMain_vars.2.1)]
        decide
      · have : exSub.locals.connections = [] := by decide
        rw [this] at hc; cases hc
    | @«alias» path x y b' hb hl hl' hx =>
      clear hl hl'
      induction hx with
      | refl => rfl
      | symm _ ih => exact ih.symm
      | trans _ _ ih1 ih2 => exact ih1.trans ih2
      | plus hx =>
        rcases exMain_at hb with ⟨rfl, rfl⟩ | ⟨rfl, rfl⟩
        · rw [exMain_stmts] at hx
          simp only [List.mem_cons, Prod.mk.injEq, reduceCtorEq, and_false, false_or, Stmt.expr.injEq, Instr.pos.injEq, List.not_mem_nil, or_false] at hx
          obtain ⟨rfl, rfl⟩ := hx
          decide
        · rw [exSub_stmts] at hx
          simp at hx
      | part hx =>
        rcases exMain_at hb with ⟨rfl, rfl⟩ | ⟨rfl, rfl⟩
        · rw [exMain_stmts] at hx
          simp at hx
        · rw [exSub_stmts] at hx
          simp at hx
  | refl => rfl
  | symm _ _ _ ih => exact ih.symm
  | trans _ _ _ _ _ ih1 ih2 => exact ih1.trans ih2

theorem exMain_feeds {q r : List Name × Nat} (h : Feeds exMain q r) : exRank q < exRank r := by
  obtain ⟨path, x⟩ := q
  obtain ⟨path', y⟩ := r
  rcases h with ⟨b', n, s, e, hb, hs, hc, h1, h2, _, hx⟩ | ⟨b', _, _, _, _, _, hb, _, n, z, h, _⟩
  swap
  · exact absurd ⟨_, b', n, z, _, _, hb, h⟩ exMain_plain
  simp only at e hb h1 h2 hx
  subst e
  unfold Body.Has at hs
  rcases exMain_at hb with ⟨rfl, rfl⟩ | ⟨rfl, rfl⟩
  · rw [exMain_stmts] at hs
    simp only [List.mem_cons, Prod.mk.injEq, List.not_mem_nil, or_false] at hs
    rcases hs with ⟨rfl, rfl⟩ | ⟨rfl, rfl⟩ | ⟨rfl, rfl⟩ | ⟨rfl, rfl⟩ | ⟨rfl, rfl⟩ | ⟨rfl, rfl⟩ | ⟨rfl, rfl⟩ | ⟨rfl, rfl⟩ <;> first | exact hc.elim | skip
    · obtain rfl : y = 1 := by simp only [Stmt.count] at h2; omega
      simp only [Stmt.operands, Instr.first, Instr.others, List.mem_cons, List.not_mem_nil, or_false, or_self] at hx
      subst hx
      decide
    · obtain rfl : y = 4 := by simp only [Stmt.count] at h2; omega
      simp only [Stmt.operands, Instr.first, Instr.others, List.mem_cons, List.not_mem_nil, or_false] at hx
      rcases hx with rfl | rfl <;> decide
  · rw [exSub_stmts] at hs
    simp only [List.mem_cons, Prod.mk.injEq, List.not_mem_nil, or_false] at hs
    rcases hs with ⟨rfl, rfl⟩ | ⟨rfl, rfl⟩ | ⟨rfl, rfl⟩ <;> first | exact hc.elim | skip
    obtain rfl : y = 1 := by simp only [Stmt.count, List.length_singleton] at h2; omega
    simp only [Stmt.operands, List.mem_singleton] at hx
    subst hx
    decide

theorem exMain_valid : ValidProgram exMain := by
  have hsz : ∀ {path b'}, BAt exMain path b' → ∀ {path k v p}, PromotedAs b'.toModel path k v p → v.shape = [1] := by
    intro path b' hb path' k v p h
    rcases exMain_at hb with ⟨_, rfl⟩ | ⟨_, rfl⟩
    · rcases exMain_promoted h with ⟨_, _, rfl, _⟩ | ⟨_, _, rfl, _⟩ | ⟨_, _, rfl, _⟩ | ⟨_, _, rfl, _⟩ | ⟨_, _, rfl, _⟩ | ⟨_, _, rfl, _⟩ <;> rfl
    · rcases exSub_promoted h with ⟨_, _, rfl, _⟩ | ⟨_, _, rfl, _⟩ <;> rfl
  have hiss : issuedPost Local.connections exMain.toModel = [([], "s".toList, "m.a".toList)] := by decide
  have k1 : exSub.Live 1 := .output (name := "c".toList) (by decide)
  have k0 : exSub.Live 0 := .operand (n := 1) (s := .call () [0] [[1]]) k1 (by simp [Body.Has, exSub_stmts]) (by decide) (by decide) (by decide)
  have atM : BAt exMain ["m".toList] exSub := .down (p := some ["c".toList]) (by simp [exMain, Body.subs]) (.here _)
  refine ⟨exMain_methods, exMain_good, ?_, ?_, ?_, ?_, ?_, exMain_noChain, ?_⟩
  · intro path b' hb p path1 v1 path2 v2 h1 h2
    rcases exMain_at hb with ⟨_, rfl⟩ | ⟨_, rfl⟩
    · rcases exMain_promoted h1 with ⟨rfl, e, rfl, rfl⟩ | ⟨rfl, e, rfl, rfl⟩ | ⟨rfl, e, rfl, rfl⟩ | ⟨rfl, e, rfl, rfl⟩ | ⟨rfl, e, rfl, rfl⟩ | ⟨rfl, e, rfl, rfl⟩ <;>
      rcases exMain_promoted h2 with ⟨rfl, e', rfl, q⟩ | ⟨rfl, e', rfl, q⟩ | ⟨rfl, e', rfl, q⟩ | ⟨rfl, e', rfl, q⟩ | ⟨rfl, e', rfl, q⟩ | ⟨rfl, e', rfl, q⟩ <;>
      first | rfl | (cases e; done) | (cases e'; done) | exact absurd q (by decide)
    · rcases exSub_promoted h1 with ⟨rfl, _⟩ | ⟨rfl, _⟩ <;> rcases exSub_promoted h2 with ⟨rfl, _⟩ | ⟨rfl, _⟩ <;> rfl
  · intro path b' hb p k1 path1 v1 k2 path2 v2 h1 h2 _
    rw [hsz hb h1, hsz hb h2]
  · intro path b' hb n q sub hs x hx
    rcases exMain_at hb with ⟨_, rfl⟩ | ⟨_, rfl⟩
    · simp only [exMain, Body.subs, List.mem_singleton, Prod.mk.injEq, Option.some.injEq] at hs
      obtain ⟨rfl, rfl, rfl⟩ := hs
      obtain rfl : x = "c".toList := by simpa using hx
      exact ⟨by decide, [], .source, ⟨"c".toList, [1]⟩, .here (v := ⟨"c".toList, [1]⟩) (by decide)⟩
    · simp [exSub, Body.subs] at hs
  · intro path b' a c hb hc
    rcases exMain_at hb with ⟨rfl, rfl⟩ | ⟨rfl, rfl⟩
    · have : exMain.locals.connections = [("s".toList, "m.a".toList)] := by decide
      rw [this, List.mem_singleton, Prod.mk.injEq] at hc
      obtain ⟨rfl, rfl⟩ := hc
      refine ⟨_, _, Denotes.promoted exMain_vars.1, Denotes.promoted exMain_vars.2.1, ⟨_, _, exMain_vars.1⟩,
        ⟨["m".toList], 0, exSub, "a".toList, .target, ⟨"a".toList, [1]⟩, atM, k0, Or.inl ⟨[1], Or.inr (by decide)⟩, exMain_vars.2.1, rfl⟩, ?_, ?_⟩
      · intro path b' w _ _ hp
        rcases exMain_promoted hp with ⟨_, e, _, q⟩ | ⟨_, e, _, q⟩ | ⟨_, e, _, q⟩ | ⟨_, e, _, q⟩ | ⟨_, e, _, q⟩ | ⟨_, e, _, q⟩ <;> first | (cases e; done) | exact absurd q (by decide)
      · intro k path w k' path' w' h1 h2
        rw [hsz (.here _) h1, hsz (.here _) h2]
    · have : exSub.locals.connections = [] := by decide
      rw [this] at hc; cases hc
  · rw [hiss]; exact List.pairwise_singleton _ _
  · rintro ⟨q, hq⟩
    have key : ∀ a c, Relation.TransGen (fun a c => ∃ a', Relation.EqvGen (Same exMain) a a' ∧ Feeds exMain a' c) a c → exRank a < exRank c := by
      intro a c h
      induction h with
      | single h => obtain ⟨a', h1, h2⟩ := h; rw [exMain_same h1]; exact exMain_feeds h2
      | tail _ h ih => obtain ⟨a', h1, h2⟩ := h; have := exMain_feeds h2; rw [← exMain_same h1] at this; omega
    exact absurd (key q q hq) (Nat.lt_irrefl _)

/-- so C74 applies to it -/
example : ∃ objs root, runProgram exMain = .ok (objs, root) ∧ (objs.length ≤ 63 ^ 4 → ∃ fuel rep, compile (objects objs) fuel id root = .ok rep) := by
  obtain ⟨objs, root, h1, h2⟩ := C74_valid_programs_accepted exMain exMain_valid fun h => absurd h exMain_plain
  refine ⟨objs, root, h1, fun hn => ⟨10 + objs.length, h2 hn _ ?_ id (fun _ _ => Iff.rfl)⟩⟩
  intro path b' hb
  have e1 : (exMain.locals.outputs ++ exMain.locals.declared).length = 3 := by decide
  have e2 : (exSub.locals.outputs ++ exSub.locals.declared).length = 2 := by decide
  rcases exMain_at hb with ⟨_, rfl⟩ | ⟨_, rfl⟩ <;> omega

end Csdl.Prog
