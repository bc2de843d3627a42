import Verif.Proofs.Join2
import Verif.Props.ValidProgram
/-
C97: it does not matter how variables are joined.
-/
namespace Csdl.Prog
open Csdl Csdl.Arith
variable {K F : Type} [Field K] [DecidableEq K]

/-- values that solve a program in which the same variables are joined solve the other -/
theorem solution_of_joins {b b' : Body K F} (hv' : ValidProgram b') (hm : SameMethods b b') (hj : SameJoins b b') {objs : List (PObj K F)} {root : OModel} (hr : runProgram b' = .ok (objs, root)) (hn : objs.length ≤ 63 ^ 4)
    {P : Power K} {den : F → List (Val K) → Nat → Val K} {ρ : List Name → Nat → Val K} (h : Solution P den b' ρ) : Solution P den b ρ := by
  obtain ⟨Ls, hh, _⟩ := runFrom_hier hr (all := objs) List.prefix_rfl
  have u : Setup objs b' root Ls := ⟨hh, hv'.names, runFrom_closed (by simp [Closed]) hr, hn⟩
  exact hm.symm.solution h fun q r hs => h.same u ((hj q r).1 (.rel _ _ hs))

/-- **C97 (values).** If two valid programs have the same statements (other than connections) in the same models, and in both the same variables are joined, no matter whether by promotion or by connections and no matter in which
order connections and submodels are given, then, if both are run and compiled, executing the representations with the same values for the variables that must be given yields the same values for all variables that matter, whatever
the functions mean. -/
theorem C97_values (b b' : Body K F) (hv : ValidProgram b) (hv' : ValidProgram b') (hm : SameMethods b b') (hj : SameJoins b b') (hs : b.Assigns → b.maxObjects ≤ 63 ^ 4) (hs' : b'.Assigns → b'.maxObjects ≤ 63 ^ 4) :
    ∃ objs root objs' root', runProgram b = .ok (objs, root) ∧ runProgram b' = .ok (objs', root') ∧ (objs.length ≤ 63 ^ 4 → objs'.length ≤ 63 ^ 4 →
      ∀ order : List Nat → List Nat, (∀ l x, x ∈ order l ↔ x ∈ l) → ∀ fuel, (∀ path c, BAt b path c → (c.locals.outputs ++ c.locals.declared).length + max objs.length objs'.length ≤ fuel) →
      ∃ rep rep', compile (objects objs) fuel order root = .ok rep ∧ compile (objects objs') fuel order root' = .ok rep' ∧
        ∃ (f f' : Nat → Nat) (node node' : List Name → Nat → Nat), ∀ (P : Power K) (den : F → List (Val K) → Nat → Val K) (σ0 σ0' : Env (Val K)),
          let value := fun path x => execAll rep.graph ⟨fun i => decide ((objects objs i).kind = .op), fun i => (objects objs i).deps.map f, opMeaning P den objs⟩ σ0 rep.sorted (node path x)
          let value' := fun path x => execAll rep'.graph ⟨fun i => decide ((objects objs' i).kind = .op), fun i => (objects objs' i).deps.map f', opMeaning P den objs'⟩ σ0' rep'.sorted (node' path x)
          Solution P den b value ∧ Solution P den b' value' ∧ (∀ path x, GivenVar b path x → value path x = σ0 (node path x) ∧ value' path x = σ0' (node' path x)) ∧
          ((∀ path x, GivenVar b path x → σ0 (node path x) = σ0' (node' path x)) → ∀ path c, BAt b path c → ∀ x, c.Live x → value path x = value' path x)) := by
  obtain ⟨objs, root, h1, h2⟩ := C74_valid_programs_compute b hv hs
  obtain ⟨objs', root', h1', h2'⟩ := C74_valid_programs_compute b' hv' hs'
  refine ⟨objs, root, objs', root', h1, h1', fun hn hn' order ho fuel hf => ?_⟩
  obtain ⟨rep, hc, f, node, h3⟩ := h2 hn order ho fuel fun path c hc => (Nat.add_le_add_left (Nat.le_max_left ..) _).trans (hf path c hc)
  obtain ⟨rep', hc', f', node', h3'⟩ := h2' hn' order ho fuel fun path c hc => by
    obtain ⟨c', g1, g2⟩ := hm.symm.1 path c hc
    have e1 : c.locals.outputs = c'.locals.outputs := by simp [Body.locals, g2.outputs, g2.shapes]
    have e2 : c.locals.declared = c'.locals.declared := by simp [Body.locals, g2.declareds]
    rw [e1, e2]
    exact (Nat.add_le_add_left (Nat.le_max_right ..) _).trans (hf path c' g1)
  refine ⟨rep, rep', hc, hc', f, f', node, node', fun P den σ0 σ0' => ?_⟩
  obtain ⟨s1, s2, s3⟩ := h3 P den σ0
  obtain ⟨t1, t2, _⟩ := h3' P den σ0'
  refine ⟨s1, t1, fun path x hg => ⟨s2 path x hg, t2 path x (hm.given hj hg)⟩, fun he path c hb x hl => (s3 _ (solution_of_joins hv' hm hj h1' hn' t1) (fun path x hg => ?_) path c hb x hl).symm⟩
  exact (t2 path x (hm.given hj hg)).trans (he path x hg).symm

/-- **C97 (promotion or connection).** In particular it does not matter whether a variable of a submodel is promoted, or not promoted but connected at the end (to or from the variable that has its name in the main model),
provided both programs are valid. -/
theorem C97_promote_or_connect (n a : Name) (b b' : Body K F) (hv : ValidProgram b) (hv' : ValidProgram b') (hc : ConnectedInstead n a b b') (hs : b.Assigns → b.maxObjects ≤ 63 ^ 4)
    (hs' : b'.Assigns → b'.maxObjects ≤ 63 ^ 4) :
    ∃ objs root objs' root', runProgram b = .ok (objs, root) ∧ runProgram b' = .ok (objs', root') ∧ (objs.length ≤ 63 ^ 4 → objs'.length ≤ 63 ^ 4 →
      ∀ order : List Nat → List Nat, (∀ l x, x ∈ order l ↔ x ∈ l) → ∀ fuel, (∀ path c, BAt b path c → (c.locals.outputs ++ c.locals.declared).length + max objs.length objs'.length ≤ fuel) →
      ∃ rep rep', compile (objects objs) fuel order root = .ok rep ∧ compile (objects objs') fuel order root' = .ok rep' ∧
        ∃ (f f' : Nat → Nat) (node node' : List Name → Nat → Nat), ∀ (P : Power K) (den : F → List (Val K) → Nat → Val K) (σ0 σ0' : Env (Val K)),
          let value := fun path x => execAll rep.graph ⟨fun i => decide ((objects objs i).kind = .op), fun i => (objects objs i).deps.map f, opMeaning P den objs⟩ σ0 rep.sorted (node path x)
          let value' := fun path x => execAll rep'.graph ⟨fun i => decide ((objects objs' i).kind = .op), fun i => (objects objs' i).deps.map f', opMeaning P den objs'⟩ σ0' rep'.sorted (node' path x)
          Solution P den b value ∧ Solution P den b' value' ∧ (∀ path x, GivenVar b path x → value path x = σ0 (node path x) ∧ value' path x = σ0' (node' path x)) ∧
          ((∀ path x, GivenVar b path x → σ0 (node path x) = σ0' (node' path x)) → ∀ path c, BAt b path c → ∀ x, c.Live x → value path x = value' path x)) :=
  C97_values b b' hv hv' (Joined.sameMethods ⟨hv, hv', hc⟩) (Joined.sameJoins ⟨hv, hv', hc⟩) hs hs'

/-! ### Example: the output `c` of the submodel is connected, not promoted -/

/-- `exMain` with `promotes=[]` and `self.connect('m.c', 'c')` at the end -/
def exLinked : Body ℚ Unit :=
  .stmt (.input "x".toList [1] (fun _ => 1)) (.stmt (.expr (.mul 0 0)) (.stmt (.expr (.pos 1)) (.stmt (.register "s".toList 2) (.stmt (.connect "s".toList "m.a".toList)
    (.add false "m".toList (some []) exSub (.stmt (.declare "c".toList [1] none) (.stmt (.expr (.add 3 0)) (.stmt (.register "t".toList 4) (.stmt (.connect "m.c".toList "c".toList) .done)))))))))

theorem exLinked_instead : ConnectedInstead "m".toList "c".toList exMain exLinked :=
  ⟨_, .stmt _ (.stmt _ (.stmt _ (.stmt _ (.stmt _ (.here false _ _ (by simp)))))), Or.inr rfl⟩

theorem exLinked_at {path : List Name} {b' : Body ℚ Unit} (h : BAt exLinked path b') : (path = [] ∧ b' = exLinked) ∨ (path = ["m".toList] ∧ b' = exSub) := by
  cases h with
  | here => exact Or.inl ⟨rfl, rfl⟩
  | down h1 h2 =>
    simp only [exLinked, Body.subs, List.mem_singleton, Prod.mk.injEq] at h1
    obtain ⟨rfl, rfl, rfl⟩ := h1
    cases h2 with
    | here => exact Or.inr ⟨rfl, rfl⟩
    | down h3 _ => simp [exSub, Body.subs] at h3

theorem exLinked_good : GoodNames exLinked := by
  constructor
  · intro path b' h
    rcases exLinked_at h with ⟨_, rfl⟩ | ⟨_, rfl⟩ <;> decide
  · intro path b' h
    rcases exLinked_at h with ⟨_, rfl⟩ | ⟨_, rfl⟩ <;> decide
  · intro path b' h
    rcases exLinked_at h with ⟨_, rfl⟩ | ⟨_, rfl⟩ <;> decide
  · intro path b' h
    rcases exLinked_at h with ⟨_, rfl⟩ | ⟨_, rfl⟩ <;> decide

theorem exLinked_promoted {path : List Name} {k : VarKind} {w : VarInfo} {p : Name} (h : PromotedAs exLinked.toModel path k w p) :
    (path = [] ∧ k = .source ∧ w = ⟨"x".toList, [1]⟩ ∧ p = "x".toList) ∨ (path = [] ∧ k = .source ∧ w = ⟨"s".toList, [1]⟩ ∧ p = "s".toList) ∨
    (path = [] ∧ k = .source ∧ w = ⟨"t".toList, [1]⟩ ∧ p = "t".toList) ∨ (path = [] ∧ k = .target ∧ w = ⟨"c".toList, [1]⟩ ∧ p = "c".toList) ∨
    (path = ["m".toList] ∧ k = .source ∧ w = ⟨"c".toList, [1]⟩ ∧ p = "m.c".toList) ∨ (path = ["m".toList] ∧ k = .target ∧ w = ⟨"a".toList, [1]⟩ ∧ p = "m.a".toList) := by
  have h1 : exLinked.locals.vars .source = [⟨"x".toList, [1]⟩, ⟨"s".toList, [1]⟩, ⟨"t".toList, [1]⟩] := by decide
  have h2 : exLinked.locals.vars .target = [⟨"c".toList, [1]⟩] := by decide
  have h3 : exLinked.toSubs.toList = [⟨"m".toList, some [], exSub.toModel⟩] := rfl
  unfold Body.toModel at h
  cases h with
  | @here _ _ k v hv =>
    cases k <;> simp only [h1, h2, List.mem_singleton, List.mem_cons, List.not_mem_nil, or_false] at hv
    · rcases hv with rfl | rfl | rfl <;> simp
    · subst hv; simp
  | @up _ _ path k v p s hs hp hpr =>
    rw [h3, List.mem_singleton] at hs
    subst hs
    simp [IsPromoted] at hpr
  | @stay _ _ path k v p s hs hp hpr =>
    rw [h3, List.mem_singleton] at hs
    subst hs
    rcases exSub_promoted hp with ⟨rfl, rfl, rfl, rfl⟩ | ⟨rfl, rfl, rfl, rfl⟩
    · exact Or.inr (Or.inr (Or.inr (Or.inr (Or.inl ⟨rfl, rfl, rfl, rfl⟩))))
    · exact Or.inr (Or.inr (Or.inr (Or.inr (Or.inr ⟨rfl, rfl, rfl, rfl⟩))))

theorem exLinked_stmts : exLinked.stmts 0 = [(0, .input "x".toList [1] (fun _ => 1)), (1, .expr (.mul 0 0)), (2, .expr (.pos 1)), (3, .register "s".toList 2), (3, .connect "s".toList "m.a".toList),
    (3, .declare "c".toList [1] none), (4, .expr (.add 3 0)), (5, .register "t".toList 4), (5, .connect "m.c".toList "c".toList)] := rfl

theorem exLinked_plain : ¬ exLinked.Assigns := by
  rintro ⟨path, b', n, z, key, x, hb, h⟩
  unfold Body.Has at h
  rcases exLinked_at hb with ⟨_, rfl⟩ | ⟨_, rfl⟩
  · rw [exLinked_stmts] at h; simp at h
  · rw [exSub_stmts] at h; simp at h

theorem exLinked_methods : ∀ path b', BAt exLinked path b' → MethodOk b' := by
  obtain ⟨⟨objs, root⟩, h, _⟩ := ok_of_check (x := runProgram exLinked) (P := fun _ => true) (by decide +kernel)
  exact (C74_programs_run_iff exLinked fun h => absurd h exLinked_plain).1 ⟨objs, root, h⟩

theorem exLinked_vars : PromotedAs exLinked.toModel [] .source ⟨"s".toList, [1]⟩ "s".toList ∧ PromotedAs exLinked.toModel ["m".toList] .target ⟨"a".toList, [1]⟩ "m.a".toList ∧
    PromotedAs exLinked.toModel ["m".toList] .source ⟨"c".toList, [1]⟩ "m.c".toList ∧ PromotedAs exLinked.toModel [] .target ⟨"c".toList, [1]⟩ "c".toList := by
  refine ⟨.here (v := ⟨"s".toList, [1]⟩) ?_, ?_, ?_, .here (v := ⟨"c".toList, [1]⟩) ?_⟩
  · decide
  · have h : PromotedAs exLinked.toModel ["m".toList] .target ⟨"a".toList, [1]⟩ (prependNamespace "m".toList "a".toList) :=
      .stay (s := ⟨"m".toList, some [], exSub.toModel⟩) (List.mem_singleton.2 rfl) (.here (v := ⟨"a".toList, [1]⟩) (by decide)) (by simp [IsPromoted])
    exact h
  · have h : PromotedAs exLinked.toModel ["m".toList] .source ⟨"c".toList, [1]⟩ (prependNamespace "m".toList "c".toList) :=
      .stay (s := ⟨"m".toList, some [], exSub.toModel⟩) (List.mem_singleton.2 rfl) (.here (v := ⟨"c".toList, [1]⟩) (by decide)) (by simp [IsPromoted])
    exact h
  · decide

theorem exLinked_issued : issuedPost Local.connections exLinked.toModel = [([], "s".toList, "m.a".toList), ([], "m.c".toList, "c".toList)] := by decide +kernel

theorem exLinked_denotes {x p q : Name} (h1 : Denotes exLinked.toModel x p) (h2 : Denotes exLinked.toModel x q) : p = q := by
  obtain ⟨r, hr, _⟩ := ok_of_check (x := resolve exLinked.toModel none) (P := fun _ => true) (by decide +kernel)
  exact C09_denotation_unique exLinked.toModel (dotFree_of (by decide +kernel)) r hr _ _ _ h1 h2

theorem exLinked_ends : (∀ p, Denotes exLinked.toModel "s".toList p → p = "s".toList) ∧ (∀ p, Denotes exLinked.toModel "m.a".toList p → p = "m.a".toList) ∧
    (∀ p, Denotes exLinked.toModel "m.c".toList p → p = "m.c".toList) ∧ ∀ p, Denotes exLinked.toModel "c".toList p → p = "c".toList :=
  ⟨fun _ h => exLinked_denotes h (.promoted exLinked_vars.1), fun _ h => exLinked_denotes h (.promoted exLinked_vars.2.1), fun _ h => exLinked_denotes h (.promoted exLinked_vars.2.2.1),
    fun _ h => exLinked_denotes h (.promoted exLinked_vars.2.2.2)⟩

theorem exLinked_noChain : NoChain exLinked.toModel := by
  obtain ⟨e1, e2, e3, e4⟩ := exLinked_ends
  constructor
  · intro i hi p h1 h2
    rw [exLinked_issued, List.mem_cons, List.mem_singleton] at hi
    rcases hi with rfl | rfl
    · exact absurd ((e1 p h1).symm.trans (e2 p h2)) (by decide)
    · exact absurd ((e3 p h1).symm.trans (e4 p h2)) (by decide)
  · rw [exLinked_issued]
    refine List.pairwise_pair.2 fun p h1 h2 => ?_
    exact absurd ((e3 p h1).symm.trans (e2 p h2)) (by decide)

/-- the rank by promoted name -/
def exLinkedRank (p : Name) : Nat := if p = "x".toList then 0 else if p = "s".toList ∨ p = "m.a".toList then 1 else if p = "c".toList ∨ p = "m.c".toList then 2 else 3

theorem exLinked_named {x : Nat} {name : Name} (h : exLinked.Named x name) : (x = 0 ∧ name = "x".toList) ∨ (x = 2 ∧ name = "s".toList) ∨ (x = 3 ∧ name = "c".toList) ∨ (x = 4 ∧ name = "t".toList) := by
  have h1 : (exLinked.stmts 0).filterMap inputOf = [(0, "x".toList, [1])] := by decide
  have h2 : (exLinked.stmts 0).filterMap declaredOf = [(3, "c".toList, [1])] := by decide
  have h3 : (exLinked.stmts 0).filterMap outputOf = [(2, "s".toList), (4, "t".toList)] := by decide
  unfold Body.Named at h
  rw [h1, h2, h3] at h
  simp only [List.mem_singleton, Prod.mk.injEq, List.mem_cons, List.not_mem_nil, or_false] at h
  rcases h with ⟨s, h | h⟩ | h | h
  · exact Or.inl ⟨h.1, h.2.1⟩
  · exact Or.inr (Or.inr (Or.inl ⟨h.1, h.2.1⟩))
  · exact Or.inr (Or.inl h)
  · exact Or.inr (Or.inr (Or.inr h))

theorem exLinked_hasName {path : List Name} {x : Nat} {p : Name} (h : HasName exLinked path x p) : exRank (path, x) = exLinkedRank p := by
  obtain ⟨b', name, k, w, h1, _, h3, h4, h5⟩ := h
  rcases exLinked_at h1 with ⟨rfl, rfl⟩ | ⟨rfl, rfl⟩
  · rcases exLinked_promoted h4 with ⟨_, rfl, rfl, rfl⟩ | ⟨_, rfl, rfl, rfl⟩ | ⟨_, rfl, rfl, rfl⟩ | ⟨_, rfl, rfl, rfl⟩ | ⟨e, _⟩ | ⟨e, _⟩ <;> first | (cases e; done) | skip
    all_goals
      subst h5
      rcases exLinked_named h3 with ⟨rfl, e⟩ | ⟨rfl, e⟩ | ⟨rfl, e⟩ | ⟨rfl, e⟩ <;> first | exact absurd e (by decide) | decide
  · rcases exLinked_promoted h4 with ⟨e, _⟩ | ⟨e, _⟩ | ⟨e, _⟩ | ⟨e, _⟩ | ⟨_, rfl, rfl, rfl⟩ | ⟨_, rfl, rfl, rfl⟩ <;> first | (cases e; done) | skip
    all_goals
      subst h5
      rcases exSub_named h3 with ⟨rfl, e⟩ | ⟨rfl, e⟩ <;> first | exact absurd e (by decide) | decide

theorem exLinked_same {q r : List Name × Nat} (h : Relation.EqvGen (Same exLinked) q r) : exRank q = exRank r := by
  induction h with
  | rel q r h =>
    cases h with
    | name p h1 h2 => rw [exLinked_hasName h1, exLinked_hasName h2]
    | connection path b' s t p q hb hc h1 h2 h3 h4 =>
      rw [exLinked_hasName h3, exLinked_hasName h4]
      rcases exLinked_at hb with ⟨rfl, rfl⟩ | ⟨rfl, rfl⟩
      · have : exLinked.locals.connections = [("s".toList, "m.a".toList), ("m.c".toList, "c".toList)] := by decide +kernel
        rw [this, List.mem_cons, List.mem_singleton, Prod.mk.injEq, Prod.mk.injEq] at hc
        rcases hc with ⟨rfl, rfl⟩ | ⟨rfl, rfl⟩
        · rw [exLinked_ends.1 _ h1, exLinked_ends.2.1 _ h2]; decide
        · rw [exLinked_ends.2.2.1 _ h1, exLinked_ends.2.2.2 _ h2]; decide
      · have : exSub.locals.connections = [] := by decide
        rw [this] at hc; cases hc
    | @«alias» path x y b' hb hl hl' hx =>
      clear hl hl'
      induction hx with
      | refl => rfl
      | symm _ ih => exact ih.symm
      | trans _ _ ih1 ih2 => exact ih1.trans ih2
      | plus hx =>
        rcases exLinked_at hb with ⟨rfl, rfl⟩ | ⟨rfl, rfl⟩
        · rw [exLinked_stmts] at hx
          simp only [List.mem_cons, Prod.mk.injEq, reduceCtorEq, and_false, false_or, Stmt.expr.injEq, Instr.pos.injEq, List.not_mem_nil, or_false] at hx
          obtain ⟨rfl, rfl⟩ := hx
          decide
        · rw [exSub_stmts] at hx
          simp at hx
      | part hx =>
        rcases exLinked_at hb with ⟨rfl, rfl⟩ | ⟨rfl, rfl⟩
        · rw [exLinked_stmts] at hx
          simp at hx
        · rw [exSub_stmts] at hx
          simp at hx
  | refl => rfl
  | symm _ _ _ ih => exact ih.symm
  | trans _ _ _ _ _ ih1 ih2 => exact ih1.trans ih2

theorem exLinked_feeds {q r : List Name × Nat} (h : Feeds exLinked q r) : exRank q < exRank r := by
  obtain ⟨path, x⟩ := q
  obtain ⟨path', y⟩ := r
  rcases h with ⟨b', n, s, e, hb, hs, hc, h1, h2, _, hx⟩ | ⟨b', _, _, _, _, _, hb, _, n, z, h, _⟩
  swap
  · exact absurd ⟨_, b', n, z, _, _, hb, h⟩ exLinked_plain
  simp only at e hb h1 h2 hx
  subst e
  unfold Body.Has at hs
  rcases exLinked_at hb with ⟨rfl, rfl⟩ | ⟨rfl, rfl⟩
  · rw [exLinked_stmts] at hs
    simp only [List.mem_cons, Prod.mk.injEq, List.not_mem_nil, or_false] at hs
    rcases hs with ⟨rfl, rfl⟩ | ⟨rfl, rfl⟩ | ⟨rfl, rfl⟩ | ⟨rfl, rfl⟩ | ⟨rfl, rfl⟩ | ⟨rfl, rfl⟩ | ⟨rfl, rfl⟩ | ⟨rfl, rfl⟩ | ⟨rfl, rfl⟩ <;> first | exact hc.elim | skip
    · obtain rfl : y = 1 := by simp only [Stmt.count] at h2; omega
      simp only [Stmt.operands, Instr.first, Instr.others, List.mem_cons, List.not_mem_nil, or_false, or_self] at hx
      subst hx
      decide
    · obtain rfl : y = 4 := by simp only [Stmt.count] at h2; omega
      simp only [Stmt.operands, Instr.first, Instr.others, List.mem_cons, List.not_mem_nil, or_false] at hx
      rcases hx with rfl | rfl <;> decide
  · rw [exSub_stmts] at hs
    simp only [List.mem_cons, Prod.mk.injEq, List.not_mem_nil, or_false] at hs
    rcases hs with ⟨rfl, rfl⟩ | ⟨rfl, rfl⟩ | ⟨rfl, rfl⟩ <;> first | exact hc.elim | skip
    obtain rfl : y = 1 := by simp only [Stmt.count, List.length_singleton] at h2; omega
    simp only [Stmt.operands, List.mem_singleton] at hx
    subst hx
    decide

theorem exLinked_valid : ValidProgram exLinked := by
  have hsz : ∀ {path b'}, BAt exLinked path b' → ∀ {path k v p}, PromotedAs b'.toModel path k v p → v.shape = [1] := by
    intro path b' hb path' k v p h
    rcases exLinked_at hb with ⟨_, rfl⟩ | ⟨_, rfl⟩
    · rcases exLinked_promoted h with ⟨_, _, rfl, _⟩ | ⟨_, _, rfl, _⟩ | ⟨_, _, rfl, _⟩ | ⟨_, _, rfl, _⟩ | ⟨_, _, rfl, _⟩ | ⟨_, _, rfl, _⟩ <;> rfl
    · rcases exSub_promoted h with ⟨_, _, rfl, _⟩ | ⟨_, _, rfl, _⟩ <;> rfl
  have k1 : exSub.Live 1 := .output (name := "c".toList) (by decide)
  have k0 : exSub.Live 0 := .operand (n := 1) (s := .call () [0] [[1]]) k1 (by simp [Body.Has, exSub_stmts]) (by decide) (by decide) (by decide)
  have k3 : exLinked.Live 3 := .operand (n := 4) (y := 4) (s := .expr (.add 3 0)) (.output (name := "t".toList) (by decide)) (by simp [Body.Has, exLinked_stmts]) (by decide) (by decide) (by decide)
  have atM : BAt exLinked ["m".toList] exSub := .down (p := some []) (by simp [exLinked, Body.subs]) (.here _)
  refine ⟨exLinked_methods, exLinked_good, ?_, ?_, ?_, ?_, ?_, exLinked_noChain, ?_⟩
  · intro path b' hb p path1 v1 path2 v2 h1 h2
    rcases exLinked_at hb with ⟨_, rfl⟩ | ⟨_, rfl⟩
    · rcases exLinked_promoted h1 with ⟨rfl, e, rfl, rfl⟩ | ⟨rfl, e, rfl, rfl⟩ | ⟨rfl, e, rfl, rfl⟩ | ⟨rfl, e, rfl, rfl⟩ | ⟨rfl, e, rfl, rfl⟩ | ⟨rfl, e, rfl, rfl⟩ <;>
      rcases exLinked_promoted h2 with ⟨rfl, e', rfl, q⟩ | ⟨rfl, e', rfl, q⟩ | ⟨rfl, e', rfl, q⟩ | ⟨rfl, e', rfl, q⟩ | ⟨rfl, e', rfl, q⟩ | ⟨rfl, e', rfl, q⟩ <;>
      first | rfl | (cases e; done) | (cases e'; done) | exact absurd q (by decide)
    · rcases exSub_promoted h1 with ⟨rfl, _⟩ | ⟨rfl, _⟩ <;> rcases exSub_promoted h2 with ⟨rfl, _⟩ | ⟨rfl, _⟩ <;> rfl
  · intro path b' hb p k1 path1 v1 k2 path2 v2 h1 h2 _
    rw [hsz hb h1, hsz hb h2]
  · intro path b' hb n q sub hs x hx
    rcases exLinked_at hb with ⟨_, rfl⟩ | ⟨_, rfl⟩
    · simp only [exLinked, Body.subs, List.mem_singleton, Prod.mk.injEq, Option.some.injEq] at hs
      obtain ⟨rfl, rfl, rfl⟩ := hs
      cases hx
    · simp [exSub, Body.subs] at hs
  · intro path b' a c hb hc
    rcases exLinked_at hb with ⟨rfl, rfl⟩ | ⟨rfl, rfl⟩
    · have : exLinked.locals.connections = [("s".toList, "m.a".toList), ("m.c".toList, "c".toList)] := by decide +kernel
      rw [this, List.mem_cons, List.mem_singleton, Prod.mk.injEq, Prod.mk.injEq] at hc
      rcases hc with ⟨rfl, rfl⟩ | ⟨rfl, rfl⟩
      · refine ⟨_, _, Denotes.promoted exLinked_vars.1, Denotes.promoted exLinked_vars.2.1, ⟨_, _, exLinked_vars.1⟩,
          ⟨["m".toList], 0, exSub, "a".toList, .target, ⟨"a".toList, [1]⟩, atM, k0, Or.inl ⟨[1], Or.inr (by decide)⟩, exLinked_vars.2.1, rfl⟩, ?_, ?_⟩
        · intro path b' w _ _ hp
          rcases exLinked_promoted hp with ⟨_, e, _, q⟩ | ⟨_, e, _, q⟩ | ⟨_, e, _, q⟩ | ⟨_, e, _, q⟩ | ⟨_, e, _, q⟩ | ⟨_, e, _, q⟩ <;> first | (cases e; done) | exact absurd q (by decide)
        · intro k path w k' path' w' h1 h2
          rw [hsz (.here _) h1, hsz (.here _) h2]
      · refine ⟨_, _, Denotes.promoted exLinked_vars.2.2.1, Denotes.promoted exLinked_vars.2.2.2, ⟨_, _, exLinked_vars.2.2.1⟩,
          ⟨[], 3, exLinked, "c".toList, .target, ⟨"c".toList, [1]⟩, .here _, k3, Or.inl ⟨[1], Or.inr (by decide)⟩, exLinked_vars.2.2.2, rfl⟩, ?_, ?_⟩
        · intro path b' w _ _ hp
          rcases exLinked_promoted hp with ⟨_, e, _, q⟩ | ⟨_, e, _, q⟩ | ⟨_, e, _, q⟩ | ⟨_, e, _, q⟩ | ⟨_, e, _, q⟩ | ⟨_, e, _, q⟩ <;> first | (cases e; done) | exact absurd q (by decide)
        · intro k path w k' path' w' h1 h2
          rw [hsz (.here _) h1, hsz (.here _) h2]
    · have : exSub.locals.connections = [] := by decide
      rw [this] at hc; cases hc
  · rw [exLinked_issued]
    refine List.pairwise_pair.2 fun p h1 h2 => ?_
    exact absurd ((exLinked_ends.2.1 p h1).symm.trans (exLinked_ends.2.2.2 p h2)) (by decide)
  · rintro ⟨q, hq⟩
    have key : ∀ a c, Relation.TransGen (fun a c => ∃ a', Relation.EqvGen (Same exLinked) a a' ∧ Feeds exLinked a' c) a c → exRank a < exRank c := by
      intro a c h
      induction h with
      | single h => obtain ⟨a', h1, h2⟩ := h; rw [exLinked_same h1]; exact exLinked_feeds h2
      | tail _ h ih => obtain ⟨a', h1, h2⟩ := h; have := exLinked_feeds h2; rw [← exLinked_same h1] at this; omega
    exact absurd (key q q hq) (Nat.lt_irrefl _)


/-- the hypotheses of `C97_promote_or_connect` hold: the value of `t` is the same in both programs -/
example : ∃ objs root objs' root' rep rep', runProgram exMain = .ok (objs, root) ∧ runProgram exLinked = .ok (objs', root') ∧ compile (objects objs) 20 id root = .ok rep ∧ compile (objects objs') 20 id root' = .ok rep' ∧
    ∃ (f f' : Nat → Nat) (node node' : List Name → Nat → Nat), ∀ (P : Power ℚ) (den : Unit → List (Val ℚ) → Nat → Val ℚ) (σ0 σ0' : Env (Val ℚ)),
      (∀ path x, GivenVar exMain path x → σ0 (node path x) = σ0' (node' path x)) →
      execAll rep.graph ⟨fun i => decide ((objects objs i).kind = .op), fun i => (objects objs i).deps.map f, opMeaning P den objs⟩ σ0 rep.sorted (node [] 4) =
        execAll rep'.graph ⟨fun i => decide ((objects objs' i).kind = .op), fun i => (objects objs' i).deps.map f', opMeaning P den objs'⟩ σ0' rep'.sorted (node' [] 4) := by
  obtain ⟨objs, root, objs', root', h1, h1', h2⟩ := C97_promote_or_connect _ _ exMain exLinked exMain_valid exLinked_valid exLinked_instead (fun h => absurd h exMain_plain) fun h => absurd h exLinked_plain
  obtain ⟨⟨os, rt⟩, r1, r2⟩ := ok_of_check (x := runProgram exMain) (P := fun q => decide (q.1.length = 12)) (by decide +kernel)
  obtain ⟨⟨os', rt'⟩, r1', r2'⟩ := ok_of_check (x := runProgram exLinked) (P := fun q => decide (q.1.length = 12)) (by decide +kernel)
  rw [r1] at h1
  rw [r1'] at h1'
  cases h1
  cases h1'
  have l1 := of_decide_eq_true r2
  have l2 := of_decide_eq_true r2'
  dsimp only at l1 l2
  obtain ⟨rep, rep', c1, c2, f, f', node, node', h3⟩ := h2 (by rw [l1]; decide) (by rw [l2]; decide) id (fun _ _ => Iff.rfl) 20 (by
    intro path b' h
    rw [l1, l2]
    rcases exMain_at h with ⟨_, rfl⟩ | ⟨_, rfl⟩ <;> decide)
  refine ⟨_, _, _, _, rep, rep', r1, r1', c1, c2, f, f', node, node', fun P den σ0 σ0' he => ?_⟩
  exact (h3 P den σ0 σ0').2.2.2 he [] exMain (.here _) 4 (.output (name := "t".toList) (by decide))

end Csdl.Prog
