import Verif.Proofs.Refactor3
import Verif.Props.OneModel
/-
C99: replacing the method of a model by another one that computes the same changes nothing.
-/
namespace Csdl.Prog
open Csdl Csdl.Arith
variable {K F : Type} [Field K] [DecidableEq K]

/-- **C99.** Let a model of a valid program get another method with the same inputs, outputs, declared variables, connections and submodels, whose statements are fine on their own and in which variables with names are computed from no
other variables with names than before.  Then the program is still valid. -/
theorem C99_refactored_valid (b b' c c' : Body K F) (q : List Name) (hv : ValidProgram b) (h : Replaced c c' b q b') (hi : SameInterface c c') (hm : MethodOk c') (hn : NoNewDependencies c c')
    (hs : b'.Assigns → b'.maxObjects ≤ 63 ^ 4) : ValidProgram b' := hv.replaced h hi hm hn hs

/-- **C99.** Let a model of a valid program get another method with the same interface, such that the program is valid.  Run and compile both programs.  Whenever the new method computes the same as the old one (values that satisfy its
statements come with values that satisfy the statements of the old one and agree on the variables that have names) and the variables whose values must be given are given the same values in both programs, every variable outside of the
model, and every variable of the model that has a name, has the same value in both. -/
theorem C99_refactored_same (b b' c c' : Body K F) (q : List Name) (hv : ValidProgram b) (hv' : ValidProgram b') (h : Replaced c c' b q b') (hi : SameInterface c c') (hs : b.Assigns → b.maxObjects ≤ 63 ^ 4)
    (hs' : b'.Assigns → b'.maxObjects ≤ 63 ^ 4) :
    ∃ objs root objs' root', runProgram b = .ok (objs, root) ∧ runProgram b' = .ok (objs', root') ∧ (objs.length ≤ 63 ^ 4 → objs'.length ≤ 63 ^ 4 →
      ∀ order : List Nat → List Nat, (∀ l x, x ∈ order l ↔ x ∈ l) → ∀ fuel, (∀ path d, BAt b path d → (d.locals.outputs ++ d.locals.declared).length + max objs.length objs'.length ≤ fuel) →
      ∃ rep rep', compile (objects objs) fuel order root = .ok rep ∧ compile (objects objs') fuel order root' = .ok rep' ∧
        ∃ (f f' : Nat → Nat) (node node' : List Name → Nat → Nat), ∀ (P : Power K) (den : F → List (Val K) → Nat → Val K) (σ0 σ0' : Env (Val K)),
          let value := fun path x => execAll rep.graph ⟨fun i => decide ((objects objs i).kind = .op), fun i => (objects objs i).deps.map f, opMeaning P den objs⟩ σ0 rep.sorted (node path x)
          let value' := fun path x => execAll rep'.graph ⟨fun i => decide ((objects objs' i).kind = .op), fun i => (objects objs' i).deps.map f', opMeaning P den objs'⟩ σ0' rep'.sorted (node' path x)
          Solution P den b value ∧ Solution P den b' value' ∧ (∀ path x, GivenVar b path x → value path x = σ0 (node path x)) ∧ (∀ path x, GivenVar b' path x → value' path x = σ0' (node' path x)) ∧
          (Refines P den c c' → (∀ path x, path ≠ q → GivenVar b path x → σ0 (node path x) = σ0' (node' path x)) →
            (∀ x y name, GivenVar b q x → c.Named x name → c'.Live y → c'.Named y name → σ0 (node q x) = σ0' (node' q y)) →
            (∀ path d, BAt b path d → path ≠ q → ∀ x, d.Live x → value path x = value' path x) ∧
            ∀ x y name, c.Live x → c.Named x name → c'.Live y → c'.Named y name → value q x = value' q y)) := by
  obtain ⟨objs, root, h1, h2⟩ := C74_valid_programs_compute b hv hs
  obtain ⟨objs', root', h1', h2'⟩ := C74_valid_programs_compute b' hv' hs'
  refine ⟨objs, root, objs', root', h1, h1', fun hn hn' order ho fuel hf => ?_⟩
  have R : Refactored c c' b q b' := ⟨hv.namesValid, hv'.namesValid, h, hi⟩
  have mf := methodFacts hv.namesValid h1 R.step.bat
  have mf' := methodFacts hv'.namesValid h1' R.step.symm.bat
  obtain ⟨rep, hc, f, node, h3⟩ := h2 hn order ho fuel fun path c hc => (Nat.add_le_add_left (Nat.le_max_left ..) _).trans (hf path c hc)
  obtain ⟨rep', hc', f', node', h3'⟩ := h2' hn' order ho fuel fun path d hd => by
    obtain ⟨d', k1, k2⟩ := R.symm.locals hd
    rw [k2]
    exact (Nat.add_le_add_left (Nat.le_max_right ..) _).trans (hf path d' k1)
  refine ⟨rep, rep', hc, hc', f, f', node, node', fun P den σ0 σ0' => ?_⟩
  obtain ⟨s1, s2, s3⟩ := h3 P den σ0
  obtain ⟨t1, t2, t3⟩ := h3' P den σ0'
  refine ⟨s1, t1, s2, t2, fun hr g1 g2 => ?_⟩
  obtain ⟨ρc, r1, r2⟩ := hr _ (R.symm.methodSolution t1)
  have hsol := R.solution t1 r1 r2
  have hall := s3 _ hsol fun path x hg => by
    by_cases hp : path = q
    · subst hp
      rw [if_pos rfl]
      obtain ⟨v, name, k1, k2, k3, k4⟩ := R.givenNamed mf x hg
      obtain ⟨y, k5, k6⟩ := (R.iface.matters name).1 ⟨v, k1, k2⟩
      have e1 := k4 P den _ (R.methodSolution s1)
      have hgy : GivenVar b' path y := R.given mf mf' (e' := (path, y)) (e := (path, v)) (Or.inr ⟨rfl, rfl, k1, name, y, k5, k6, .refl _, k2⟩) ⟨c', R.step.symm.bat, k5⟩ k3
      exact (k4 P den _ r1).trans ((r2 name v y k1 k2 k5 k6).trans ((t2 path y hgy).trans ((g2 v y name k3 k2 k5 k6).symm.trans ((s2 path v k3).symm.trans (e1.symm.trans (s2 path x hg))))))
    · rw [if_neg hp]
      obtain ⟨d, k1, k2⟩ := hg.1
      obtain ⟨d', k3, k4⟩ := R.other k1 hp
      have hg' : GivenVar b' path x := R.given mf mf' (e' := (path, x)) (e := (path, x)) (Or.inl ⟨hp, rfl⟩) ⟨d', k3, (sameStatements_of_stmts k4).live k2⟩ hg
      exact (t2 path x hg').trans (g1 path x hp hg).symm
  refine ⟨fun path d hd hp x hl => ?_, fun x y name k1 k2 k3 k4 => ?_⟩
  · have := hall path d hd x hl
    rw [if_neg hp] at this
    exact this.symm
  · have := hall q c R.step.bat x k1
    rw [if_pos rfl] at this
    rw [← this, r2 name x y k1 k2 k3 k4]

/-! ### Example: another method for the submodel of `exMain` -/

/-- `def define(self): a = declare_variable('a'); d = a + a; e = d - a; c = f(e); register_output('c', c)` instead of `a = declare_variable('a'); c = f(a); register_output('c', c)` -/
def exSub2 : Body ℚ Unit :=
  .stmt (.declare "a".toList [1] none) (.stmt (.expr (.add 0 0)) (.stmt (.expr (.sub 1 0)) (.stmt (.call () [2] [[1]]) (.stmt (.register "c".toList 3) .done))))

/-- `exMain` with `exSub2` -/
def exMain2 : Body ℚ Unit :=
  .stmt (.input "x".toList [1] (fun _ => 1)) (.stmt (.expr (.mul 0 0)) (.stmt (.expr (.pos 1)) (.stmt (.register "s".toList 2) (.stmt (.connect "s".toList "m.a".toList)
    (.add false "m".toList (some ["c".toList]) exSub2 (.stmt (.declare "c".toList [1] none) (.stmt (.expr (.add 3 0)) (.stmt (.register "t".toList 4) .done))))))))

theorem exMain2_step : Replaced exSub exSub2 exMain ["m".toList] exMain2 := .stmt _ (.stmt _ (.stmt _ (.stmt _ (.stmt _ (.sub _ _ _ _ .here)))))

theorem exSub2_stmts : exSub2.stmts 0 = [(0, .declare "a".toList [1] none), (1, .expr (.add 0 0)), (2, .expr (.sub 1 0)), (3, .call () [2] [[1]]), (4, .register "c".toList 3)] := rfl

theorem exSub2_named {x : Nat} {name : Name} (h : exSub2.Named x name) : (x = 0 ∧ name = "a".toList) ∨ (x = 3 ∧ name = "c".toList) := by
  have h1 : (exSub2.stmts 0).filterMap inputOf = [] := by decide
  have h2 : (exSub2.stmts 0).filterMap declaredOf = [(0, "a".toList, [1])] := by decide
  have h3 : (exSub2.stmts 0).filterMap outputOf = [(3, "c".toList)] := by decide
  rcases h with ⟨sh, h | h⟩ | h
  · rw [h1] at h; cases h
  · rw [h2, List.mem_singleton] at h; cases h; exact Or.inl ⟨rfl, rfl⟩
  · rw [h3, List.mem_singleton] at h; cases h; exact Or.inr ⟨rfl, rfl⟩

theorem exSub2_live : exSub2.Live 3 ∧ exSub2.Live 2 ∧ exSub2.Live 1 ∧ exSub2.Live 0 := by
  have k3 : exSub2.Live 3 := .output (name := "c".toList) (by decide)
  have k2 : exSub2.Live 2 := .operand (n := 3) (s := .call () [2] [[1]]) k3 (by simp [Body.Has, exSub2_stmts]) (by decide) (by decide) (by decide)
  have k1 : exSub2.Live 1 := .operand (n := 2) (s := .expr (.sub 1 0)) k2 (by simp [Body.Has, exSub2_stmts]) (by decide) (by decide) (by decide)
  exact ⟨k3, k2, k1, .operand (n := 1) (s := .expr (.add 0 0)) k1 (by simp [Body.Has, exSub2_stmts]) (by decide) (by decide) (by decide)⟩

theorem exSub_lives : exSub.Live 1 ∧ exSub.Live 0 := by
  have k1 : exSub.Live 1 := .output (name := "c".toList) (by decide)
  exact ⟨k1, .operand (n := 1) (s := .call () [0] [[1]]) k1 (by simp [Body.Has, exSub_stmts]) (by decide) (by decide) (by decide)⟩

theorem exSub_a : exSub.Named 0 "a".toList := Or.inl ⟨[1], Or.inr (by decide)⟩
theorem exSub_c : exSub.Named 1 "c".toList := Or.inr (by decide)
theorem exSub2_a : exSub2.Named 0 "a".toList := Or.inl ⟨[1], Or.inr (by decide)⟩
theorem exSub2_c : exSub2.Named 3 "c".toList := Or.inr (by decide)

theorem exSub_iface : SameInterface exSub exSub2 := by
  refine ⟨rfl, rfl, fun name => ⟨?_, ?_⟩⟩
  · rintro ⟨x, _, h⟩
    rcases exSub_named h with ⟨_, rfl⟩ | ⟨_, rfl⟩
    · exact ⟨0, exSub2_live.2.2.2, exSub2_a⟩
    · exact ⟨3, exSub2_live.1, exSub2_c⟩
  · rintro ⟨x, _, h⟩
    rcases exSub2_named h with ⟨_, rfl⟩ | ⟨_, rfl⟩
    · exact ⟨0, exSub_lives.2, exSub_a⟩
    · exact ⟨1, exSub_lives.1, exSub_c⟩

theorem exSub2_same {x y : Nat} (h : Relation.EqvGen (MethodSame exSub2) x y) : x = y := by
  induction h with
  | rel x y h =>
    obtain ⟨_, _, h | ⟨name, h1, h2⟩⟩ := h
    · refine alias_eq ?_ h
      rw [exSub2_stmts]
      simp
    · rcases exSub2_named h1 with ⟨rfl, rfl⟩ | ⟨rfl, rfl⟩ <;> rcases exSub2_named h2 with ⟨rfl, e⟩ | ⟨rfl, e⟩ <;> first | rfl | exact absurd e (by decide)
  | refl => rfl
  | symm _ _ _ ih => exact ih.symm
  | trans _ _ _ _ _ ih1 ih2 => exact ih1.trans ih2

theorem exSub2_uses {x z : Nat} (h : MethodUses exSub2 x z) : x < z := by
  have key : ∀ {x z}, (∃ a', Relation.EqvGen (MethodSame exSub2) x a' ∧ MethodFeeds exSub2 a' z) → x < z := by
    rintro x z ⟨a, h1, h2⟩
    obtain rfl := exSub2_same h1
    rcases h2 with ⟨n, s, g1, g2, g3, g4, _, g6⟩ | ⟨_, _, _, _, g1, _⟩
    · unfold Body.Has at g1
      rw [exSub2_stmts] at g1
      simp only [List.mem_cons, Prod.mk.injEq, List.not_mem_nil, or_false] at g1
      rcases g1 with ⟨rfl, rfl⟩ | ⟨rfl, rfl⟩ | ⟨rfl, rfl⟩ | ⟨rfl, rfl⟩ | ⟨rfl, rfl⟩ <;> first | exact g2.elim | skip
      all_goals
        simp only [Stmt.operands, Instr.first, Instr.others, List.mem_cons, List.not_mem_nil, or_false] at g6
        omega
    · unfold Body.Has at g1
      rw [exSub2_stmts] at g1
      simp at g1
  unfold MethodUses at h
  induction h with
  | single h => exact key h
  | tail _ h ih => exact ih.trans (key h)

theorem exSub_dependencies : NoNewDependencies exSub exSub2 := by
  refine ⟨fun x h => absurd (exSub2_uses h) (Nat.lt_irrefl _), ?_⟩
  rintro n m ⟨x, z, y, _, h2, h3, h4, _, h6⟩
  obtain rfl := exSub2_same h4
  have hlt := exSub2_uses h3
  rcases exSub2_named h2 with ⟨rfl, rfl⟩ | ⟨rfl, rfl⟩ <;> rcases exSub2_named h6 with ⟨rfl, rfl⟩ | ⟨rfl, rfl⟩ <;> first | omega | skip
  exact ⟨0, 1, 1, exSub_lives.2, exSub_a, .single ⟨0, .refl _, Or.inl ⟨1, .call () [0] [[1]], by simp [Body.Has, exSub_stmts], trivial, by decide, by decide, exSub_lives.1, by decide⟩⟩, .refl _, exSub_lives.1, exSub_c⟩

theorem exSub2_at {path : List Name} {c : Body ℚ Unit} (h : BAt exSub2 path c) : path = [] ∧ c = exSub2 := by
  cases h with
  | here => exact ⟨rfl, rfl⟩
  | down h _ => simp [exSub2, Body.subs] at h

theorem exSub2_plain : ¬ exSub2.Assigns := by
  rintro ⟨path, b', n, z, key, x, hb, h⟩
  obtain ⟨_, rfl⟩ := exSub2_at hb
  unfold Body.Has at h
  rw [exSub2_stmts] at h
  simp at h

/-- by C74, the method is fine because it runs -/
theorem exSub2_ok : MethodOk exSub2 := by
  obtain ⟨⟨objs, root⟩, h, _⟩ := ok_of_check (x := runProgram exSub2) (P := fun _ => true) (by decide +kernel)
  exact (C74_programs_run_iff exSub2 fun h => absurd h exSub2_plain).1 ⟨objs, root, h⟩ [] exSub2 (.here _)

theorem exMain2_at {path : List Name} {b' : Body ℚ Unit} (h : BAt exMain2 path b') : (path = [] ∧ b' = exMain2) ∨ (path = ["m".toList] ∧ b' = exSub2) := by
  cases h with
  | here => exact Or.inl ⟨rfl, rfl⟩
  | down h1 h2 =>
    simp only [exMain2, Body.subs, List.mem_singleton, Prod.mk.injEq] at h1
    obtain ⟨rfl, rfl, rfl⟩ := h1
    obtain ⟨rfl, rfl⟩ := exSub2_at h2
    exact Or.inr ⟨rfl, rfl⟩

theorem exMain2_plain : ¬ exMain2.Assigns := by
  rintro ⟨path, b', n, z, key, x, hb, h⟩
  unfold Body.Has at h
  rcases exMain2_at hb with ⟨_, rfl⟩ | ⟨_, rfl⟩
  · simp [exMain2, Body.stmts] at h
  · rw [exSub2_stmts] at h; simp at h

theorem exMain2_valid : ValidProgram exMain2 :=
  C99_refactored_valid exMain exMain2 exSub exSub2 _ exMain_valid exMain2_step exSub_iface exSub2_ok exSub_dependencies fun h => absurd h exMain2_plain

theorem exSub_refines (P : Power ℚ) (den : Unit → List (Val ℚ) → Nat → Val ℚ) : Refines P den exSub exSub2 := by
  intro ρ' h
  have e1 := h.expr 1 (.add 0 0) (by simp [Body.Has, exSub2_stmts]) exSub2_live.2.2.1
  have e2 := h.expr 2 (.sub 1 0) (by simp [Body.Has, exSub2_stmts]) exSub2_live.2.1
  have e3 := h.call 3 () [2] [[1]] (by simp [Body.Has, exSub2_stmts]) 0 (by decide) exSub2_live.1
  have e4 : ρ' 2 = ρ' 0 := by
    funext i
    rw [e2]
    simp only [Instr.meaning, List.range_succ, List.range_zero, List.map_append, List.map_cons, List.map_nil, List.nil_append, List.cons_append, List.getD_cons_succ, List.getD_cons_zero]
    rw [e1]
    simp only [Instr.meaning, List.range_succ, List.range_zero, List.map_append, List.map_cons, List.map_nil, List.nil_append, List.cons_append, List.getD_cons_succ, List.getD_cons_zero]
    ring
  refine ⟨fun x => if x = 1 then ρ' 3 else ρ' 0, ?_, ?_⟩
  · constructor
    · intro n i hn
      unfold Body.Has at hn
      rw [exSub_stmts] at hn
      simp at hn
    · intro n f args outs hn j hj _
      unfold Body.Has at hn
      rw [exSub_stmts] at hn
      simp only [List.mem_cons, Prod.mk.injEq, reduceCtorEq, and_false, false_or, or_false, List.not_mem_nil, Stmt.call.injEq] at hn
      obtain ⟨rfl, _, rfl, rfl⟩ := hn
      obtain rfl : j = 0 := by simpa using hj
      simpa [e4] using e3
    · intro n x key hn
      unfold Body.Has at hn
      rw [exSub_stmts] at hn
      simp at hn
    · intro y name shape val hn
      unfold Body.Has at hn
      rw [exSub_stmts] at hn
      simp at hn
    · intro x y name _ h1 _ h2
      rcases exSub_named h1 with ⟨rfl, rfl⟩ | ⟨rfl, rfl⟩ <;> rcases exSub_named h2 with ⟨rfl, e⟩ | ⟨rfl, e⟩ <;> first | rfl | exact absurd e (by decide)
  · intro name x y _ h1 _ h2
    rcases exSub_named h1 with ⟨rfl, rfl⟩ | ⟨rfl, rfl⟩ <;> rcases exSub2_named h2 with ⟨rfl, e⟩ | ⟨rfl, e⟩ <;> first | rfl | exact absurd e (by decide)

/-- only the value of `x` must be given -/
theorem exMain_given {path : List Name} {x : Nat} (h : GivenVar exMain path x) : path = [] ∧ x = 0 := by
  obtain ⟨⟨d, hd, hl⟩, hg⟩ := h
  have l4 : exMain.Live 4 := .output (name := "t".toList) (by decide)
  have l2 : exMain.Live 2 := .output (name := "s".toList) (by decide)
  have l1 : exMain.Live 1 := .operand (n := 2) (s := .expr (.pos 1)) l2 (by simp [Body.Has, exMain_stmts]) (by decide) (by decide) (by decide)
  have l3 : exMain.Live 3 := .operand (n := 4) (s := .expr (.add 3 0)) l4 (by simp [Body.Has, exMain_stmts]) (by decide) (by decide) (by decide)
  have atM : BAt exMain ["m".toList] exSub := .down (p := some ["c".toList]) (by simp [exMain, Body.subs]) (.here _)
  have n1 := hg [] exMain 1 (.expr (.mul 0 0)) 1 (.here _) (by simp [Body.Has, exMain_stmts]) trivial (by decide) (by decide) l1
  have n4 := hg [] exMain 4 (.expr (.add 3 0)) 4 (.here _) (by simp [Body.Has, exMain_stmts]) trivial (by decide) (by decide) l4
  have nc := hg ["m".toList] exSub 1 (.call () [0] [[1]]) 1 atM (by simp [Body.Has, exSub_stmts]) trivial (by decide) (by decide) exSub_lives.1
  have a21 : Same exMain ([], 2) ([], 1) := .alias exMain (.here _) l2 l1 (.plus (by simp [exMain_stmts]))
  obtain ⟨v1, v2, v3⟩ := exMain_vars
  have hlt := (exMain_valid.methods path d hd).live_lt hl
  rcases exMain_at hd with ⟨rfl, rfl⟩ | ⟨rfl, rfl⟩
  · have : numVars (exMain.stmts 0) = 5 := by decide
    rw [this] at hlt
    obtain rfl | rfl | rfl | rfl | rfl : x = 0 ∨ x = 1 ∨ x = 2 ∨ x = 3 ∨ x = 4 := by omega
    · exact ⟨rfl, rfl⟩
    · exact absurd (.refl _) n1
    · exact absurd (.rel _ _ a21) n1
    · refine absurd (.rel _ _ (.name "c".toList ?_ ?_)) nc
      · exact ⟨exMain, _, _, _, .here _, l3, Or.inl ⟨[1], Or.inr (by decide)⟩, .here (v := ⟨"c".toList, [1]⟩) (k := .target) (by decide), rfl⟩
      · exact ⟨exSub, _, _, _, atM, exSub_lives.1, exSub_c, v3.1, rfl⟩
    · exact absurd (.refl _) n4
  · have : numVars (exSub.stmts 0) = 2 := by decide
    rw [this] at hlt
    obtain rfl | rfl : x = 0 ∨ x = 1 := by omega
    · have : Same exMain ([], 2) (["m".toList], 0) := .connection [] exMain "s".toList "m.a".toList _ _ (.here _) (by decide) (Denotes.promoted v1) (Denotes.promoted v2)
        ⟨exMain, _, _, _, .here _, l2, Or.inr (by decide), v1, rfl⟩ ⟨exSub, _, _, _, atM, exSub_lives.2, exSub_a, v2, rfl⟩
      exact absurd (Relation.EqvGen.trans _ _ _ (.symm _ _ (.rel _ _ this)) (.rel _ _ a21)) n1
    · exact absurd (.refl _) nc

/-- the hypotheses of C99 hold: the output `t` of the main model has the same value with both submodels, whatever the function means and whatever the value of the input is -/
example : ∃ objs root objs' root' rep rep', runProgram exMain = .ok (objs, root) ∧ runProgram exMain2 = .ok (objs', root') ∧ compile (objects objs) 40 id root = .ok rep ∧ compile (objects objs') 40 id root' = .ok rep' ∧
    ∃ (f f' : Nat → Nat) (node node' : List Name → Nat → Nat), ∀ (P : Power ℚ) (den : Unit → List (Val ℚ) → Nat → Val ℚ) (σ0 σ0' : Env (Val ℚ)), σ0 (node [] 0) = σ0' (node' [] 0) →
      execAll rep.graph ⟨fun i => decide ((objects objs i).kind = .op), fun i => (objects objs i).deps.map f, opMeaning P den objs⟩ σ0 rep.sorted (node [] 4) =
      execAll rep'.graph ⟨fun i => decide ((objects objs' i).kind = .op), fun i => (objects objs' i).deps.map f', opMeaning P den objs'⟩ σ0' rep'.sorted (node' [] 4) := by
  obtain ⟨objs, root, objs', root', h1, h1', h2⟩ := C99_refactored_same exMain exMain2 exSub exSub2 ["m".toList] exMain_valid exMain2_valid exMain2_step exSub_iface (fun h => absurd h exMain_plain) fun h => absurd h exMain2_plain
  obtain ⟨⟨os, rt⟩, r1, r2⟩ := ok_of_check (x := runProgram exMain) (P := fun q => decide (q.1.length ≤ 30)) (by decide +kernel)
  obtain ⟨⟨os', rt'⟩, r1', r2'⟩ := ok_of_check (x := runProgram exMain2) (P := fun q => decide (q.1.length ≤ 30)) (by decide +kernel)
  rw [r1] at h1
  rw [r1'] at h1'
  cases h1
  cases h1'
  have l1 := of_decide_eq_true r2
  have l2 := of_decide_eq_true r2'
  dsimp only at l1 l2
  obtain ⟨rep, rep', c1, c2, f, f', node, node', h3⟩ := h2 (l1.trans (by decide)) (l2.trans (by decide)) id (fun _ _ => Iff.rfl) 40 (by
    intro path b' h
    have hm := Nat.max_le.2 ⟨l1, l2⟩
    have e1 : (exMain.locals.outputs ++ exMain.locals.declared).length = 3 := by decide
    have e2 : (exSub.locals.outputs ++ exSub.locals.declared).length = 2 := by decide
    rcases exMain_at h with ⟨_, rfl⟩ | ⟨_, rfl⟩ <;> omega)
  refine ⟨_, _, _, _, rep, rep', r1, r1', c1, c2, f, f', node, node', fun P den σ0 σ0' he => ?_⟩
  refine ((h3 P den σ0 σ0').2.2.2.2 (exSub_refines P den) (fun path x hp hg => ?_) (fun x y name hg hx _ hy => ?_)).1 [] exMain (.here _) (by simp) 4 (.output (name := "t".toList) (by decide))
  · obtain ⟨rfl, rfl⟩ := exMain_given hg
    exact he
  · obtain ⟨e, _⟩ := exMain_given hg
    cases e

/-! ### The dependencies matter -/

/-- `x = create_input('x'); v = declare_variable('v'); y = 2 * x; register_output('y', y); z = 2 * v; register_output('z', z); connect('y', 'v')` -/
def exOld : Body ℚ Unit :=
  .stmt (.input "x".toList [1] fun _ => 1) (.stmt (.declare "v".toList [1] none) (.stmt (.expr (.mulc 0 (.num 2))) (.stmt (.register "y".toList 2) (.stmt (.expr (.mulc 1 (.num 2))) (.stmt (.register "z".toList 3)
    (.stmt (.connect "y".toList "v".toList) .done))))))

/-- the same with `y = 2 * x + 0 * v` -/
def exNew : Body ℚ Unit :=
  .stmt (.input "x".toList [1] fun _ => 1) (.stmt (.declare "v".toList [1] none) (.stmt (.expr (.mulc 0 (.num 2))) (.stmt (.expr (.mulc 1 (.num 0))) (.stmt (.expr (.add 2 3)) (.stmt (.register "y".toList 4)
    (.stmt (.expr (.mulc 1 (.num 2))) (.stmt (.register "z".toList 5) (.stmt (.connect "y".toList "v".toList) .done))))))))

theorem exOld_named {x : Nat} {name : Name} (h : exOld.Named x name) : (x = 0 ∧ name = "x".toList) ∨ (x = 1 ∧ name = "v".toList) ∨ (x = 2 ∧ name = "y".toList) ∨ (x = 3 ∧ name = "z".toList) := by
  have h1 : (exOld.stmts 0).filterMap inputOf = [(0, "x".toList, [1])] := by decide
  have h2 : (exOld.stmts 0).filterMap declaredOf = [(1, "v".toList, [1])] := by decide
  have h3 : (exOld.stmts 0).filterMap outputOf = [(2, "y".toList), (3, "z".toList)] := by decide
  unfold Body.Named at h
  rw [h1, h2, h3] at h
  simp only [List.mem_singleton, Prod.mk.injEq, List.mem_cons, List.not_mem_nil, or_false] at h
  rcases h with ⟨s, h | h⟩ | h | h
  · exact Or.inl ⟨h.1, h.2.1⟩
  · exact Or.inr (Or.inl ⟨h.1, h.2.1⟩)
  · exact Or.inr (Or.inr (Or.inl h))
  · exact Or.inr (Or.inr (Or.inr h))

theorem exNew_named {x : Nat} {name : Name} (h : exNew.Named x name) : (x = 0 ∧ name = "x".toList) ∨ (x = 1 ∧ name = "v".toList) ∨ (x = 4 ∧ name = "y".toList) ∨ (x = 5 ∧ name = "z".toList) := by
  have h1 : (exNew.stmts 0).filterMap inputOf = [(0, "x".toList, [1])] := by decide
  have h2 : (exNew.stmts 0).filterMap declaredOf = [(1, "v".toList, [1])] := by decide
  have h3 : (exNew.stmts 0).filterMap outputOf = [(4, "y".toList), (5, "z".toList)] := by decide
  unfold Body.Named at h
  rw [h1, h2, h3] at h
  simp only [List.mem_singleton, Prod.mk.injEq, List.mem_cons, List.not_mem_nil, or_false] at h
  rcases h with ⟨s, h | h⟩ | h | h
  · exact Or.inl ⟨h.1, h.2.1⟩
  · exact Or.inr (Or.inl ⟨h.1, h.2.1⟩)
  · exact Or.inr (Or.inr (Or.inl h))
  · exact Or.inr (Or.inr (Or.inr h))

theorem exOld_stmts : exOld.stmts 0 = [(0, .input "x".toList [1] fun _ => 1), (1, .declare "v".toList [1] none), (2, .expr (.mulc 0 (.num 2))), (3, .register "y".toList 2), (3, .expr (.mulc 1 (.num 2))), (4, .register "z".toList 3),
  (4, .connect "y".toList "v".toList)] := rfl

theorem exNew_stmts : exNew.stmts 0 = [(0, .input "x".toList [1] fun _ => 1), (1, .declare "v".toList [1] none), (2, .expr (.mulc 0 (.num 2))), (3, .expr (.mulc 1 (.num 0))), (4, .expr (.add 2 3)), (5, .register "y".toList 4),
  (5, .expr (.mulc 1 (.num 2))), (6, .register "z".toList 5), (6, .connect "y".toList "v".toList)] := rfl

theorem exNew_live : exNew.Live 0 ∧ exNew.Live 1 ∧ exNew.Live 2 ∧ exNew.Live 3 ∧ exNew.Live 4 ∧ exNew.Live 5 := by
  have k4 : exNew.Live 4 := .output (name := "y".toList) (by decide)
  have k5 : exNew.Live 5 := .output (name := "z".toList) (by decide)
  have k2 : exNew.Live 2 := .operand (n := 4) (s := .expr (.add 2 3)) k4 (by simp [Body.Has, exNew_stmts]) (by decide) (by decide) (by decide)
  have k3 : exNew.Live 3 := .operand (n := 4) (s := .expr (.add 2 3)) k4 (by simp [Body.Has, exNew_stmts]) (by decide) (by decide) (by decide)
  exact ⟨.input (name := "x".toList) (s := [1]) (by decide), .operand (n := 5) (s := .expr (.mulc 1 (.num 2))) k5 (by simp [Body.Has, exNew_stmts]) (by decide) (by decide) (by decide), k2, k3, k4, k5⟩

theorem exOld_live : exOld.Live 0 ∧ exOld.Live 1 ∧ exOld.Live 2 ∧ exOld.Live 3 := by
  have k3 : exOld.Live 3 := .output (name := "z".toList) (by decide)
  exact ⟨.input (name := "x".toList) (s := [1]) (by decide), .operand (n := 3) (s := .expr (.mulc 1 (.num 2))) k3 (by simp [Body.Has, exOld_stmts]) (by decide) (by decide) (by decide), .output (name := "y".toList) (by decide), k3⟩

theorem exOld_refines (P : Power ℚ) (den : Unit → List (Val ℚ) → Nat → Val ℚ) : Refines P den exOld exNew := by
  intro ρ' h
  obtain ⟨l0, l1, l2, l3, l4, l5⟩ := exNew_live
  have e2 := h.expr 2 (.mulc 0 (.num 2)) (by simp [Body.Has, exNew_stmts]) l2
  have e3 := h.expr 3 (.mulc 1 (.num 0)) (by simp [Body.Has, exNew_stmts]) l3
  have e4 := h.expr 4 (.add 2 3) (by simp [Body.Has, exNew_stmts]) l4
  have e5 := h.expr 5 (.mulc 1 (.num 2)) (by simp [Body.Has, exNew_stmts]) l5
  have e42 : ρ' 4 = ρ' 2 := by
    funext i
    rw [e4]
    simp only [Instr.meaning, List.range_succ, List.range_zero, List.map_append, List.map_cons, List.map_nil, List.nil_append, List.cons_append, List.getD_cons_succ, List.getD_cons_zero]
    rw [e3]
    simp [Instr.meaning, Const.val]
  refine ⟨fun x => if x = 3 then ρ' 5 else ρ' x, ?_, ?_⟩
  · constructor
    · intro n i hn _
      unfold Body.Has at hn
      rw [exOld_stmts] at hn
      simp only [List.mem_cons, Prod.mk.injEq, reduceCtorEq, and_false, false_or, or_false, List.not_mem_nil, Stmt.expr.injEq] at hn
      rcases hn with ⟨rfl, rfl⟩ | ⟨rfl, rfl⟩
      · simpa [Instr.meaning, List.range_succ] using e2
      · simpa [Instr.meaning, List.range_succ] using e5
    · intro n f args outs hn
      unfold Body.Has at hn
      rw [exOld_stmts] at hn
      simp at hn
    · intro n x key hn
      unfold Body.Has at hn
      rw [exOld_stmts] at hn
      simp at hn
    · intro y name shape val hn
      unfold Body.Has at hn
      rw [exOld_stmts] at hn
      simp at hn
    · intro x y name _ h1 _ h2
      rcases exOld_named h1 with ⟨rfl, rfl⟩ | ⟨rfl, rfl⟩ | ⟨rfl, rfl⟩ | ⟨rfl, rfl⟩ <;> rcases exOld_named h2 with ⟨rfl, e⟩ | ⟨rfl, e⟩ | ⟨rfl, e⟩ | ⟨rfl, e⟩ <;> first | rfl | exact absurd e (by decide)
  · intro name x y _ h1 _ h2
    rcases exOld_named h1 with ⟨rfl, rfl⟩ | ⟨rfl, rfl⟩ | ⟨rfl, rfl⟩ | ⟨rfl, rfl⟩ <;> rcases exNew_named h2 with ⟨rfl, e⟩ | ⟨rfl, e⟩ | ⟨rfl, e⟩ | ⟨rfl, e⟩ <;> first | rfl | exact e42.symm | exact absurd e (by decide)

/-- **C99, new dependencies.**  A method may have the same interface as another one, compute the same, and run, and yet make a program that compiles circular: `y = 2 * x + 0 * v` instead of `y = 2 * x`, with `connect('y', 'v')`. -/
theorem C99_new_dependencies_circular : Replaced exOld exNew exOld [] exNew ∧ SameInterface exOld exNew ∧ (∀ (P : Power ℚ) (den : Unit → List (Val ℚ) → Nat → Val ℚ), Refines P den exOld exNew) ∧
    ∃ objs root rep objs' root' e, runProgram exOld = .ok (objs, root) ∧ compile (objects objs) 40 id root = .ok rep ∧ runProgram exNew = .ok (objs', root') ∧ compile (objects objs') 40 id root' = .error (.sort e) := by
  refine ⟨.here, ⟨rfl, rfl, fun name => ⟨?_, ?_⟩⟩, exOld_refines, ?_⟩
  · obtain ⟨l0, l1, l2, l3, l4, l5⟩ := exNew_live
    rintro ⟨x, _, h⟩
    rcases exOld_named h with ⟨_, rfl⟩ | ⟨_, rfl⟩ | ⟨_, rfl⟩ | ⟨_, rfl⟩
    · exact ⟨0, l0, Or.inl ⟨[1], Or.inl (by decide)⟩⟩
    · exact ⟨1, l1, Or.inl ⟨[1], Or.inr (by decide)⟩⟩
    · exact ⟨4, l4, Or.inr (by decide)⟩
    · exact ⟨5, l5, Or.inr (by decide)⟩
  · obtain ⟨l0, l1, l2, l3⟩ := exOld_live
    rintro ⟨x, _, h⟩
    rcases exNew_named h with ⟨_, rfl⟩ | ⟨_, rfl⟩ | ⟨_, rfl⟩ | ⟨_, rfl⟩
    · exact ⟨0, l0, Or.inl ⟨[1], Or.inl (by decide)⟩⟩
    · exact ⟨1, l1, Or.inl ⟨[1], Or.inr (by decide)⟩⟩
    · exact ⟨2, l2, Or.inr (by decide)⟩
    · exact ⟨3, l3, Or.inr (by decide)⟩
  · obtain ⟨⟨objs, root⟩, h1, h⟩ := ok_of_check (x := runProgram exOld) (P := fun q => okCheck (compile (objects q.1) 40 id q.2) fun _ => true) (by decide +kernel)
    obtain ⟨rep, h2, _⟩ := ok_of_check h
    obtain ⟨⟨objs', root'⟩, h1', h'⟩ := ok_of_check (x := runProgram exNew) (P := fun q => isSortErr (compile (objects q.1) 40 id q.2)) (by decide +kernel)
    obtain ⟨e, he⟩ := of_isSortErr h'
    exact ⟨objs, root, rep, objs', root', e, h1, h2, h1', he⟩

end Csdl.Prog
