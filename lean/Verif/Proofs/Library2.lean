import Verif.Proofs.Library
import Verif.Proofs.ProgramFull3
/-
Proofs for C83: the statements of the program with plain operations.
-/
namespace Csdl.Prog
open Csdl Csdl.Arith
variable {K G I : Type} [Field K] [DecidableEq K]

omit [DecidableEq K] in
theorem stepShapes_length {F : Type} (ss : List Shape) (s : Stmt K F) : (stepShapes ss s).length = ss.length + s.count := by
  cases s <;> simp [stepShapes, Stmt.count]

omit [DecidableEq K] in
theorem stepShapes_prefix {F : Type} (ss : List Shape) (s : Stmt K F) : ss <+: stepShapes ss s := by
  cases s <;> simp [stepShapes]

omit [DecidableEq K] in
theorem foldShapes_length {F : Type} : ∀ (l : List (Stmt K F)) (ss : List Shape), (l.foldl stepShapes ss).length = ss.length + total l
  | [], ss => by simp [total]
  | s :: l, ss => by
    rw [List.foldl_cons, foldShapes_length l, stepShapes_length]
    simp [total, Nat.add_assoc]

omit [DecidableEq K] in
theorem foldShapes_prefix {F : Type} : ∀ (l : List (Stmt K F)) (ss : List Shape), ss <+: l.foldl stepShapes ss
  | [], ss => List.prefix_rfl
  | s :: l, ss => (stepShapes_prefix ss s).trans (foldShapes_prefix l _)

/-- the shapes of the variables after the statements, if those before have the shapes `ss` -/
def shapesAfter (ss : List Shape) : List (XStmt K (LOp K) G I) → List Shape
  | [] => ss
  | s :: l => shapesAfter ((s.low ss.length).foldl stepShapes ss) l

omit [DecidableEq K] in
theorem foldVars_fst {F : Type} : ∀ (l : List (Stmt K F)) (vs : List (Shape × Bool)), (l.foldl stepVars vs).map (·.1) = l.foldl stepShapes (vs.map (·.1))
  | [], _ => rfl
  | s :: l, vs => by rw [List.foldl_cons, List.foldl_cons, foldVars_fst l, stepVars_fst]

omit [DecidableEq K] in
theorem varsAfter_fst : ∀ (l : List (XStmt K (LOp K) G I)) (vs : List (Shape × Bool)), (varsAfter vs l).map (·.1) = shapesAfter (vs.map (·.1)) l
  | [], _ => rfl
  | s :: l, vs => by rw [varsAfter, varsAfter_fst l, foldVars_fst, shapesAfter, List.length_map]

/-- the statements, numbered from `n` -/
def numberX {F : Type} (n : Nat) : List (XStmt K F G I) → List (Nat × XStmt K F G I)
  | [] => []
  | s :: l => (n, s) :: numberX (n + s.count) l

theorem stmts_prefixX : ∀ (l : List (XStmt K (LOp K) G I)) (ss : List Shape) (b : XBody K (LOp K) G I), (b.prefix l).stmts ss.length = numberX ss.length l ++ b.stmts (shapesAfter ss l).length
  | [], _, _ => rfl
  | s :: l, ss, b => by
    have hl : ((s.low ss.length).foldl stepShapes ss).length = ss.length + s.count := by rw [foldShapes_length, total_low]
    rw [XBody.prefix, XBody.stmts, numberX, shapesAfter, ← hl, stmts_prefixX l]
    rfl

theorem shapesAfter_eq : ∀ (l : List (XStmt K (LOp K) G I)) (ss : List Shape), shapesAfter ss l = ((lowAll (numberX ss.length l)).map (·.2)).foldl stepShapes ss
  | [], _ => rfl
  | s :: l, ss => by
    have hl : ((s.low ss.length).foldl stepShapes ss).length = ss.length + s.count := by rw [foldShapes_length, total_low]
    rw [shapesAfter, shapesAfter_eq l, numberX, ← hl]
    simp [lowAll, number_snd]

omit [DecidableEq K] in
theorem subs_prefixX {F : Type} : ∀ (l : List (XStmt K F G I)) (b : XBody K F G I), (b.prefix l).subs = b.subs
  | [], _ => rfl
  | _ :: l, b => by rw [XBody.prefix, XBody.subs, subs_prefixX l]

/-- The statements of the program with plain operations are those of the calls; the shapes are as inferred. -/
theorem typed_stmts : ∀ (b : LBody K G I) (b' : XBody K (LOp K) G I) (vs : List (Shape × Bool)), b.typed vs = .ok b' → ∀ s ss1, (ss1, s) ∈ b.stmts vs →
    ∃ cs l, s.steps cs ss1 = .ok l ∧ (∀ y ∈ numberX ss1.length l, y ∈ b'.stmts vs.length) ∧ shapesAfter ss1 l <+: ((lowAll (b'.stmts vs.length)).map (·.2)).foldl stepShapes (vs.map (·.1))
  | .done, b', vs, ht, s, ss1, hm => by simp [LBody.stmts] at hm
  | .stmt t rest, b', vs, ht, s, ss1, hm => by
    rw [LBody.typed] at ht
    cases hs : t.steps (vs.map (·.2)) (vs.map (·.1)) with
    | error e => rw [hs] at ht; cases ht
    | ok l =>
      rw [hs] at ht
      obtain ⟨r, hr, rfl⟩ := map_ok.1 ht
      rw [LBody.stmts, hs] at hm
      have hl : vs.length = (vs.map (·.1)).length := by simp
      have hl2 : (shapesAfter (vs.map (·.1)) l).length = (varsAfter vs l).length := by rw [← varsAfter_fst]; simp
      rw [hl, stmts_prefixX, hl2]
      have hsplit : ((lowAll (numberX (vs.map (·.1)).length l ++ r.stmts (varsAfter vs l).length)).map (·.2)).foldl stepShapes (vs.map (·.1)) =
          ((lowAll (r.stmts (varsAfter vs l).length)).map (·.2)).foldl stepShapes ((varsAfter vs l).map (·.1)) := by
        rw [varsAfter_fst, shapesAfter_eq l (vs.map (·.1))]
        simp [lowAll]
      rw [hsplit]
      rcases List.mem_cons.1 hm with heq | hm
      · cases heq
        exact ⟨_, l, hs, fun y hy => List.mem_append_left _ hy, by rw [← varsAfter_fst]; exact foldShapes_prefix _ _⟩
      · obtain ⟨cs, l', h1, h2, h3⟩ := typed_stmts rest r _ hr s ss1 hm
        exact ⟨cs, l', h1, fun y hy => List.mem_append_right _ (h2 y hy), h3⟩
  | .add _ name p sub rest, b', vs, ht, s, ss1, hm => by
    rw [LBody.typed] at ht
    cases hs : sub.typed [] with
    | error e => rw [hs] at ht; cases ht
    | ok sub' =>
      rw [hs] at ht
      obtain ⟨r, hr, rfl⟩ := map_ok.1 ht
      rw [LBody.stmts] at hm
      rw [XBody.stmts]
      exact typed_stmts rest r _ hr s ss1 hm

omit [DecidableEq K] in
theorem typed_subs : ∀ (b : LBody K G I) (b' : XBody K (LOp K) G I) (vs : List (Shape × Bool)), b.typed vs = .ok b' → List.Forall₂ (fun x y => x.1 = y.1 ∧ x.2.1 = y.2.1 ∧ x.2.2.typed [] = .ok y.2.2) b.subs b'.subs
  | .done, b', vs, ht => by cases ht; exact .nil
  | .stmt t rest, b', vs, ht => by
    rw [LBody.typed] at ht
    cases hs : t.steps (vs.map (·.2)) (vs.map (·.1)) with
    | error e => rw [hs] at ht; cases ht
    | ok l =>
      rw [hs] at ht
      obtain ⟨r, hr, rfl⟩ := map_ok.1 ht
      rw [subs_prefixX, LBody.subs]
      exact typed_subs rest r _ hr
  | .add _ name p sub rest, b', vs, ht => by
    rw [LBody.typed] at ht
    cases hs : sub.typed [] with
    | error e => rw [hs] at ht; cases ht
    | ok sub' =>
      rw [hs] at ht
      obtain ⟨r, hr, rfl⟩ := map_ok.1 ht
      exact .cons ⟨rfl, rfl, hs⟩ (typed_subs rest r _ hr)

omit [DecidableEq K] in
theorem typed_at {b : LBody K G I} {path : List Name} {b1 : LBody K G I} (h : LAt b path b1) : ∀ {b' : XBody K (LOp K) G I}, b.typed [] = .ok b' → ∃ b1', b1.typed [] = .ok b1' ∧ XAt b' path b1' := by
  induction h with
  | here b => exact fun {b'} hb => ⟨b', hb, .here _⟩
  | down hm _ ih =>
    intro b' hb
    obtain ⟨y, hy, h1, h2, h3⟩ := forall₂_mem_left (typed_subs _ _ _ hb) hm
    obtain ⟨b1', h4, h5⟩ := ih h3
    refine ⟨b1', h4, ?_⟩
    obtain ⟨n, p, s⟩ := y
    simp only at h1 h2
    subst h1 h2
    exact .down hy h5

/-! ### `csdl.flatten` of a variable made by `create_output` -/

omit [DecidableEq K] in
theorem stepVars_prefix {F : Type} (vs : List (Shape × Bool)) (s : Stmt K F) : vs <+: stepVars vs s := by
  cases s with
  | expr i => cases i <;> exact List.prefix_append _ _
  | _ => first | exact List.prefix_append _ _ | exact List.prefix_refl _

omit [DecidableEq K] in
theorem foldVars_prefix {F : Type} : ∀ (l : List (Stmt K F)) (vs : List (Shape × Bool)), vs <+: l.foldl stepVars vs
  | [], vs => List.prefix_refl _
  | s :: l, vs => (stepVars_prefix vs s).trans (foldVars_prefix l _)

omit [DecidableEq K] in
theorem varsAfter_prefix : ∀ (l : List (XStmt K (LOp K) G I)) (vs : List (Shape × Bool)), vs <+: varsAfter vs l
  | [], vs => List.prefix_refl _
  | _ :: l, vs => (foldVars_prefix _ vs).trans (varsAfter_prefix l _)

omit [DecidableEq K] in
theorem stmts_prefix_vars : ∀ (b : LBody K G I) (vs : List (Shape × Bool)) (x : List Shape × LStmt K G I), x ∈ b.stmts vs → vs.length ≤ x.1.length
  | .done, vs, x, h => by simp [LBody.stmts] at h
  | .add _ _ _ _ rest, vs, x, h => stmts_prefix_vars rest vs x h
  | .stmt t rest, vs, x, h => by
    rw [LBody.stmts] at h
    rcases List.mem_cons.1 h with rfl | h
    · simp
    · cases hs : t.steps (vs.map (·.2)) (vs.map (·.1)) with
      | error e => rw [hs] at h; simp at h
      | ok l =>
        rw [hs] at h
        exact (varsAfter_prefix l vs).length_le.trans (stmts_prefix_vars rest _ x h)

omit [DecidableEq K] in
/-- a call of `flatten` that is accepted -/
theorem flatten_steps {cs : List Bool} {ss : List Shape} {x : Nat} {l : List (XStmt K (LOp K) G I)} (h : (LStmt.flatten x : LStmt K G I).steps cs ss = .ok l) :
    x < ss.length ∧ sizeAttr (ss.getD x []) (cs.getD x false) = (ss.getD x []).size := by
  simp only [LStmt.steps] at h
  split_ifs at h with hlt
  simp only [reshapeShape] at h
  by_cases hs : (ss.getD x []).size = Shape.size [sizeAttr (ss.getD x []) (cs.getD x false)]
  · exact ⟨hlt, by simpa [Shape.size] using hs.symm⟩
  · rw [if_pos hs] at h; cases h

omit [DecidableEq K] in
theorem flatten_known {s : Shape} : ∀ (b : LBody K G I) (b' : XBody K (LOp K) G I) (vs : List (Shape × Bool)) (x : Nat) (ss : List Shape), b.typed vs = .ok b' → vs[x]? = some (s, true) → (ss, .flatten x) ∈ b.stmts vs → s.size = 1
  | .done, _, vs, x, ss, _, _, hm => by simp [LBody.stmts] at hm
  | .add _ _ _ sub rest, b', vs, x, ss, ht, hx, hm => by
    rw [LBody.typed] at ht
    cases hs : sub.typed [] with
    | error e => rw [hs] at ht; cases ht
    | ok sub' =>
      rw [hs] at ht
      obtain ⟨r, hr, rfl⟩ := map_ok.1 ht
      exact flatten_known rest r vs x ss hr hx hm
  | .stmt t rest, b', vs, x, ss, ht, hx, hm => by
    rw [LBody.typed] at ht
    cases hs : t.steps (vs.map (·.2)) (vs.map (·.1)) with
    | error e => rw [hs] at ht; cases ht
    | ok l =>
      rw [hs] at ht
      obtain ⟨r, hr, rfl⟩ := map_ok.1 ht
      rw [LBody.stmts, hs] at hm
      rcases List.mem_cons.1 hm with heq | hm
      · cases heq
        have h2 := (flatten_steps hs).2
        simp only [List.getD_eq_getElem?_getD, List.getElem?_map, hx, Option.map_some, Option.getD_some, sizeAttr, if_true] at h2
        exact h2.symm
      · obtain ⟨q, hq⟩ := varsAfter_prefix l vs
        refine flatten_known rest r _ x ss hr ?_ hm
        rw [← hq, List.getElem?_append_left (List.getElem?_eq_some_iff.1 hx).1]
        exact hx

omit [DecidableEq K] in
theorem flatten_created {s : Shape} {nm : Name} {v : Val K} : ∀ (b : LBody K G I) (b' : XBody K (LOp K) G I) (vs : List (Shape × Bool)) (ss0 ss : List Shape), b.typed vs = .ok b' →
    (ss0, .base (.plain (.output nm s v))) ∈ b.stmts vs → (ss, .flatten ss0.length) ∈ b.stmts vs → s.size = 1
  | .done, _, vs, ss0, ss, _, _, hm => by simp [LBody.stmts] at hm
  | .add _ _ _ sub rest, b', vs, ss0, ss, ht, h0, hm => by
    rw [LBody.typed] at ht
    cases hs : sub.typed [] with
    | error e => rw [hs] at ht; cases ht
    | ok sub' =>
      rw [hs] at ht
      obtain ⟨r, hr, rfl⟩ := map_ok.1 ht
      exact flatten_created rest r vs ss0 ss hr h0 hm
  | .stmt t rest, b', vs, ss0, ss, ht, h0, hm => by
    rw [LBody.typed] at ht
    cases hs : t.steps (vs.map (·.2)) (vs.map (·.1)) with
    | error e => rw [hs] at ht; cases ht
    | ok l =>
      rw [hs] at ht
      obtain ⟨r, hr, rfl⟩ := map_ok.1 ht
      rw [LBody.stmts, hs] at hm h0
      rcases List.mem_cons.1 h0 with heq | h0'
      · cases heq
        rcases List.mem_cons.1 hm with heq | hm
        · cases heq
        · simp only [LStmt.steps, Except.ok.injEq] at hs
          subst hs
          refine flatten_known (s := s) rest r _ _ ss hr ?_ hm
          simp [varsAfter, XStmt.base, XStmt.low, Stmt.mapFn, stepVars, Stmt.lift]
      · rcases List.mem_cons.1 hm with heq | hm
        · cases heq
          have h1 := (flatten_steps hs).1
          have h2 := stmts_prefix_vars rest _ _ h0'
          have h3 := (varsAfter_prefix l vs).length_le
          simp only [List.length_map] at h1 h2
          omega
        · exact flatten_created rest r _ ss0 ss hr h0' hm

end Csdl.Prog
