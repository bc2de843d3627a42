import Verif.Props.ValidProgram
import Verif.Props.Indexing
/-
C73: parts of variables are what NumPy says.
-/
namespace Csdl.Prog
open Csdl Csdl.Arith
variable {K F : Type} [Field K] [DecidableEq K]

/-- `unravel` undoes `ravel` -/
theorem unravel_ravel (shape : Shape) (idx : List Nat) (h : ValidIdx shape idx) : unravel shape (ravel shape idx) = idx := by
  induction h with
  | nil => rfl
  | @cons i n idx shape hi hv ih =>
    have hlt := C21_ravel_lt shape idx hv
    have hpos : 0 < Shape.size shape := by omega
    rw [ravel, unravel, Nat.mul_comm, Nat.mul_add_div hpos, Nat.div_eq_of_lt hlt, Nat.mul_add_mod, Nat.mod_eq_of_lt hlt, ih, Nat.add_zero]

omit [DecidableEq K] [Field K] in
/-- **C73.** What `x[key]` means in a program: for a key of ints and slices that is accepted there is one key element per axis, and with `sel` the positions NumPy basic indexing selects on each axis, the part
has the shape of the NumPy slice (an int keeps its axis) and its element `j` is the element of the array at the selected positions. -/
theorem C73_part_is_numpy (shape : Shape) (key : Key) (hno : key.IntsAndSlices) (e : NKey × List Nat) (h : keyPart shape key = .ok e) :
    ∃ sel, KeySelects shape key sel ∧ partShape shape key = sel.map List.length ∧
      ∀ (a : Val K) (j : List Nat), ValidIdx (partShape shape key) j → ValidIdx shape (Csdl.pick sel j) ∧ part shape key a j = a (Csdl.pick sel j) := by
  obtain ⟨hk, hs⟩ := keyPart_key h
  obtain ⟨sel, h1, h2, _, h4, h5, h6, h7, h8⟩ := src_facts hs
  have hp : partShape shape key = sel.map List.length := by
    unfold partShape
    rw [hk]
    exact h2
  refine ⟨sel, key_selects hno hk h7 h8, hp, fun a j hj => ?_⟩
  rw [hp] at hj
  obtain ⟨g1, g2⟩ := h5 j hj
  refine ⟨g1, ?_⟩
  unfold part
  rw [h]
  simp only [gather, h2, List.getD_eq_getElem?_getD, g2, Option.getD_some]
  rw [unravel_ravel _ _ g1]

/-! ### Example: equal parts of a variable -/

/-- `def define(self): x = create_input('x', shape=(3,)); u = x[0:2]; v = x[:2]; w = u * v; register_output('w', w); y = x[-1]; register_output('y', y)` -/
def exIdx : Body ℚ Unit :=
  .stmt (.input "x".toList [3] (fun _ => 1)) (.stmt (.index 0 (.slice (some 0) (some 2) none)) (.stmt (.index 0 (.slice none (some 2) none)) (.stmt (.expr (.mul 1 2)) (.stmt (.register "w".toList 3)
    (.stmt (.index 0 (.int (-1))) (.stmt (.register "y".toList 4) .done))))))

theorem exIdx_at {path : List Name} {b' : Body ℚ Unit} (h : BAt exIdx path b') : path = [] ∧ b' = exIdx := by
  cases h with
  | here => exact ⟨rfl, rfl⟩
  | down h1 h2 => simp [exIdx, Body.subs] at h1

theorem exIdx_good : GoodNames exIdx := by
  constructor <;> intro path b' h <;> obtain ⟨_, rfl⟩ := exIdx_at h <;> decide

theorem exIdx_noChain : NoChain exIdx.toModel := by
  have hiss : issuedPost Local.connections exIdx.toModel = [] := by decide
  constructor
  · intro i hi
    rw [hiss] at hi
    cases hi
  · rw [hiss]; exact .nil

theorem exIdx_run : ∃ objs root rep, runProgram exIdx = .ok (objs, root) ∧ objs.length = 8 ∧ compile (objects objs) 20 id root = .ok rep := by
  obtain ⟨⟨objs, root⟩, h1, h⟩ := ok_of_check (x := runProgram exIdx) (P := fun q => decide (q.1.length = 8) && okCheck (compile (objects q.1) 20 id q.2) fun _ => true)
    (by decide +kernel)
  rw [Bool.and_eq_true] at h
  obtain ⟨rep, h2, h3⟩ := ok_of_check h.2
  exact ⟨objs, root, rep, h1, of_decide_eq_true h.1, h2⟩

/-- C73 applies: `x[0:2]` and `x[:2]` are one node, `w` is the square of the first two elements of `x` and `y` is its last element -/
example : ∃ objs root rep, GoodNames exIdx ∧ NoChain exIdx.toModel ∧ runProgram exIdx = .ok (objs, root) ∧ compile (objects objs) 20 id root = .ok rep ∧
    ∃ (f : Nat → Nat) (node : List Name → Nat → Nat), node [] 1 = node [] 2 ∧ ∀ (P : Power ℚ) (den : Unit → List (Val ℚ) → Nat → Val ℚ) (σ0 : Env (Val ℚ)),
      let σ := execAll rep.graph ⟨fun i => decide ((objects objs i).kind = .op), fun i => (objects objs i).deps.map f, opMeaning P den objs⟩ σ0 rep.sorted
      (∀ i < 2, σ (node [] 3) [i] = σ (node [] 0) [i] * σ (node [] 0) [i]) ∧ σ (node [] 4) [0] = σ (node [] 0) [2] := by
  obtain ⟨objs, root, rep, hr, hl, hc⟩ := exIdx_run
  have hf : ∀ path b', BAt exIdx path b' → (b'.locals.outputs ++ b'.locals.declared).length + objs.length ≤ 20 := by
    intro path b' h
    obtain ⟨_, rfl⟩ := exIdx_at h
    rw [hl]
    decide
  obtain ⟨f, node, _, h2, h3⟩ := C73_programs_mean_what_they_say exIdx exIdx_good exIdx_noChain objs root hr (by rw [hl]; decide) 20 hf id (fun _ _ => Iff.rfl) rep hc
  have l3 : exIdx.Live 3 := .output (name := "w".toList) (by decide)
  have l4 : exIdx.Live 4 := .output (name := "y".toList) (by decide)
  have h33 : exIdx.Has 3 (.expr (.mul 1 2)) := by simp [Body.Has, exIdx, Body.stmts, Stmt.count]
  have h11 : exIdx.Has 1 (.index 0 (.slice (some 0) (some 2) none)) := by simp [Body.Has, exIdx, Body.stmts, Stmt.count]
  have h22 : exIdx.Has 2 (.index 0 (.slice none (some 2) none)) := by simp [Body.Has, exIdx, Body.stmts, Stmt.count]
  have h44 : exIdx.Has 4 (.index 0 (.int (-1))) := by simp [Body.Has, exIdx, Body.stmts, Stmt.count]
  have l1 : exIdx.Live 1 := .operand l3 h33 (by decide) (by decide) (by decide)
  have l2 : exIdx.Live 2 := .operand l3 h33 (by decide) (by decide) (by decide)
  have hal : Alias (exIdx.stmts 0) 1 2 := .part h11 h22 (.refl _) (by decide)
  refine ⟨objs, root, rep, exIdx_good, exIdx_noChain, hr, hc, f, node, (h2 [] exIdx [] exIdx (.here _) (.here _) 1 2 l1 l2).2 (.rel _ _ (.alias exIdx (.here _) l1 l2 hal)), fun P den σ0 => ?_⟩
  obtain ⟨sol, _, _⟩ := h3 P den σ0
  have e3 := sol.expr [] exIdx (.here _) 3 _ h33 l3
  have e1 := sol.index [] exIdx (.here _) 1 _ _ h11 l1
  have e2 := sol.index [] exIdx (.here _) 2 _ _ h22 l2
  have e4 := sol.index [] exIdx (.here _) 4 _ _ h44 l4
  clear sol
  revert e3 e1 e2 e4
  generalize execAll rep.graph ⟨fun i => decide ((objects objs i).kind = .op), fun i => (objects objs i).deps.map f, opMeaning P den objs⟩ σ0 rep.sorted = σ
  intro e3 e1 e2 e4
  have hsh : exIdx.shapes.getD 0 [] = [3] := by decide
  have k1 : keyPart [3] (.slice (some 0) (some 2) none) = .ok ([(0, 2, none)], [0, 1]) := by decide
  have k2 : keyPart [3] (.slice none (some 2) none) = .ok ([(0, 2, none)], [0, 1]) := by decide
  have k4 : keyPart [3] (.int (-1)) = .ok ([(2, 3, none)], [2]) := by decide
  rw [hsh] at e1 e2 e4
  unfold part at e1 e2 e4
  rw [k1] at e1
  rw [k2] at e2
  rw [k4] at e4
  have e3' : σ (node [] 3) = fun e => σ (node [] 1) e * σ (node [] 2) e := e3
  simp only at e1 e2 e4
  refine ⟨fun i hi => ?_, ?_⟩
  · rw [e3', e1, e2]
    have : i = 0 ∨ i = 1 := by omega
    rcases this with rfl | rfl <;> rfl
  · rw [e4]
    rfl

/-- an accepted key of ints and slices, as C73_part_is_numpy assumes -/
example : ∃ e, keyPart [3, 4] (.tuple [.int 1, .slice none (some 3) (some 2)]) = .ok e ∧ partShape [3, 4] (.tuple [.int 1, .slice none (some 3) (some 2)]) = [1, 2] ∧
    (Key.tuple [.int 1, .slice none (some 3) (some 2)]).IntsAndSlices := by
  refine ⟨([(1, 2, none), (0, 3, some 2)], [4, 6]), by decide, by decide, ?_⟩
  intro e he
  simp only [Key.elems, List.mem_cons, List.not_mem_nil, or_false] at he
  rcases he with rfl | rfl <;> simp

end Csdl.Prog
