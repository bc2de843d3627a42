import Verif.Spec.OneModel
import Mathlib.Data.Nat.Lattice
/-
Proof for C84: a program of one model without connections, in which outputs are used when they are complete, is never circular.
-/
namespace Csdl.Prog
open Csdl Csdl.Arith
variable {K F : Type}

theorem stmts_ge (b : Body K F) : ∀ (m n : Nat) (s : Stmt K F), (n, s) ∈ b.stmts m → m ≤ n := by
  induction b with
  | done => intro m n s h; cases h
  | stmt s rest ih =>
    intro m n s' h
    rcases List.mem_cons.1 h with h | h
    · cases h; exact Nat.le_refl _
    · have := ih _ _ _ h; omega
  | add _ _ _ _ rest _ ih => intro m n s h; exact ih m n s h

/-- a variable is created by one statement -/
theorem stmts_unique (b : Body K F) : ∀ (m n n' : Nat) (s s' : Stmt K F) (y : Nat), (n, s) ∈ b.stmts m → (n', s') ∈ b.stmts m → n ≤ y → y < n + s.count → n' ≤ y → y < n' + s'.count → n = n' ∧ s = s' := by
  induction b with
  | done => intro m n n' s s' y h; cases h
  | stmt s rest ih =>
    intro m n n' s1 s2 y h h' h1 h2 h3 h4
    rcases List.mem_cons.1 h with h | h <;> rcases List.mem_cons.1 h' with h' | h'
    · cases h; cases h'; exact ⟨rfl, rfl⟩
    · cases h; have := stmts_ge _ _ _ _ h'; omega
    · cases h'; have := stmts_ge _ _ _ _ h; omega
    · exact ih _ _ _ _ _ y h h' h1 h2 h3 h4
  | add _ _ _ _ rest _ ih => intro m n n' s s' y h h'; exact ih m n n' s s' y h h'

theorem stmts_numVars (b : Body K F) : ∀ (m : Nat) (L1 : List (Nat × Stmt K F)) (n : Nat) (s : Stmt K F) (L2 : List (Nat × Stmt K F)), b.stmts m = L1 ++ (n, s) :: L2 → n = m + numVars L1 := by
  induction b with
  | done => intro m L1 n s L2 h; simp [Body.stmts] at h
  | stmt s rest ih =>
    intro m L1 n s' L2 h
    cases L1 with
    | nil => simp only [Body.stmts, List.nil_append, List.cons.injEq, Prod.mk.injEq] at h; simp [numVars, h.1.1]
    | cons a L1 =>
      simp only [Body.stmts, List.cons_append, List.cons.injEq] at h
      rw [ih _ _ _ _ _ h.2, ← h.1]
      simp [numVars, Nat.add_assoc]
  | add _ _ _ _ rest _ ih =>
    intro m L1 n s L2 h
    exact ih m L1 n s L2 h

/-- operands are created before -/
theorem operands_before [Zero K] {b : Body K F} (hm : MethodOk b) {n : Nat} {s : Stmt K F} (h : b.Has n s) {x : Nat} (hx : x ∈ s.operands) : x < n := by
  obtain ⟨L1, L2, hL⟩ := List.append_of_mem h
  have hn := stmts_numVars b 0 L1 n _ L2 hL
  have := hm.stmts L1 _ L2 hL
  rw [Nat.zero_add] at hn
  rw [hn]
  cases s with
  | expr i => exact this.1 x hx
  | call f args outs => exact this x hx
  | index y key => simp only [Stmt.operands, List.mem_singleton] at hx; subst hx; exact this.1
  | _ => simp [Stmt.operands] at hx

/-- the variable that is not the result of a unary plus from which unary pluses lead to `x` -/
inductive Core (b : Body K F) : Nat → Nat → Prop
  | here {x : Nat} : (∀ y, ¬ b.Has x (.expr (.pos y))) → Core b x x
  | step {x y c : Nat} : b.Has x (.expr (.pos y)) → Core b y c → Core b x c

theorem core_unique {b : Body K F} {x c d : Nat} (h : Core b x c) : Core b x d → c = d := by
  induction h with
  | here h1 =>
    intro h
    cases h with
    | here => rfl
    | step h _ => exact absurd h (h1 _)
  | @step x y c h1 _ ih =>
    intro h
    cases h with
    | here h => exact absurd h1 (h _)
    | @step _ z _ h2 h3 =>
      obtain ⟨_, e⟩ := stmts_unique b 0 _ _ _ _ x h1 h2 (Nat.le_refl _) (by simp [Stmt.count]) (Nat.le_refl _) (by simp [Stmt.count])
      cases e
      exact ih h3

theorem core_exists [Zero K] {b : Body K F} (hm : MethodOk b) : ∀ (N x : Nat), x ≤ N → ∃ c, Core b x c
  | N, x, hx => by
    by_cases h : ∃ y, b.Has x (.expr (.pos y))
    · obtain ⟨y, h⟩ := h
      have := operands_before hm h (x := y) (by simp [Stmt.operands, Instr.first])
      match N with
      | 0 => omega
      | N + 1 =>
        obtain ⟨c, hc⟩ := core_exists hm N y (by omega)
        exact ⟨c, .step h hc⟩
    · exact ⟨x, .here fun y hy => h ⟨y, hy⟩⟩

/-- the result of a statement other than a unary plus -/
theorem core_self {b : Body K F} {n : Nat} {s : Stmt K F} (h : b.Has n s) (hs : ∀ y, s ≠ .expr (.pos y)) {z : Nat} (h1 : n ≤ z) (h2 : z < n + s.count) : Core b z z :=
  .here fun y hy => hs y (stmts_unique b 0 _ _ _ _ z h hy h1 h2 (Nat.le_refl _) (by simp [Stmt.count])).2

theorem alias_core [Zero K] {b : Body K F} (hm : MethodOk b) {x y : Nat} (h : Alias (b.stmts 0) x y) : ∀ c d, Core b x c → Core b y d →
    c = d ∨ ∃ u v k l, b.Has c (.index u k) ∧ b.Has d (.index v l) ∧ Alias (b.stmts 0) u v := by
  induction h with
  | refl x => intro c d h1 h2; exact .inl (core_unique h1 h2)
  | symm _ ih =>
    intro c d h1 h2
    rcases ih d c h2 h1 with rfl | ⟨u, v, k, l, h3, h4, h5⟩
    · exact .inl rfl
    · exact .inr ⟨v, u, l, k, h4, h3, .symm h5⟩
  | @trans x y z _ _ ih1 ih2 =>
    intro c d h1 h2
    obtain ⟨e, he⟩ := core_exists hm y y (Nat.le_refl _)
    rcases ih1 c e h1 he with rfl | ⟨u, v, k, l, h3, h4, h5⟩
    · exact ih2 _ _ he h2
    · rcases ih2 e d he h2 with rfl | ⟨u', v', k', l', h3', h4', h5'⟩
      · exact .inr ⟨u, v, k, l, h3, h4, h5⟩
      · obtain ⟨_, e'⟩ := stmts_unique b 0 _ _ _ _ e h4 h3' (Nat.le_refl _) (by simp [Stmt.count]) (Nat.le_refl _) (by simp [Stmt.count])
        cases e'
        exact .inr ⟨u, v', k, l', h3, h4', .trans h5 h5'⟩
  | plus h =>
    intro c d h1 h2
    exact .inl (core_unique h1 (.step h h2))
  | @part x y u v k l h1 h2 h3 _ _ =>
    intro c d h4 h5
    have e1 := core_unique h4 (core_self h1 (by simp) (Nat.le_refl _) (by simp [Stmt.count]))
    have e2 := core_unique h5 (core_self h2 (by simp) (Nat.le_refl _) (by simp [Stmt.count]))
    subst e1 e2
    exact .inr ⟨u, v, k, l, h1, h2, h3⟩

/-- the statement number `i` creates the variable `y` -/
def Creates (b : Body K F) (i y : Nat) : Prop := ∃ n s, (b.stmts 0)[i]? = some (n, s) ∧ n ≤ y ∧ y < n + s.count

theorem stmts_split (b : Body K F) {i n : Nat} {s : Stmt K F} (h : (b.stmts 0)[i]? = some (n, s)) : b.stmts 0 = (b.stmts 0).take i ++ (n, s) :: (b.stmts 0).drop (i + 1) := by
  obtain ⟨hi, h⟩ := List.getElem?_eq_some_iff.1 h
  rw [← h]
  simp

/-- a variable that exists before statement `i` was created by an earlier one -/
theorem created_before (b : Body K F) : ∀ (i y : Nat), y < numVars ((b.stmts 0).take i) → ∃ j < i, Creates b j y
  | 0, y, h => by simp [numVars] at h
  | i + 1, y, h => by
    by_cases hy : y < numVars ((b.stmts 0).take i)
    · obtain ⟨j, hj, h⟩ := created_before b i y hy
      exact ⟨j, by omega, h⟩
    · cases hs : (b.stmts 0)[i]? with
      | none =>
        rw [List.take_of_length_le (by have := List.getElem?_eq_none_iff.1 hs; omega)] at h
        rw [List.take_of_length_le (by have := List.getElem?_eq_none_iff.1 hs; omega)] at hy
        exact absurd h hy
      | some q =>
        obtain ⟨n, s⟩ := q
        have hn := stmts_numVars b 0 _ n s _ (stmts_split b hs)
        rw [List.take_add_one, hs] at h
        simp only [numVars, Option.toList_some, List.map_append, List.map_cons, List.map_nil, List.sum_append, List.sum_cons, List.sum_nil] at h hy hn
        exact ⟨i, by omega, n, s, hs, by omega, by omega⟩

/-- two statements of which both create `y` are the same -/
theorem creates_unique {b : Body K F} {i j y : Nat} (h : Creates b i y) (h' : Creates b j y) : i = j := by
  obtain ⟨n, s, h1, h2, h3⟩ := h
  obtain ⟨n', s', h1', h2', h3'⟩ := h'
  have key : ∀ {i j n n' : Nat} {s s' : Stmt K F}, (b.stmts 0)[i]? = some (n, s) → (b.stmts 0)[j]? = some (n', s') → i < j → n + s.count ≤ n' := by
    intro i j n n' s s' hi hj hij
    have e1 := stmts_numVars b 0 _ n s _ (stmts_split b hi)
    have e2 := stmts_numVars b 0 _ n' s' _ (stmts_split b hj)
    have e3 : (b.stmts 0).take j = (b.stmts 0).take i ++ (n, s) :: ((b.stmts 0).drop (i + 1)).take (j - (i + 1)) := by
      conv_lhs => rw [stmts_split b hi]
      have hl : ((b.stmts 0).take i).length = i := by
        have := (List.getElem?_eq_some_iff.1 hi).1
        rw [List.length_take]; omega
      rw [List.take_append, hl, List.take_of_length_le (by omega), show j - i = (j - (i + 1)) + 1 by omega, List.take_succ_cons]
    rw [e3] at e2
    simp only [numVars, List.map_append, List.map_cons, List.sum_append, List.sum_cons] at e1 e2
    omega
  rcases Nat.lt_trichotomy i j with h | h | h
  · have := key h1 h1' h; omega
  · exact h
  · have := key h1' h1 h; omega

/-- the number of the first statement that creates a variable that is the same as `x` -/
noncomputable def firstOf (b : Body K F) (x : Nat) : Nat := sInf {i | ∃ y, Alias (b.stmts 0) x y ∧ Creates b i y}

/-- the number after the last assignment to a part of `x` -/
noncomputable def lastOf (b : Body K F) (x : Nat) : Nat := sSup {i | ∃ j n z key v, i = j + 1 ∧ (b.stmts 0)[j]? = some (n, .assign z key v) ∧ Alias (b.stmts 0) z x}

open Classical in
/-- a number for each variable: the same for variables that are the same, smaller for those it is computed from -/
noncomputable def rank (b : Body K F) (x : Nat) : Nat :=
  if ∃ y name s v, Alias (b.stmts 0) x y ∧ b.Has y (.declare name s v) then 0
  else if ∃ y name s v, Alias (b.stmts 0) x y ∧ b.Has y (.output name s v) then lastOf b x
  else firstOf b x + 1

theorem rank_alias {b : Body K F} {x y : Nat} (h : Alias (b.stmts 0) x y) : rank b x = rank b y := by
  have e : Alias (b.stmts 0) x = Alias (b.stmts 0) y := funext fun z => propext ⟨fun h1 => .trans (.symm h) h1, fun h1 => .trans h h1⟩
  have e' : ∀ z, Alias (b.stmts 0) z x = Alias (b.stmts 0) z y := fun z => propext ⟨fun h1 => .trans h1 h, fun h1 => .trans h1 (.symm h)⟩
  unfold rank firstOf lastOf
  rw [e]
  simp only [e']

/-- a variable that a statement uses is complete before -/
theorem rank_used [Zero K] {b : Body K F} (hm : MethodOk b) (hu : UsedWhenComplete b) {i n : Nat} {s : Stmt K F} (h : (b.stmts 0)[i]? = some (n, s)) {a : Nat} (ha : a ∈ s.operands ∨ ∃ w k, s = .assign w k a) :
    rank b a ≤ i := by
  have hlt : a < numVars ((b.stmts 0).take i) := by
    have := hm.stmts _ _ _ (stmts_split b h)
    rcases ha with ha | ⟨w, k, rfl⟩
    · cases s with
      | expr i => exact this.1 a ha
      | call f args outs => exact this a ha
      | index y key => simp only [Stmt.operands, List.mem_singleton] at ha; subst ha; exact this.1
      | _ => simp [Stmt.operands] at ha
    · exact this.2.1
  obtain ⟨j, hj, hc⟩ := created_before b i a hlt
  unfold rank
  split_ifs with h1 h2
  · omega
  · refine csSup_le' ?_
    rintro q ⟨j', n', z, key, v, rfl, h3, h4⟩
    exact hu i j' n n' s z v a key h ha h3 h4
  · have : firstOf b a ≤ j := Nat.sInf_le ⟨a, .refl a, hc⟩
    omega

/-- a variable has a greater number than those it is computed from -/
theorem rank_operand [Zero K] {b : Body K F} (hm : MethodOk b) (hu : UsedWhenComplete b) {n : Nat} {s : Stmt K F} (h : b.Has n s) (hc : s.Computes) {a z : Nat} (h1 : n ≤ z) (h2 : z < n + s.count) (ha : a ∈ s.operands) :
    rank b a < rank b z := by
  have hs : ∀ y, s ≠ .expr (.pos y) := by rintro y rfl; exact hc
  have hz := core_self h hs h1 h2
  obtain ⟨i, hi⟩ := List.mem_iff_getElem?.1 h
  -- no declared variable and no output is the same
  have hno : ∀ y t, Alias (b.stmts 0) z y → b.Has y t → (∀ u, t ≠ .expr (.pos u)) → (∀ u k, t ≠ .index u k) → t.count = 1 → t = s := by
    intro y t hy hy' e1 e2 e3
    rcases alias_core hm hy z y hz (core_self hy' e1 (Nat.le_refl _) (by omega)) with rfl | ⟨_, _, _, _, _, h4, _⟩
    · exact (stmts_unique b 0 _ _ _ _ z hy' h (Nat.le_refl _) (by omega) h1 h2).2
    · exact absurd (stmts_unique b 0 _ _ _ _ y hy' h4 (Nat.le_refl _) (by omega) (Nat.le_refl _) (by simp [Stmt.count])).2 (e2 _ _)
  have hd : ¬ ∃ y name s v, Alias (b.stmts 0) z y ∧ b.Has y (.declare name s v) := by
    rintro ⟨y, name, t, v, hy, hy'⟩
    have := hno y _ hy hy' (by simp) (by simp) rfl
    subst this
    simp [Stmt.operands] at ha
  have ho : ¬ ∃ y name s v, Alias (b.stmts 0) z y ∧ b.Has y (.output name s v) := by
    rintro ⟨y, name, t, v, hy, hy'⟩
    have := hno y _ hy hy' (by simp) (by simp) rfl
    subst this
    simp [Stmt.operands] at ha
  have hr : rank b z = firstOf b z + 1 := by unfold rank; rw [if_neg hd, if_neg ho]
  obtain ⟨m, hm1, hm2⟩ : ∃ y, Alias (b.stmts 0) z y ∧ Creates b (firstOf b z) y := Nat.sInf_mem (s := {i | ∃ y, Alias (b.stmts 0) z y ∧ Creates b i y}) ⟨i, z, .refl z, n, s, hi, h1, h2⟩
  have hmin : ∀ y j, Alias (b.stmts 0) z y → Creates b j y → firstOf b z ≤ j := fun y j hy hj => Nat.sInf_le ⟨y, hy, hj⟩
  generalize firstOf b z = M at hr hm2 hmin
  have hMc : Core b m m := .here fun y hy => by
    obtain ⟨j, hj⟩ := List.mem_iff_getElem?.1 hy
    have e := creates_unique (b := b) ⟨m, _, hj, Nat.le_refl _, by simp [Stmt.count]⟩ hm2
    subst e
    have := (hm.stmts _ _ _ (stmts_split b hj)).1 y (by simp [Instr.first])
    obtain ⟨j', hj', hc'⟩ := created_before b j y this
    have := hmin y j' (.trans hm1 (.plus hy)) hc'
    omega
  rw [hr]
  rcases alias_core hm hm1 z m hz hMc with rfl | ⟨u, v, k, l, h3, h4, h5⟩
  · have e := creates_unique (b := b) ⟨n, s, hi, h1, h2⟩ hm2
    subst e
    have := rank_used hm hu hi (.inl ha)
    omega
  · obtain ⟨rfl, rfl⟩ := stmts_unique b 0 _ _ _ _ z h h3 h1 h2 (Nat.le_refl _) (by simp [Stmt.count])
    simp only [Stmt.operands, List.mem_singleton] at ha
    subst ha
    obtain ⟨j, hj⟩ := List.mem_iff_getElem?.1 h4
    have e := creates_unique (b := b) ⟨m, _, hj, Nat.le_refl _, by simp [Stmt.count]⟩ hm2
    subst e
    have := rank_used hm hu hj (a := v) (.inl (by simp [Stmt.operands]))
    rw [rank_alias h5]
    omega

/-- an output has a greater number than what is assigned to its parts -/
theorem rank_assigned [Zero K] {b : Body K F} (hm : MethodOk b) (hu : UsedWhenComplete b) {y x : Nat} {key : Key} {name : Name} {s : Shape} {v : Val K} (hy : b.Has y (.output name s v)) (h : b.Assigned y key x) :
    rank b x < rank b y := by
  obtain ⟨n, z, h1, h2⟩ := h
  obtain ⟨i, hi⟩ := List.mem_iff_getElem?.1 h1
  have hx := rank_used hm hu hi (a := x) (.inr ⟨z, key, rfl⟩)
  have hd : ¬ ∃ y' name s v, Alias (b.stmts 0) y y' ∧ b.Has y' (.declare name s v) := by
    rintro ⟨y', name', t, v', h3, h4⟩
    rcases alias_core hm h3 y y' (core_self hy (by simp) (Nat.le_refl _) (by simp [Stmt.count])) (core_self h4 (by simp) (Nat.le_refl _) (by simp [Stmt.count])) with rfl | ⟨_, _, _, _, _, h5, _⟩
    · have := (stmts_unique b 0 _ _ _ _ y hy h4 (Nat.le_refl _) (by simp [Stmt.count]) (Nat.le_refl _) (by simp [Stmt.count])).2
      cases this
    · have := (stmts_unique b 0 _ _ _ _ y' h4 h5 (Nat.le_refl _) (by simp [Stmt.count]) (Nat.le_refl _) (by simp [Stmt.count])).2
      cases this
  have hl : i + 1 ≤ lastOf b y := by
    refine le_csSup ⟨(b.stmts 0).length, ?_⟩ ⟨i, n, z, key, x, rfl, hi, h2⟩
    rintro q ⟨j, _, _, _, _, rfl, h, _⟩
    exact (List.getElem?_eq_some_iff.1 h).1
  have : rank b y = lastOf b y := by unfold rank; rw [if_neg hd, if_pos ⟨y, name, s, v, .refl y, hy⟩]
  omega

end Csdl.Prog
