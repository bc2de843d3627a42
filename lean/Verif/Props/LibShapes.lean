import Verif.Spec.LibShapes
import Verif.Props.StdShapes
import Verif.Props.Elementwise
import Verif.Props.Axes
/-
C83: the shapes of the results of library functions.
-/
namespace Csdl.Prog
open Csdl Csdl.Axes Csdl.StdShapes

theorem oneX_ok {x : Except XErr Shape} {outs : List Shape} : oneX x = .ok outs ↔ ∃ s, x = .ok s ∧ outs = [s] := by
  cases x <;> simp [oneX, eq_comm]

theorem oneE_ok {x : Except Elem.EErr Shape} {outs : List Shape} : oneE x = .ok outs ↔ ∃ s, x = .ok s ∧ outs = [s] := by
  cases x <;> simp [oneE, eq_comm]

theorem npDelete_iff {s t : Shape} {l : List Int} : npDelete s l = .ok t ↔ ∃ ks, AxesAre s.length l ks ∧ t = reduced s ks := by
  rcases axes_or s.length l with ⟨ks, h⟩ | h
  · rw [npDelete_ok h]
    constructor
    · intro e; cases e; exact ⟨ks, h, rfl⟩
    · rintro ⟨ks', h', rfl⟩
      have := npDelete_ok h'
      rw [npDelete_ok h] at this
      exact this
  · rw [npDelete_err h]
    constructor
    · intro e; cases e
    · rintro ⟨ks', h', rfl⟩
      have := npDelete_err (s := s) h
      rw [npDelete_ok h'] at this
      cases this

theorem axesAre_one {n : Nat} {i : Int} {ks : List Nat} : AxesAre n [i] ks ↔ ∃ k, ks = [k] ∧ AxisIs n i k := by
  unfold AxesAre
  constructor
  · intro h
    cases h with
    | cons h1 h2 => cases h2; exact ⟨_, rfl, h1⟩
  · rintro ⟨k, rfl, h⟩
    exact .cons h .nil

theorem npDelete_one {s t : Shape} {i : Int} : npDelete s [i] = .ok t ↔ ∃ k, AxisIs s.length i k ∧ t = reduced s [k] := by
  rw [npDelete_iff]
  simp only [axesAre_one]
  constructor
  · rintro ⟨_, ⟨k, rfl, h⟩, e⟩; exact ⟨k, h, e⟩
  · rintro ⟨k, h, e⟩; exact ⟨_, ⟨k, rfl, h⟩, e⟩

theorem matmat_iff {a b s : Shape} : StdShapes.matmat a b = .ok s ↔ ∃ n k l m, a = [n, k] ∧ b = [l, m] ∧ s = [n, m] := by
  unfold StdShapes.matmat
  split
  · constructor
    · intro h; cases h; exact ⟨_, _, _, _, rfl, rfl, rfl⟩
    · rintro ⟨_, _, _, _, h1, h2, rfl⟩; cases h1; cases h2; rfl
  · rename_i h
    constructor
    · intro h; cases h
    · rintro ⟨_, _, _, _, rfl, rfl, _⟩; exact absurd rfl (h _ _ _ _ rfl)

theorem matvec_iff {a b s : Shape} : StdShapes.matvec a b = .ok s ↔ ∃ n k r, a = n :: k :: r ∧ b = [k] ∧ s = [n] := by
  unfold StdShapes.matvec
  rcases a with _ | ⟨n, _ | ⟨k, r⟩⟩
  · simp [tupleGet]; intro h; cases h
  · simp [tupleGet]; intro h; cases h
  rcases b with _ | ⟨x, b⟩
  · simp [tupleGet]; intro h; cases h
  change (if k = x ∧ b.length + 1 = 1 then Except.ok [n] else Except.error XErr.value) = _ ↔ _
  split
  · rename_i h
    obtain ⟨rfl, h⟩ := h
    obtain rfl : b = [] := by simpa using h
    constructor
    · intro h; cases h; exact ⟨_, _, _, rfl, rfl, rfl⟩
    · rintro ⟨_, _, _, h1, h2, rfl⟩; cases h1; rfl
  · rename_i h
    constructor
    · intro h; cases h
    · rintro ⟨_, _, _, h1, h2, rfl⟩; cases h1; cases h2; exact absurd ⟨rfl, rfl⟩ h

theorem sparsematmat_iff {a s : Shape} {sp : Nat × Nat} : StdShapes.sparsematmat a sp = .ok s ↔ ∃ k r, a = sp.2 :: k :: r ∧ s = [sp.1, k] := by
  unfold StdShapes.sparsematmat
  rcases a with _ | ⟨m, a⟩
  · simp [tupleGet]; intro h; cases h
  change (if m ≠ sp.2 then Except.error XErr.value else do let k ← tupleGet (m :: a) 1; pure [sp.1, k]) = _ ↔ _
  split
  · rename_i h
    constructor
    · intro h; cases h
    · rintro ⟨_, _, h1, rfl⟩; cases h1; exact absurd rfl h
  · rename_i h
    obtain rfl : m = sp.2 := by simpa using h
    rcases a with _ | ⟨k, a⟩
    · simp [tupleGet]
    · constructor
      · intro h; cases h; exact ⟨_, _, rfl, rfl⟩
      · rintro ⟨_, _, h1, rfl⟩; cases h1; rfl

theorem same_shapes {s : Shape} {r : List Shape} : (s :: r).any (· ≠ s) = false ↔ s :: r = List.replicate (r.length + 1) s := by
  rw [List.any_eq_false, List.eq_replicate_iff]
  simp

theorem sumCheck_iff {l : List Shape} {s : Shape} : sumCheck l = .ok s ↔ s ≠ [] ∧ ∃ n, l = List.replicate (n + 1) s := by
  rcases l with _ | ⟨a, r⟩
  · simp [sumCheck]
  simp only [sumCheck]
  cases h : (a :: r).any (· ≠ a)
  · have h := same_shapes.1 h
    simp only [Bool.false_eq_true, if_false]
    by_cases h1 : a = []
    · rw [if_pos h1]
      constructor
      · intro h; cases h
      · rintro ⟨h2, n, e⟩
        rw [List.replicate_succ] at e
        cases e
        exact absurd h1 h2
    · rw [if_neg h1]
      constructor
      · intro e; cases e; exact ⟨h1, _, h⟩
      · rintro ⟨h2, n, e⟩
        rw [List.replicate_succ] at e
        cases e
        rfl
  · simp only [if_true]
    constructor
    · intro h; cases h
    · rintro ⟨_, n, e⟩
      rw [List.replicate_succ] at e
      cases e
      simp at h

theorem maxCheck_iff {l : List Shape} {s : Shape} : maxCheck l = .ok s ↔ ∃ n, l = List.replicate (n + 1) s := by
  rcases l with _ | ⟨a, r⟩
  · simp [maxCheck]
  simp only [maxCheck]
  cases h : (a :: r).any (· ≠ a)
  · have h := same_shapes.1 h
    simp only [Bool.false_eq_true, if_false]
    constructor
    · intro e; cases e; exact ⟨_, h⟩
    · rintro ⟨n, e⟩
      rw [List.replicate_succ] at e
      cases e
      rfl
  · simp only [if_true]
    constructor
    · intro h; cases h
    · rintro ⟨n, e⟩
      rw [List.replicate_succ] at e
      cases e
      simp at h

theorem bind_iff {α β : Type} {x : Except XErr α} {f : α → Except XErr β} {b : β} : (x >>= f) = .ok b ↔ ∃ a, x = .ok a ∧ f a = .ok b := by
  cases x with
  | error e => constructor
               · intro h; cases h
               · rintro ⟨_, h, _⟩; cases h
  | ok a => constructor
            · intro h; exact ⟨a, rfl, h⟩
            · rintro ⟨_, h, h'⟩; cases h; exact h'

theorem dropLast_cases (s : Shape) : s = [] ∨ ∃ t n, s = t ++ [n] := by
  rcases List.eq_nil_or_concat s with h | ⟨t, n, h⟩
  · exact .inl h
  · exact .inr ⟨t, n, by simpa using h⟩

theorem sum_iff {l : List Shape} {axes : AxesArg} {t : Shape} : StdShapes.sum l axes = .ok t ↔ ∃ s n, s ≠ [] ∧ l = List.replicate (n + 1) s ∧ sumShape s (n + 1) axes = .ok t := by
  unfold StdShapes.sum
  rw [bind_iff]
  constructor
  · rintro ⟨s, h1, h2⟩
    obtain ⟨h, n, rfl⟩ := sumCheck_iff.1 h1
    exact ⟨s, n, h, rfl, by simpa using h2⟩
  · rintro ⟨s, n, h1, rfl, h2⟩
    exact ⟨s, sumCheck_iff.2 ⟨h1, n, rfl⟩, by simpa using h2⟩

theorem maxMin_iff {l : List Shape} {axis : Option Int} {t : Shape} : maxMin l axis = .ok t ↔ ∃ s n, l = List.replicate (n + 1) s ∧ maxShape s (n + 1) axis = .ok t := by
  unfold maxMin
  rw [bind_iff]
  constructor
  · rintro ⟨s, h1, h2⟩
    obtain ⟨n, rfl⟩ := maxCheck_iff.1 h1
    exact ⟨s, n, rfl, by simpa using h2⟩
  · rintro ⟨s, n, rfl, h2⟩
    exact ⟨s, maxCheck_iff.2 ⟨n, rfl⟩, by simpa using h2⟩

theorem sumShape_tuple_iff {s t : Shape} {n : Nat} {l : List Int} : sumShape s (n + 1) (.tuple l) = .ok t ↔
    (∃ ks, ks.length < s.length ∧ ¬(n = 0 ∧ s.length = 1) ∧ AxesAre s.length l ks ∧ t = reduced s ks) ∨ ((∀ i ∈ l, i ≤ s.length) ∧ (l.length = s.length ∨ (n = 0 ∧ s.length = 1 ∧ l = [])) ∧ t = [1]) := by
  have hle : (∃ ks, AxesAre s.length l ks) → ∀ i ∈ l, i ≤ (s.length : Int) := by
    rintro ⟨ks, h⟩ i hi
    obtain ⟨k, hk⟩ : ∃ k, AxisIs s.length i k := by
      obtain ⟨j, hj, rfl⟩ := List.mem_iff_getElem.1 hi
      exact ⟨_, List.Forall₂.get h hj ((axesAre_length h) ▸ hj)⟩
    unfold AxisIs at hk
    omega
  simp only [sumShape]
  by_cases h1 : l.length > s.length
  · rw [if_pos h1]
    constructor
    · intro h; cases h
    · rintro (⟨ks, h2, _, h3, _⟩ | ⟨_, h | ⟨_, h, rfl⟩, _⟩)
      · have := axesAre_length h3
        omega
      · omega
      · simp at h1
  rw [if_neg h1]
  by_cases h2 : ∀ i ∈ l, i ≤ (s.length : Int)
  · rw [if_neg (by simpa using h2)]
    by_cases h3 : n + 1 = 1 ∧ s.length = 1
    · rw [if_pos h3]
      have h4 : l.length = s.length ∨ n = 0 ∧ s.length = 1 ∧ l = [] := by
        rcases l with _ | ⟨a, l⟩
        · exact .inr ⟨by omega, h3.2, rfl⟩
        · refine .inl ?_
          simp only [List.length_cons] at h1 ⊢
          omega
      constructor
      · intro e; cases e; exact .inr ⟨h2, h4, rfl⟩
      · rintro (⟨_, _, h, _⟩ | ⟨_, _, rfl⟩)
        · exact absurd ⟨by omega, h3.2⟩ h
        · rfl
    · rw [if_neg h3]
      by_cases h5 : s.length > l.length
      · rw [if_pos h5, npDelete_iff]
        constructor
        · rintro ⟨ks, h, rfl⟩
          have := axesAre_length h
          exact .inl ⟨ks, by omega, fun h => h3 ⟨by omega, h.2⟩, h, rfl⟩
        · rintro (⟨ks, _, _, h, e⟩ | ⟨_, h | ⟨h, h', _⟩, _⟩)
          · exact ⟨ks, h, e⟩
          · omega
          · exact absurd ⟨by omega, h'⟩ h3
      · rw [if_neg h5]
        constructor
        · intro e; cases e; exact .inr ⟨h2, .inl (by omega), rfl⟩
        · rintro (⟨ks, h, _, h', _⟩ | ⟨_, _, rfl⟩)
          · have := axesAre_length h'
            omega
          · rfl
  · rw [if_pos (by simpa using h2)]
    constructor
    · intro h; cases h
    · rintro (⟨ks, _, _, h, _⟩ | ⟨h, _⟩)
      · exact absurd (hle ⟨ks, h⟩) h2
      · exact absurd h h2

theorem maxShape_some_iff {s t : Shape} {n : Nat} {i : Int} : maxShape s n (some i) = .ok t ↔ (1 < s.length ∧ ∃ k, AxisIs s.length i k ∧ t = reduced s [k]) ∨ (s.length ≤ 1 ∧ i ≤ s.length ∧ t = [1]) := by
  simp only [maxShape]
  by_cases h1 : i > (s.length : Int)
  · rw [if_pos h1]
    constructor
    · intro h; cases h
    · rintro (⟨_, k, h, _⟩ | ⟨_, h, _⟩)
      · unfold AxisIs at h; omega
      · omega
  rw [if_neg h1]
  by_cases h2 : s.length > 1
  · rw [if_pos h2, npDelete_one]
    constructor
    · intro h; exact .inl ⟨h2, h⟩
    · rintro (⟨_, h⟩ | ⟨h, _⟩)
      · exact h
      · omega
  · rw [if_neg h2]
    constructor
    · intro e; cases e; exact .inr ⟨by omega, by omega, rfl⟩
    · rintro (⟨h, _⟩ | ⟨_, _, rfl⟩)
      · omega
      · rfl

theorem pnorm_iff {s t : Shape} {p : Int} {axis : AxesArg} : StdShapes.pnorm s p axis = .ok t ↔ (∃ q : Nat, 0 < q ∧ p = (2 * q : Nat)) ∧
    ((axis = .none ∧ t = [1]) ∨ (∃ i k, axis = .int i ∧ AxisIs s.length i k ∧ t = reduced s [k]) ∨ ∃ l ks, axis = .tuple l ∧ AxesAre s.length l ks ∧ t = reduced s ks) := by
  unfold StdShapes.pnorm
  by_cases hp : p % 2 ≠ 0 ∨ p ≤ 0
  · rw [if_pos hp]
    constructor
    · intro h; cases h
    · rintro ⟨⟨q, h1, rfl⟩, _⟩
      omega
  rw [if_neg hp]
  have hq : ∃ q : Nat, 0 < q ∧ p = (2 * q : Nat) := ⟨(p / 2).toNat, by omega, by omega⟩
  rw [and_iff_right hq]
  cases axis with
  | none => simp [eq_comm]
  | int i =>
    simp only [reduceCtorEq, false_and, false_or, AxesArg.int.injEq, exists_false, or_false]
    by_cases h : i > (s.length : Int)
    · rw [if_pos h]
      constructor
      · intro h; cases h
      · rintro ⟨j, k, rfl, h', _⟩; unfold AxisIs at h'; omega
    · rw [if_neg h, npDelete_one]
      simp
  | tuple l =>
    rw [npDelete_iff]
    simp

theorem average_iff {l : List Shape} {axes : AxesArg} {t : Shape} : StdShapes.average l axes = .ok t ↔ ∃ s r, l = s :: r ∧ averageShape s l.length axes = .ok t := by
  unfold StdShapes.average
  rw [bind_iff]
  rcases l with _ | ⟨s, r⟩
  · simp [tupleGet]
  · constructor
    · rintro ⟨_, h1, h2⟩; cases h1; exact ⟨s, r, rfl, h2⟩
    · rintro ⟨_, _, h1, h2⟩; cases h1; exact ⟨s, rfl, h2⟩

theorem inner_iff {a b t : Shape} {axes : Option (List (List Int))} : StdShapes.inner a b axes = .ok t ↔ (∃ n m, axes = none ∧ a = [n] ∧ b = [m] ∧ t = [1]) ∨
    ∃ l l' ks ks', axes = some [l, l'] ∧ ¬(a.length = 1 ∧ b.length = 1) ∧ AxesAre a.length l ks ∧ AxesAre b.length l' ks' ∧ t = reduced a ks ++ reduced b ks' := by
  unfold StdShapes.inner
  by_cases h : a.length = 1 ∧ b.length = 1
  · rw [if_pos h]
    obtain ⟨h1, h2⟩ := h
    obtain ⟨n, rfl⟩ := List.length_eq_one_iff.1 h1
    obtain ⟨m, rfl⟩ := List.length_eq_one_iff.1 h2
    cases axes with
    | none => simp [eq_comm]
    | some l => simp
  · rw [if_neg h]
    have h' : ¬∃ n m, axes = none ∧ a = [n] ∧ b = [m] ∧ t = [1] := by
      rintro ⟨n, m, _, rfl, rfl, _⟩
      simp at h
    rw [or_iff_right h']
    split
    · rename_i x y
      rw [bind_iff]
      simp only [bind_iff, npDelete_iff]
      constructor
      · rintro ⟨_, ⟨ks, h1, rfl⟩, _, ⟨ks', h2, rfl⟩, e⟩
        cases e
        exact ⟨_, _, ks, ks', rfl, h, h1, h2, rfl⟩
      · rintro ⟨_, _, ks, ks', e, _, h1, h2, rfl⟩
        cases e
        exact ⟨_, ⟨ks, h1, rfl⟩, _, ⟨ks', h2, rfl⟩, rfl⟩
    · rename_i hn
      constructor
      · intro h; cases h
      · rintro ⟨_, _, _, _, rfl, _⟩
        exact absurd rfl (hn _ _)

variable {K : Type}

theorem expand_shape {a t new : Shape} {i : Option (List Char)} (h : Axes.expand a new i = .ok t) : t = new := by
  unfold Axes.expand expandCheck at h
  repeat' split at h
  all_goals first | (cases h; rfl) | cases h

theorem quatrotvec_iff {a b t : Shape} : StdShapes.quatrotvec a b = .ok t ↔ a.dropLast = b.dropLast ∧ t = b := by
  unfold StdShapes.quatrotvec
  by_cases h : a.dropLast = b.dropLast
  · rw [if_neg (by simpa using h)]
    simp [h, eq_comm]
  · rw [if_pos h]
    simp [h]

theorem lib_shapes_gives (f : Lib K) (ins outs : List Shape) (h0 : f.shapes ins = .ok outs) : f.Gives ins outs := by
  unfold Lib.shapes at h0
  split at h0
  · cases h0; exact .elem ..
  · obtain ⟨s, g, rfl⟩ := oneX_ok.1 h0
    obtain ⟨_, _, _, _, rfl, rfl, rfl⟩ := matmat_iff.1 g
    exact .matmat ..
  · obtain ⟨s, g, rfl⟩ := oneX_ok.1 h0
    obtain ⟨_, _, _, rfl, rfl, rfl⟩ := matvec_iff.1 g
    exact .matvec ..
  · obtain ⟨s, g, rfl⟩ := oneX_ok.1 h0
    obtain ⟨_, _, _, h1, rfl, rfl⟩ := matvec_iff.1 g
    simp only [List.cons.injEq] at h1
    obtain ⟨rfl, rfl, rfl⟩ := h1
    exact .matvecSparse ..
  · obtain ⟨s, g, rfl⟩ := oneX_ok.1 h0
    obtain ⟨_, _, rfl, rfl⟩ := sparsematmat_iff.1 g
    exact .sparsematmat ..
  · obtain ⟨s, g, rfl⟩ := oneX_ok.1 h0
    obtain ⟨rfl, ⟨h, rfl⟩ | ⟨h, i, k, rfl, h1, h2, rfl⟩⟩ := (C46_dot ..).1 g
    · obtain ⟨n, rfl⟩ := List.length_eq_one_iff.1 h
      exact .dotVec ..
    · exact .dot _ _ _ h h1 h2
  · obtain ⟨s, g, rfl⟩ := oneX_ok.1 h0
    obtain ⟨rfl, rfl, k, h1, h2⟩ := (C46_cross ..).1 g
    exact .cross _ _ _ h1 h2
  · cases h0; exact .outer ..
  · obtain ⟨s, g, rfl⟩ := oneX_ok.1 h0
    obtain ⟨_, _, rfl, rfl, rfl, rfl⟩ | ⟨_, _, _, _, rfl, h, h1, h2, rfl⟩ := inner_iff.1 g
    · exact .innerVec ..
    · exact .inner _ _ _ _ _ _ h h1 h2
  · obtain ⟨t, g, rfl⟩ := oneX_ok.1 h0
    obtain ⟨s, n, hs, rfl, h⟩ := sum_iff.1 g
    rename_i axes
    by_cases ht : ∃ l, axes = .tuple l
    · obtain ⟨l, rfl⟩ := ht
      obtain ⟨ks, h1, h2, h3, rfl⟩ | ⟨h1, h2, rfl⟩ := sumShape_tuple_iff.1 h
      · exact .sumAxes _ _ _ _ hs h1 h2 h3
      · exact .sumScalar _ _ _ hs h1 h2
    · have ht : ∀ l, axes ≠ .tuple l := fun l h => ht ⟨l, h⟩
      have h : (if n + 1 = 1 then Except.ok [1] else Except.ok s) = Except.ok (ε := XErr) t := by
        rw [← h]
        cases axes with
        | tuple l => exact absurd rfl (ht l)
        | _ => rfl
      rcases n with _ | n
      · cases h; exact .sumAll _ _ hs ht
      · simp at h; cases h; exact .sumArgs _ _ _ hs ht
  · obtain ⟨t, g, rfl⟩ := oneX_ok.1 h0
    obtain ⟨s, n, rfl, h⟩ := maxMin_iff.1 g
    rename_i axis
    cases axis with
    | none =>
      simp only [maxShape] at h
      rcases n with _ | n
      · cases h; exact .maxAll ..
      · simp at h; cases h; exact .maxArgs ..
    | some i =>
      obtain ⟨h1, k, h2, rfl⟩ | ⟨h1, h2, rfl⟩ := maxShape_some_iff.1 h
      · exact .maxAxis _ _ _ _ h1 h2
      · exact .maxVec _ _ _ h1 h2
  · obtain ⟨t, g, rfl⟩ := oneX_ok.1 h0
    obtain ⟨s, n, rfl, h⟩ := maxMin_iff.1 g
    rename_i axis
    cases axis with
    | none =>
      simp only [maxShape] at h
      rcases n with _ | n
      · cases h; exact .minAll ..
      · simp at h; cases h; exact .minArgs ..
    | some i =>
      obtain ⟨h1, k, h2, rfl⟩ | ⟨h1, h2, rfl⟩ := maxShape_some_iff.1 h
      · exact .minAxis _ _ _ _ h1 h2
      · exact .minVec _ _ _ h1 h2
  · obtain ⟨t, g, rfl⟩ := oneX_ok.1 h0
    obtain ⟨s, r, rfl, h⟩ := average_iff.1 g
    rename_i axes
    cases axes with
    | none =>
      rcases r with _ | ⟨u, r⟩
      · cases h; exact .averageAll ..
      · simp [averageShape] at h; cases h; exact .averageArgs ..
    | int i => obtain ⟨k, h1, rfl⟩ := npDelete_one.1 h; exact .averageAxis _ _ _ _ h1
    | tuple l => obtain ⟨ks, h1, rfl⟩ := npDelete_iff.1 h; exact .averageAxes _ _ _ _ h1
  · obtain ⟨t, g, rfl⟩ := oneX_ok.1 h0
    obtain ⟨⟨q, hq, rfl⟩, ⟨rfl, rfl⟩ | ⟨i, k, rfl, h, rfl⟩ | ⟨l, ks, rfl, h, rfl⟩⟩ := pnorm_iff.1 g
    · exact .pnormAll _ _ hq
    · exact .pnormAxis _ _ _ _ hq h
    · exact .pnormAxes _ _ _ _ hq h
  · obtain ⟨t, g, rfl⟩ := oneX_ok.1 h0
    obtain ⟨h, rfl⟩ := quatrotvec_iff.1 g
    rename_i a
    rcases dropLast_cases a with rfl | ⟨a, m, rfl⟩ <;> rcases dropLast_cases t with rfl | ⟨b, n, rfl⟩
    · exact .quatrotvecNone
    · simp at h; subst h; exact .quatrotvecVec _
    · simp at h; subst h; exact .quatrotvecQuat _
    · simp at h; subst h; exact .quatrotvec ..
  · cases h0
    rename_i s
    unfold StdShapes.rotmat
    by_cases h : s = [1]
    · subst h; exact .rotmatOne _
    · rw [if_neg h]; exact .rotmat _ _ h
  · rename_i a
    cases h' : StdShapes.eigenvalues a with
    | error e => rw [h'] at h0; cases h0
    | ok q =>
      rw [h'] at h0
      cases h0
      unfold StdShapes.eigenvalues at h'
      split at h'
      · rename_i n m
        by_cases hn : n = m
        · subst hn
          simp at h'
          cases h'
          exact .eigenvalues _
        · simp [hn] at h'
      · cases h'
  · obtain ⟨t, g, rfl⟩ := oneX_ok.1 h0
    rename_i new a
    unfold reshapeShape at g
    by_cases e : a.size = new.size
    · rw [if_neg (by simpa using e)] at g
      cases g
      exact .reshape _ _ e
    · rw [if_pos e] at g; cases g
  · cases h0; exact .transpose _
  · obtain ⟨t, g, rfl⟩ := oneX_ok.1 h0; exact .reorderAxes _ _ _ g
  · obtain ⟨t, g, rfl⟩ := oneX_ok.1 h0
    obtain rfl := expand_shape g
    exact .expand _ _ _ g
  · obtain ⟨t, g, rfl⟩ := oneX_ok.1 h0; exact .einsum _ _ _ g
  · obtain ⟨t, g, rfl⟩ := oneX_ok.1 h0; exact .einsumNewApi _ _ _ g
  · obtain ⟨t, g, rfl⟩ := oneE_ok.1 h0
    obtain ⟨h1, ⟨c, rfl⟩ | ⟨u, h, h2⟩⟩ := (Elem.C78_exp_a_accepted_iff ..).1 g
    · cases h1; exact .expA ..
    · cases h1; exact .expAArr _ _ _ _ h h2
  · obtain ⟨t, g, rfl⟩ := oneE_ok.1 h0
    obtain ⟨h1, h2, rfl | rfl⟩ := (Elem.C78_bessel_accepted_iff ..).1 g
    · cases h1; exact .bessel _ _ _ (by simpa using h2)
    · cases h1; exact .besselArr _ _ _ (by simpa using h2)
  · cases h0

theorem lib_gives_shapes (f : Lib K) (ins outs : List Shape) (h : f.Gives ins outs) : f.shapes ins = .ok outs := by
  cases h with
  | elem | outer | transpose | quatrotvecNone | quatrotvecVec | quatrotvecQuat | rotmatOne => rfl
  | matmat => rfl
  | eigenvalues n => simp [Lib.shapes, StdShapes.eigenvalues, twoX]
  | matvec n k r => exact oneX_ok.2 ⟨_, matvec_iff.2 ⟨_, _, _, rfl, rfl, rfl⟩, rfl⟩
  | matvecSparse => exact oneX_ok.2 ⟨_, matvec_iff.2 ⟨_, _, _, rfl, rfl, rfl⟩, rfl⟩
  | sparsematmat => exact oneX_ok.2 ⟨_, sparsematmat_iff.2 ⟨_, _, rfl, rfl⟩, rfl⟩
  | dotVec => exact oneX_ok.2 ⟨_, (C46_dot ..).2 ⟨rfl, .inl ⟨rfl, rfl⟩⟩, rfl⟩
  | dot i k s h1 h2 h3 => exact oneX_ok.2 ⟨_, (C46_dot ..).2 ⟨rfl, .inr ⟨h1, _, _, rfl, h2, h3, rfl⟩⟩, rfl⟩
  | cross i k s h1 h2 => exact oneX_ok.2 ⟨_, (C46_cross ..).2 ⟨rfl, rfl, _, h1, h2⟩, rfl⟩
  | innerVec => rfl
  | inner s t l l' ks ks' h h1 h2 => exact oneX_ok.2 ⟨_, inner_iff.2 (.inr ⟨_, _, _, _, rfl, h, h1, h2, rfl⟩), rfl⟩
  | sumAll axes s h1 h2 =>
    refine oneX_ok.2 ⟨_, sum_iff.2 ⟨s, 0, h1, rfl, ?_⟩, rfl⟩
    cases axes with
    | tuple l => exact absurd rfl (h2 l)
    | _ => rfl
  | sumArgs axes s n h1 h2 =>
    refine oneX_ok.2 ⟨_, sum_iff.2 ⟨s, n + 1, h1, rfl, ?_⟩, rfl⟩
    cases axes with
    | tuple l => exact absurd rfl (h2 l)
    | _ => simp [sumShape]
  | sumAxes s n l ks h1 h2 h3 h4 => exact oneX_ok.2 ⟨_, sum_iff.2 ⟨s, n, h1, rfl, sumShape_tuple_iff.2 (.inl ⟨ks, h2, h3, h4, rfl⟩)⟩, rfl⟩
  | sumScalar s n l h1 h2 h3 => exact oneX_ok.2 ⟨_, sum_iff.2 ⟨s, n, h1, rfl, sumShape_tuple_iff.2 (.inr ⟨h2, h3, rfl⟩)⟩, rfl⟩
  | maxAll s => exact oneX_ok.2 ⟨_, maxMin_iff.2 ⟨s, 0, rfl, rfl⟩, rfl⟩
  | minAll s => exact oneX_ok.2 ⟨_, maxMin_iff.2 ⟨s, 0, rfl, rfl⟩, rfl⟩
  | maxArgs s n => exact oneX_ok.2 ⟨_, maxMin_iff.2 ⟨s, n + 1, rfl, by simp [maxShape]⟩, rfl⟩
  | minArgs s n => exact oneX_ok.2 ⟨_, maxMin_iff.2 ⟨s, n + 1, rfl, by simp [maxShape]⟩, rfl⟩
  | maxAxis s n i k h1 h2 => exact oneX_ok.2 ⟨_, maxMin_iff.2 ⟨s, n, rfl, maxShape_some_iff.2 (.inl ⟨h1, k, h2, rfl⟩)⟩, rfl⟩
  | minAxis s n i k h1 h2 => exact oneX_ok.2 ⟨_, maxMin_iff.2 ⟨s, n, rfl, maxShape_some_iff.2 (.inl ⟨h1, k, h2, rfl⟩)⟩, rfl⟩
  | maxVec s n i h1 h2 => exact oneX_ok.2 ⟨_, maxMin_iff.2 ⟨s, n, rfl, maxShape_some_iff.2 (.inr ⟨h1, h2, rfl⟩)⟩, rfl⟩
  | minVec s n i h1 h2 => exact oneX_ok.2 ⟨_, maxMin_iff.2 ⟨s, n, rfl, maxShape_some_iff.2 (.inr ⟨h1, h2, rfl⟩)⟩, rfl⟩
  | averageAll s => exact oneX_ok.2 ⟨[1], (average_iff (axes := .none)).2 ⟨s, [], rfl, by rfl⟩, rfl⟩
  | averageArgs s t l => exact oneX_ok.2 ⟨s, (average_iff (axes := .none)).2 ⟨s, t :: l, rfl, by simp [averageShape]⟩, rfl⟩
  | averageAxis s l i k h => exact oneX_ok.2 ⟨_, average_iff.2 ⟨_, _, rfl, npDelete_one.2 ⟨k, h, rfl⟩⟩, rfl⟩
  | averageAxes s l axes ks h => exact oneX_ok.2 ⟨_, average_iff.2 ⟨_, _, rfl, npDelete_iff.2 ⟨ks, h, rfl⟩⟩, rfl⟩
  | pnormAll p s h => exact oneX_ok.2 ⟨_, pnorm_iff.2 ⟨⟨p, h, rfl⟩, .inl ⟨rfl, rfl⟩⟩, rfl⟩
  | pnormAxis p s i k h h1 => exact oneX_ok.2 ⟨_, pnorm_iff.2 ⟨⟨p, h, rfl⟩, .inr (.inl ⟨_, _, rfl, h1, rfl⟩)⟩, rfl⟩
  | pnormAxes p s l ks h h1 => exact oneX_ok.2 ⟨_, pnorm_iff.2 ⟨⟨p, h, rfl⟩, .inr (.inr ⟨_, _, rfl, h1, rfl⟩)⟩, rfl⟩
  | quatrotvec s m n => exact oneX_ok.2 ⟨_, quatrotvec_iff.2 ⟨by simp, rfl⟩, rfl⟩
  | rotmat axis s h =>
    change Except.ok [StdShapes.rotmat s] = _
    rw [StdShapes.rotmat, if_neg h]
  | reshape s new h => exact oneX_ok.2 ⟨_, by rw [reshapeShape, if_neg (by simpa using h)], rfl⟩
  | reorderAxes _ _ _ h => exact oneX_ok.2 ⟨_, h, rfl⟩
  | expand _ _ _ h => exact oneX_ok.2 ⟨_, h, rfl⟩
  | einsum _ _ _ h => exact oneX_ok.2 ⟨_, h, rfl⟩
  | einsumNewApi _ _ _ h => exact oneX_ok.2 ⟨_, h, rfl⟩
  | expA c m s => rfl
  | expAArr b t m s h1 h2 => exact oneE_ok.2 ⟨_, (Elem.C78_exp_a_accepted_iff ..).2 ⟨rfl, .inr ⟨t, h1, h2⟩⟩, rfl⟩
  | bessel kind m s h => exact oneE_ok.2 ⟨_, (Elem.C78_bessel_accepted_iff ..).2 ⟨rfl, by simpa using h, .inl rfl⟩, rfl⟩
  | besselArr kind m s h => exact oneE_ok.2 ⟨_, (Elem.C78_bessel_accepted_iff ..).2 ⟨rfl, by simpa using h, .inr rfl⟩, rfl⟩

/-- **C83, the shapes that a function accepts and gives.**  A call is accepted, with results of certain shapes, exactly in the cases listed in `Lib.Gives`. -/
theorem C83_library_shapes (f : Lib K) (ins outs : List Shape) : f.shapes ins = .ok outs ↔ f.Gives ins outs := ⟨lib_shapes_gives f ins outs, lib_gives_shapes f ins outs⟩

/-- non-vacuity: a matrix times a vector along with a sum over an axis counted from the end; a matrix with a vector of another size is not accepted -/
example : (Lib.matvec : Lib K).Gives [[2, 3], [3]] [[2]] ∧ (Lib.sum (.tuple [-1]) : Lib K).Gives [[2, 3]] [[2]] ∧ ¬∃ outs, (Lib.matvec : Lib K).Gives [[2, 3], [2]] outs := by
  refine ⟨.matvec .., (C83_library_shapes ..).1 (by rfl), ?_⟩
  rintro ⟨outs, h⟩
  cases h

end Csdl.Prog
