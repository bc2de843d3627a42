import Verif.Model.ShapeVal
import Mathlib.Algebra.Order.Field.Rat
/-!
# C51, C53: shapes, sizes and values of new variables
-/
namespace Csdl
variable {V : Type} [MulOneClass V]

/-- C51: what `get_shape_val` does with a number (broadcast), a list or an array (accepted exactly when its shape is the requested one, or the requested one is (1,)); the
resulting value always has the resulting shape. -/
theorem C51_shape_inference (shape : ShapeArg) (val : ValArg V) :
    (∀ x, val = .number x → ∃ a : Arr V, getShapeVal shape val false = some (shape.shape, some a) ∧ a.shape = shape.shape ∧ ∀ i, a.get i = x) ∧
    (∀ a, val = .list a ∨ val = .array a →
      ((getShapeVal shape val false).isSome ↔ a.shape = shape.shape ∨ shape.shape = [1]) ∧
      ∀ s v, getShapeVal shape val false = some (s, v) → s = a.shape ∧ v = some a) ∧
    (∀ s v, getShapeVal shape val false = some (s, v) → ∃ a, v = some a ∧ a.shape = s) := by
  have key : ∀ a, (∀ b, valArray shape.shape false val = some b → b = a) → valArray shape.shape false val = some a →
      ((getShapeVal shape val false).isSome ↔ a.shape = shape.shape ∨ shape.shape = [1]) ∧ ∀ s v, getShapeVal shape val false = some (s, v) → s = a.shape ∧ v = some a := by
    intro a _ ha
    unfold getShapeVal
    rw [ha]; dsimp only
    by_cases h1 : shape.shape = [1]
    · rw [if_pos h1]; refine ⟨by simp [h1], fun s v h => ?_⟩
      cases h; exact ⟨rfl, rfl⟩
    · rw [if_neg h1]
      by_cases h2 : a.shape = shape.shape
      · rw [if_neg (by simp [h2])]; refine ⟨by simp [h2], fun s v h => ?_⟩
        cases h; exact ⟨h2.symm, rfl⟩
      · rw [if_pos ⟨rfl, h2⟩]; refine ⟨by simp [h1, h2], fun s v h => by cases h⟩
  have ex : ∃ a, valArray shape.shape false val = some a := by cases val <;> exact ⟨_, rfl⟩
  refine ⟨?_, ?_, ?_⟩
  · rintro x rfl
    have hk := key (onesTimes x shape.shape) (fun b hb => by cases hb; rfl) rfl
    have hs := hk.1.2 (Or.inl rfl)
    obtain ⟨⟨s, v⟩, hr⟩ := Option.isSome_iff_exists.1 hs
    obtain ⟨rfl, rfl⟩ := hk.2 s v hr
    exact ⟨_, hr, rfl, fun i => mul_one x⟩
  · rintro a (rfl | rfl)
    · exact key a (fun b hb => by cases hb; rfl) rfl
    · exact key a (fun b hb => by cases hb; rfl) rfl
  · intro s v h
    obtain ⟨a, ha⟩ := ex
    obtain ⟨e1, e2⟩ := (key a (fun b hb => by rw [ha] at hb; cases hb; rfl) ha).2 s v h
    exact ⟨a, e2, e1.symm⟩

/-- an accepted array, and a rejected one -/
example : (getShapeVal (V := Rat) (.tuple [1]) (.array ⟨[2, 3], fun _ => 5⟩) false).isSome ∧ ¬ (getShapeVal (V := Rat) (.tuple [3, 2]) (.array ⟨[2, 3], fun _ => 5⟩) false).isSome := by
  constructor <;> simp [getShapeVal, valArray, ShapeArg.shape]

/-! ### C53: the size of a variable is the number of its elements -/

/-- the shapes with and without value agree, for numbers and arrays -/
theorem getShapeVal_novalue {shape : ShapeArg} {val : ValArg V} (hv : ∀ a, val ≠ .list a) {s : Shape} {v : Option (Arr V)} (h : getShapeVal shape val false = some (s, v)) :
    ∃ v', getShapeVal shape val true = some (s, v') := by
  cases val with
  | list a => exact absurd rfl (hv a)
  | number x =>
    obtain ⟨a, h1, _⟩ := (C51_shape_inference shape (.number x)).1 x rfl
    rw [h1] at h; cases h
    exact ⟨none, rfl⟩
  | array a =>
    obtain ⟨h1, h2⟩ := (C51_shape_inference shape (.array a)).2.1 a (Or.inr rfl)
    obtain ⟨rfl, _⟩ := h2 _ _ h
    unfold getShapeVal valArray
    dsimp only
    by_cases h3 : shape.shape = [1]
    · rw [if_pos h3]; exact ⟨_, rfl⟩
    · have := h1.1 (by rw [h]; rfl)
      rw [if_neg h3, if_neg (by simp), this.resolve_right h3]; exact ⟨_, rfl⟩

/-- C51: what `create_input`, `declare_variable` and `create_output` make of their arguments: a number fills an array of the given shape; a list or an array is taken as it is, its shape is the shape of
the variable, and it is accepted exactly if the shape given agrees with it or is `(1,)`. -/
theorem C51_created (make : ShapeArg → ValArg V → Option (VarObj V)) (hm : make = createInput ∨ make = createOutput) (shape : ShapeArg) (val : ValArg V) :
    (∀ x, val = .number x → ∃ v a, make shape val = some v ∧ v.shape = shape.shape ∧ v.val = some a ∧ a.shape = shape.shape ∧ ∀ i, a.get i = x) ∧
    ∀ a, val = .list a ∨ val = .array a →
      ((make shape val).isSome ↔ a.shape = shape.shape ∨ shape.shape = [1]) ∧ ∀ v, make shape val = some v → v.shape = a.shape ∧ v.val = some a := by
  have hl : ∀ a, checkDefault val ≠ .list a := by intro a; cases val <;> simp [checkDefault]
  have hid : checkDefault (checkDefault val) = checkDefault val := by cases val <;> rfl
  have hmake : ∀ v, make shape val = some v → getShapeVal shape (checkDefault val) false = some (v.shape, v.val) := by
    intro v h
    rcases hm with rfl | rfl
    · unfold createInput inputInit at h
      cases h1 : variableInit shape (checkDefault val) with
      | none => rw [h1] at h; cases h
      | some w =>
        rw [h1] at h
        obtain ⟨r, hr, rfl⟩ := Option.map_eq_some_iff.1 h
        exact hr
    · unfold createOutput concatInit at h
      rw [hid] at h
      cases h1 : variableInit (.tuple [1]) (.number (1 : V)) with
      | none => rw [h1] at h; cases h
      | some w =>
        rw [h1] at h
        obtain ⟨r, hr, rfl⟩ := Option.map_eq_some_iff.1 h
        exact hr
  have hsome : ∀ r, getShapeVal shape (checkDefault val) false = some r → ∃ v, make shape val = some v := by
    intro r hr
    rcases hm with rfl | rfl
    · obtain ⟨v', hv'⟩ := getShapeVal_novalue hl hr
      refine Option.isSome_iff_exists.1 ?_
      unfold createInput inputInit variableInit
      rw [hv', hr]
      rfl
    · refine Option.isSome_iff_exists.1 ?_
      unfold createOutput concatInit
      rw [hid, hr]
      rfl
  refine ⟨?_, ?_⟩
  · rintro x rfl
    obtain ⟨a, h1, h2, h3⟩ := (C51_shape_inference shape (.number x)).1 x rfl
    obtain ⟨v, hv⟩ := hsome _ h1
    have := hmake v hv
    rw [show checkDefault (.number x) = .number x from rfl, h1] at this
    simp only [Option.some.injEq, Prod.mk.injEq] at this
    exact ⟨v, a, hv, this.1.symm, this.2.symm, h2, h3⟩
  · intro a ha
    have hc : checkDefault val = .array a := by rcases ha with rfl | rfl <;> rfl
    obtain ⟨h1, h2⟩ := (C51_shape_inference shape (.array a)).2.1 a (Or.inr rfl)
    rw [hc] at hmake hsome
    refine ⟨?_, fun v hv => h2 _ _ (hmake v hv)⟩
    rw [← h1]
    constructor
    · intro h
      obtain ⟨v, hv⟩ := Option.isSome_iff_exists.1 h
      rw [hmake v hv]; rfl
    · intro h
      obtain ⟨r, hr⟩ := Option.isSome_iff_exists.1 h
      obtain ⟨v, hv⟩ := hsome r hr
      rw [hv]; rfl

/-- an accepted array, and a rejected one -/
example : (createOutput (V := Rat) (.tuple [1]) (.list ⟨[2, 3], fun _ => 5⟩)).isSome ∧ ¬ (createInput (V := Rat) (.tuple [3, 2]) (.array ⟨[2, 3], fun _ => 5⟩)).isSome := by
  constructor
  · exact ((C51_created createOutput (Or.inr rfl) _ _).2 _ (Or.inl rfl)).1.2 (by decide)
  · rw [((C51_created createInput (Or.inl rfl) _ _).2 _ (Or.inr rfl)).1]; decide

/-- C53 (partial: not for `create_output`): a variable made by `create_input` or `declare_variable` has as `size` the number of elements of its shape; so has every output of an operation; and
such variables can be flattened. -/
theorem C53_size_is_product_partial (shape : ShapeArg) (val : ValArg V) (v : VarObj V) (h : createInput shape val = some v) :
    v.size = v.shape.prod ∧ (∃ a, v.val = some a ∧ a.shape = v.shape) ∧ flattenVar v = some [v.shape.prod] := by
  unfold createInput inputInit variableInit at h
  have hl : ∀ a, checkDefault val ≠ .list a := by intro a; cases val <;> simp [checkDefault]
  cases hg : getShapeVal shape (checkDefault val) false with
  | none => rw [hg] at h; cases ht : getShapeVal shape (checkDefault val) true <;> rw [ht] at h <;> cases h
  | some r =>
    obtain ⟨s, w⟩ := r
    obtain ⟨v', hv'⟩ := getShapeVal_novalue hl hg
    rw [hg, hv'] at h
    simp only [Option.map_some, Option.some.injEq] at h
    subst h
    refine ⟨rfl, (C51_shape_inference shape (checkDefault val)).2.2 s w hg, ?_⟩
    simp [flattenVar, reshape]

theorem C53_output_size (s : Shape) (v : VarObj V) (h : outputInit s = some v) : v.size = v.shape.prod ∧ flattenVar v = some [v.shape.prod] := by
  unfold outputInit variableInit at h
  cases ht : getShapeVal (.tuple s) (.number (1 : V)) true with
  | none => rw [ht] at h; cases h
  | some r =>
    rw [ht] at h
    simp only [Option.map_some, Option.some.injEq] at h
    subst h
    exact ⟨rfl, by simp [flattenVar, reshape]⟩

/-- the hypothesis holds of a list with the default shape -/
example : ∃ v, createInput (V := Rat) (.tuple [1]) (.list ⟨[2, 3], fun _ => 5⟩) = some v ∧ v.size = 6 := ⟨_, rfl, rfl⟩

/-- C53 as stated is false of the code: a variable made by `create_output` always has `size` 1, whatever its shape; so if it has other than one element, `flatten` raises ValueError. -/
theorem C53_concatenation_size (shape : ShapeArg) (val : ValArg V) (v : VarObj V) (h : createOutput shape val = some v) :
    v.size = 1 ∧ (v.shape.prod ≠ 1 → flattenVar v = none) := by
  have hs : v.size = 1 := by
    unfold createOutput concatInit at h
    simp only [variableInit, getShapeVal, valArray, ShapeArg.shape, if_true, Option.map_some] at h
    obtain ⟨r, _, rfl⟩ := Option.map_eq_some_iff.1 h
    rfl
  refine ⟨hs, fun hp => ?_⟩
  unfold flattenVar reshape
  rw [hs, if_pos (by simpa using hp)]

example : ∃ v, createOutput (V := Rat) (.tuple [2, 3]) (.number 1) = some v ∧ v.shape = [2, 3] ∧ v.size = 1 ∧ flattenVar v = none := by
  refine ⟨_, rfl, rfl, rfl, rfl⟩

end Csdl
