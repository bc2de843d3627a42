import Verif.Props.ModelApi
/-!
# C14, C16, C17: what accepted calls do

The theorems of Props/ModelApi.lean say which states cannot be reached.  Those of this file say which calls are accepted, and that an accepted call records exactly what was asked for, in the model it was
made on and nowhere else.
-/
namespace Csdl.Api

/-- The call changed model `i` from `s` to `s'`, and no other model. -/
def OnlyChanges (w w' : World) (i : Nat) (s' : MState) : Prop :=
  w'.models.length = w.models.length ∧ w'.models[i]? = some s' ∧ ∀ j, j ≠ i → w'.models[j]? = w.models[j]?

theorem onlyChanges_put {w w1 : World} {i : Nat} {s s' : MState} (hi : w.models[i]? = some s) (h1 : w1.models = w.models) : OnlyChanges w (w1.put i s') i s' := by
  have hlt : i < w.models.length := (List.getElem?_eq_some_iff.1 hi).1
  refine ⟨by simp [World.put, h1], by simp [World.put, h1, hlt], fun j hj => ?_⟩
  simp [World.put, h1, Ne.symm hj]

theorem stepModel_eq {w : World} {i : Nat} {s : MState} (hi : w.models[i]? = some s) {c : Call} (hc : c.model = some i) : stepModel w c = stepOn w i s c := by
  simp [stepModel, hc, hi]

/-- The number of entries of a bound. -/
def Bound.count : Bound → Nat
  | .num _ => 1
  | .arr l => l.length
  | .other => 0

/-- NumPy can compare the two bounds entry by entry. -/
def Comparable (l u : Bound) : Prop := l.count = u.count ∨ l.count = 1 ∨ u.count = 1

/-- No entry of the lower bound is above the entry of the upper bound. -/
def Ordered (l u : Bound) : Prop := ∀ i x y, l.at i = some x → u.at i = some y → x ≤ y

/-- A value of an accepted type (or none). -/
def Typed : Option Bound → Prop
  | some .other => False
  | _ => True

theorem ok_iff (b : Option Bound) : Bound.ok b = true ↔ Typed b := by
  cases b with
  | none => simp [Bound.ok, Typed]
  | some b => cases b <;> simp [Bound.ok, Typed]

theorem entries_length (b : Bound) : b.entries.length = b.count := by cases b <;> simp [Bound.entries, Bound.count]

theorem npGreater_isSome (l u : Bound) : (npGreater l.entries u.entries).isSome ↔ Comparable l u := by
  rw [Comparable, ← entries_length, ← entries_length]
  generalize l.entries = a
  generalize u.entries = b
  unfold npGreater
  split
  · next h => simp [h]
  · next h =>
    split
    · simp
    · simp
    · next h1 h2 =>
      constructor
      · intro h; cases h
      · rintro (h3 | h3 | h3)
        · exact absurd h3 h
        · obtain ⟨x, rfl⟩ := List.length_eq_one_iff.1 h3
          exact (h1 x rfl).elim
        · obtain ⟨y, rfl⟩ := List.length_eq_one_iff.1 h3
          exact (h2 y rfl).elim

theorem at_of_entries {b : Bound} {i : Nat} {x : Rat} (h : b.entries[i]? = some x) : b.at i = some x := by
  cases b with
  | num q =>
    cases i with
    | zero => simpa [Bound.entries, Bound.at] using h
    | succ i => simp [Bound.entries] at h
  | arr l =>
    match l, h with
    | [], h => simp [Bound.entries] at h
    | [q], h =>
      cases i with
      | zero => simpa [Bound.entries, Bound.at] using h
      | succ i => simp [Bound.entries] at h
    | q :: q' :: r, h => simpa [Bound.entries, Bound.at] using h
  | other => simp [Bound.entries] at h

theorem at_of_single {b : Bound} {x : Rat} (h : b.entries = [x]) (i : Nat) : b.at i = some x := by
  cases b with
  | num q => simpa [Bound.entries, Bound.at] using h
  | arr l => simp only [Bound.entries] at h; subst h; rfl
  | other => simp [Bound.entries] at h

theorem npGreater_ordered {l u : Bound} {g : List Bool} (hg : npGreater l.entries u.entries = some g) : g.any id = false ↔ Ordered l u := by
  constructor
  · intro ha i x y hx hy; exact npGreater_spec hg ha i x y hx hy
  · intro ho
    rw [List.any_eq_false]
    rcases npGreater_cases hg with ⟨hl, rfl⟩ | ⟨z, hl, rfl⟩ | ⟨z, hl, rfl⟩
    · intro b hb
      obtain ⟨i, hi⟩ := List.mem_iff_getElem?.1 hb
      rw [List.getElem?_zipWith] at hi
      cases hx : l.entries[i]? with
      | none => rw [hx] at hi; cases hi
      | some x =>
        cases hy : u.entries[i]? with
        | none => rw [hx, hy] at hi; cases hi
        | some y =>
          rw [hx, hy] at hi
          have := ho i x y (at_of_entries hx) (at_of_entries hy)
          cases hi
          simpa using this
    · intro b hb
      obtain ⟨y, hy, rfl⟩ := List.mem_map.1 hb
      obtain ⟨i, hi⟩ := List.mem_iff_getElem?.1 hy
      have := ho i z y (at_of_single hl i) (at_of_entries hi)
      simpa using this
    · intro b hb
      obtain ⟨x, hx, rfl⟩ := List.mem_map.1 hb
      obtain ⟨i, hi⟩ := List.mem_iff_getElem?.1 hx
      have := ho i x z (at_of_entries hi) (at_of_single hl i)
      simpa using this

/-- **C16.** `add_objective` is accepted exactly if the model has no objective yet; then it is the objective. -/
theorem C16_objective_accepted_iff (w : World) (i : Nat) (s : MState) (hi : w.models[i]? = some s) (name : Name) (d : Nat) :
    ((step w (.addObjective i name d)).2 = none ↔ s.objective = none) ∧
    (s.objective = none → OnlyChanges w (step w (.addObjective i name d)).1 i { s with objective := some (name, d) }) := by
  have e : step w (.addObjective i name d) = stepOn w i s (.addObjective i name d) := by
    show (if Call.wf w _ = false then _ else stepModel w _) = _
    rw [if_neg (by simp [Call.wf]), stepModel_eq hi rfl]
  rw [e]
  cases ho : s.objective with
  | some o => simp [stepOn, ho]
  | none => simp only [stepOn, ho, Option.isSome_none, Bool.false_eq_true, if_false, forall_true_left]; exact ⟨trivial, onlyChanges_put hi rfl⟩

/-- **C16.** `add_design_variable` is accepted exactly for an input of the model that is not a design variable yet; then it is recorded with its data after the others. -/
theorem C16_design_variable_accepted_iff (w : World) (i : Nat) (s : MState) (hi : w.models[i]? = some s) (name : Name) (d : Nat) :
    ((step w (.addDesignVariable i name d)).2 = none ↔ name ∈ s.inputs ∧ name ∉ s.designVars.keys) ∧
    (name ∈ s.inputs ∧ name ∉ s.designVars.keys →
      OnlyChanges w (step w (.addDesignVariable i name d)).1 i { s with designVars := s.designVars ++ [(name, d)] }) := by
  have e : step w (.addDesignVariable i name d) = stepOn w i s (.addDesignVariable i name d) := by
    show (if Call.wf w _ = false then _ else stepModel w _) = _
    rw [if_neg (by simp [Call.wf]), stepModel_eq hi rfl]
  rw [e]
  have hk : s.designVars.has name = true ↔ name ∈ s.designVars.keys := Dict.has_iff
  by_cases h1 : name ∈ s.inputs
  · by_cases h2 : name ∈ s.designVars.keys
    · simp [stepOn, h1, h2, hk.2 h2]
    · have h3 : s.designVars.has name = false := by rw [Bool.eq_false_iff]; exact fun h => h2 (hk.1 h)
      simp only [stepOn, h1, not_true, if_false, h3, Bool.false_eq_true, h2, not_false_eq_true, and_self, forall_true_left]
      refine ⟨trivial, ?_⟩
      rw [← Dict.set_append_of_notin h2]
      exact onlyChanges_put hi rfl
  · simp [stepOn, h1]

/-- **C16.** `add_constraint` is accepted exactly if no constraint on the name was declared, the bounds are of accepted types, and lower and upper bound, if both are given, can be compared and are in order; then it is recorded
with its bounds. -/
theorem C16_constraint_accepted_iff (w : World) (i : Nat) (s : MState) (hi : w.models[i]? = some s) (name : Name) (a : ConstraintArgs) :
    ((step w (.addConstraint i name a)).2 = none ↔
      name ∉ s.constraints.keys ∧ Typed a.lower ∧ Typed a.upper ∧ Typed a.equals ∧ ∀ l u, a.lower = some l → a.upper = some u → Comparable l u ∧ Ordered l u) ∧
    ((step w (.addConstraint i name a)).2 = none → OnlyChanges w (step w (.addConstraint i name a)).1 i { s with constraints := s.constraints ++ [(name, a)] }) := by
  have e : step w (.addConstraint i name a) = addConstraint w i s name a := by
    show (if Call.wf w _ = false then _ else stepModel w _) = _
    rw [if_neg (by simp [Call.wf]), stepModel_eq hi rfl]; rfl
  rw [e]
  have hk : s.constraints.has name = true ↔ name ∈ s.constraints.keys := Dict.has_iff
  unfold addConstraint
  by_cases h0 : name ∈ s.constraints.keys
  · simp [h0, hk.2 h0]
  have h3 : s.constraints.has name = false := by rw [Bool.eq_false_iff]; exact fun h => h0 (hk.1 h)
  rw [if_neg (by simp [h3])]
  by_cases t1 : Typed a.lower
  swap
  · rw [if_pos (by rw [Bool.eq_false_iff]; exact fun h => t1 ((ok_iff _).1 h))]; simp [t1]
  rw [if_neg (by rw [(ok_iff _).2 t1]; simp)]
  by_cases t2 : Typed a.upper
  swap
  · rw [if_pos (by rw [Bool.eq_false_iff]; exact fun h => t2 ((ok_iff _).1 h))]; simp [t2]
  rw [if_neg (by rw [(ok_iff _).2 t2]; simp)]
  by_cases t3 : Typed a.equals
  swap
  · rw [if_pos (by rw [Bool.eq_false_iff]; exact fun h => t3 ((ok_iff _).1 h))]; simp [t3]
  rw [if_neg (by rw [(ok_iff _).2 t3]; simp)]
  have done : OnlyChanges w (w.put i { s with constraints := s.constraints.set name a }) i { s with constraints := s.constraints ++ [(name, a)] } := by
    rw [← Dict.set_append_of_notin h0]; exact onlyChanges_put hi rfl
  simp only [h0, not_false_eq_true, t1, t2, t3, true_and]
  cases hl : a.lower with
  | none => exact ⟨by simp, fun _ => done⟩
  | some l =>
    cases hu : a.upper with
    | none => exact ⟨by simp, fun _ => done⟩
    | some u =>
      cases hg : npGreater l.entries u.entries with
      | none =>
        have : ¬ Comparable l u := by rw [← npGreater_isSome, hg]; simp
        simp [this, hg]
      | some g =>
        have hc : Comparable l u := by rw [← npGreater_isSome, hg]; rfl
        cases hb : g.any id with
        | true =>
          have : ¬ Ordered l u := by rw [← npGreater_ordered hg, hb]; simp
          simp [hg, hb, hc, this]
        | false =>
          have ho : Ordered l u := (npGreater_ordered hg).1 hb
          simp only [hg, hb, Bool.false_eq_true, if_false, true_iff, forall_true_left]
          refine ⟨?_, done⟩
          rintro l' u' ⟨⟩ ⟨⟩
          exact ⟨hc, ho⟩

/-- **C17.** `add` is accepted exactly for a model and a well-formed name that no submodel of the model has (or no name); then the submodel is recorded after the others, under the name given or an automatic name. -/
theorem C17_add_accepted_iff (w : World) (i : Nat) (s : MState) (hi : w.models[i]? = some s) (name : Option Name) (isModel : Bool) :
    ((step w (.add i name isModel)).2 = none ↔ isModel = true ∧ ∀ n, name = some n → checkBannedChars n = true ∧ n ∉ s.subgraphs) ∧
    ((step w (.add i name isModel)).2 = none → ∃ n, OnlyChanges w (step w (.add i name isModel)).1 i { s with subgraphs := s.subgraphs ++ [n] } ∧
      (∀ m, name = some m → n = m) ∧ (name = none → ∃ k, n = genHexName k)) := by
  have e : step w (.add i name isModel) = stepOn w i s (.add i name isModel) := by
    show (if Call.wf w _ = false then _ else stepModel w _) = _
    rw [if_neg (by simp [Call.wf]), stepModel_eq hi rfl]
  rw [e]
  cases name with
  | none =>
    cases isModel with
    | false => simp [stepOn]
    | true =>
      simp only [stepOn, Option.any_none, Bool.false_eq_true, if_false, Bool.true_eq_false]
      refine ⟨by simp, fun _ => ⟨_, onlyChanges_put hi rfl, by simp, fun _ => ⟨_, rfl⟩⟩⟩
  | some n =>
    cases hb : checkBannedChars n with
    | false => simp [stepOn, hb]
    | true =>
      cases isModel with
      | false => simp [stepOn, hb]
      | true =>
        by_cases hs : n ∈ s.subgraphs
        · simp [stepOn, hb, hs]
        · simp only [stepOn, Option.any_some, hb, hs, Bool.true_eq_false, decide_false, Bool.false_eq_true, if_false]
          refine ⟨by simp [hs, hb], fun _ => ⟨n, onlyChanges_put hi rfl, by simp, by simp⟩⟩

/-- **C14.** `create_input` is accepted exactly for a well-formed name and acceptable `val` and `shape`, `declare_variable` for any name; then the variable is recorded after the others. -/
theorem C14_create_accepted_iff (w : World) (i : Nat) (s : MState) (hi : w.models[i]? = some s) (name : Name) (val : ValArg) :
    ((step w (.createInput i name val)).2 = none ↔ checkBannedChars name = true ∧ val = .good) ∧
    ((step w (.createInput i name val)).2 = none → OnlyChanges w (step w (.createInput i name val)).1 i { s with inputs := s.inputs ++ [name] }) ∧
    ((step w (.declareVariable i name val)).2 = none ↔ val = .good) ∧
    ((step w (.declareVariable i name val)).2 = none → OnlyChanges w (step w (.declareVariable i name val)).1 i { s with declared := s.declared ++ [name] }) := by
  have e : step w (.createInput i name val) = stepOn w i s (.createInput i name val) := by
    show (if Call.wf w _ = false then _ else stepModel w _) = _
    rw [if_neg (by simp [Call.wf]), stepModel_eq hi rfl]
  have e2 : step w (.declareVariable i name val) = stepOn w i s (.declareVariable i name val) := by
    show (if Call.wf w _ = false then _ else stepModel w _) = _
    rw [if_neg (by simp [Call.wf]), stepModel_eq hi rfl]
  rw [e, e2]
  refine ⟨?_, ?_, ?_, ?_⟩
  · cases hb : checkBannedChars name <;> cases val <;> simp [stepOn, hb]
  · cases hb : checkBannedChars name <;> cases val <;> simp only [stepOn, hb] <;> first | (intro h; cases h; done) | (intro _; exact onlyChanges_put hi rfl)
  · cases val <;> simp [stepOn]
  · cases val <;> simp only [stepOn] <;> first | (intro h; cases h; done) | (intro _; exact onlyChanges_put hi rfl)

/-- **C14.** An accepted `create_output` records a new output object of that name after the others. -/
theorem C14_create_output_recorded (cs : List Call) (i : Nat) (s : MState) (hi : (exec cs).models[i]? = some s) (name : Name) (val : ValArg)
    (h : (step (exec cs) (.createOutput i name val)).2 = none) :
    checkBannedChars name = true ∧ val = .good ∧ name ∉ s.inputs ∧ name ∉ s.declared ∧
    OnlyChanges (exec cs) (step (exec cs) (.createOutput i name val)).1 i { s with outputs := s.outputs ++ [(exec cs).objs.length], outNames := s.outNames ++ [name] } ∧
    (step (exec cs) (.createOutput i name val)).1.objs = (exec cs).objs ++ [name] := by
  have e : step (exec cs) (.createOutput i name val) = stepOn (exec cs) i s (.createOutput i name val) := by
    show (if Call.wf (exec cs) _ = false then _ else stepModel (exec cs) _) = _
    rw [if_neg (by simp [Call.wf]), stepModel_eq hi rfl]
  rw [e] at h ⊢
  cases hb : checkBannedChars name with
  | false => simp [stepOn, hb] at h
  | true =>
    cases val with
    | badType => simp [stepOn, hb] at h
    | badShape => simp [stepOn, hb] at h
    | good =>
      simp only [stepOn, hb, Bool.true_eq_false, if_false, registerOutput, List.length_append, List.length_cons, List.length_nil, Nat.zero_add, Nat.add_sub_cancel] at h ⊢
      split at h
      · cases h
      · next h1 =>
        split at h
        · cases h
        · next h2 =>
          split at h
          · cases h
          · next h3 =>
            split at h
            · cases h
            · next h4 =>
              rw [if_neg h1, if_neg h2, if_neg h3, if_neg h4]
              refine ⟨trivial, trivial, h3, h4, onlyChanges_put hi rfl, ?_⟩
              simp [World.put]

/-- the hypotheses are met, and every case occurs: a model with an input `x`, on which calls are accepted and rejected -/
example : (exec [.newModel, .createInput 0 "x".toList .good]).models[0]? = some { inputs := ["x".toList] } ∧
    (step (exec [.newModel, .createInput 0 "x".toList .good]) (.addDesignVariable 0 "x".toList 7)).2 = none ∧
    (step (exec [.newModel, .createInput 0 "x".toList .good]) (.addDesignVariable 0 "y".toList 7)).2 = some .key ∧
    (step (exec [.newModel, .createInput 0 "x".toList .good]) (.createOutput 0 "z".toList .good)).2 = none ∧
    (step (exec [.newModel, .createInput 0 "x".toList .good]) (.addConstraint 0 "y".toList ⟨some (.num 1), some (.arr [2, 1]), none⟩)).2 = none ∧
    (step (exec [.newModel, .createInput 0 "x".toList .good]) (.addConstraint 0 "y".toList ⟨some (.num 1), some (.arr [2, 0]), none⟩)).2 = some .value := by
  refine ⟨rfl, rfl, rfl, rfl, ?_, ?_⟩ <;> decide +kernel

end Csdl.Api
