import Verif.Proofs.ModelApi
import Verif.Props.Names
/-!
# C14-C17: invariants of histories of API calls

`exec cs` is the state of all models after the calls `cs` (exceptions caught by the caller).
-/
namespace Csdl.Api

/-! ### C14 -/

/-- C14: after any history, no output object is registered twice with a model. -/
theorem C14_no_object_twice (cs : List Call) (s : MState) (hs : s ∈ (exec cs).models) : s.outputs.Nodup :=
  ((outInv cs).nodup s hs).1

/-- C14: a call that raises leaves every model, and the name of every output object, unchanged. -/
theorem C14_rejected_call_no_effect (w : World) (c : Call) (e : Err) (h : (step w c).2 = some e) :
    (step w c).1.models = w.models ∧ ∀ o < w.objs.length, (step w c).1.objs[o]? = w.objs[o]? := by
  have reg : ∀ (w' : World) i s name var, w'.models = w.models → (∀ o < w.objs.length, w'.objs[o]? = w.objs[o]?) →
      (registerOutput w' i s name var).2 = some e →
      (registerOutput w' i s name var).1.models = w.models ∧
        ∀ o < w.objs.length, (registerOutput w' i s name var).1.objs[o]? = w.objs[o]? := by
    intro w' i s name var hm ho h
    unfold registerOutput at h ⊢
    split at h
    · rw [if_pos (by assumption)]; exact ⟨hm, ho⟩
    · rw [if_neg (by assumption)]
      cases var with
      | none => exact ⟨hm, ho⟩
      | some o =>
        dsimp only at h ⊢
        split
        · exact ⟨hm, ho⟩
        · split
          · exact ⟨hm, ho⟩
          · split
            · exact ⟨hm, ho⟩
            · split
              · exact ⟨hm, ho⟩
              · simp_all
  have on : ∀ i s c, (stepOn w i s c).2 = some e → (stepOn w i s c).1.models = w.models ∧
      ∀ o < w.objs.length, (stepOn w i s c).1.objs[o]? = w.objs[o]? := by
    intro i s c h
    cases c with
    | newModel => simp [stepOn] at h
    | newOutput => simp [stepOn] at h
    | createInput m name val =>
      simp only [stepOn] at h ⊢
      split
      · simp
      · cases val <;> simp_all
    | declareVariable m name val =>
      simp only [stepOn] at h ⊢
      cases val <;> simp_all
    | registerOutput m name var => exact reg w i s name var rfl (by simp) h
    | createOutput m name val =>
      simp only [stepOn] at h ⊢
      split
      · simp
      · rename_i hb
        rw [if_neg hb] at h
        cases val with
        | badType => simp
        | badShape => simp
        | good => exact reg _ i s name _ rfl (fun o ho => by simp [List.getElem?_append_left ho]) h
    | add m name isModel =>
      simp only [stepOn] at h ⊢
      split
      · simp
      · split
        · simp
        · split
          · simp
          · simp_all
    | addObjective m name payload =>
      simp only [stepOn] at h ⊢
      split
      · simp
      · simp_all
    | addDesignVariable m name payload =>
      simp only [stepOn] at h ⊢
      split
      · simp
      · split
        · simp
        · simp_all
    | addConstraint m name a =>
      simp only [stepOn, addConstraint] at h ⊢
      repeat' split
      all_goals first
        | exact ⟨rfl, fun _ _ => rfl⟩
        | simp_all
    | connect m a b =>
      simp only [stepOn] at h ⊢
      split
      · simp
      · split <;> simp_all
  unfold step at h ⊢
  split
  · simp
  · rename_i hwf
    rw [if_neg hwf] at h
    have onModel : ∀ c, (stepModel w c).2 = some e → (stepModel w c).1.models = w.models ∧
        ∀ o < w.objs.length, (stepModel w c).1.objs[o]? = w.objs[o]? := by
      intro c h
      unfold stepModel at h ⊢
      split
      · simp
      · rename_i i s he
        rw [he] at h
        exact on i s c h
    cases c with
    | newModel => simp at h
    | newOutput => simp at h
    | _ => exact onModel _ h

/-- C14 as stated is false of the code when an output object is registered with two models: the second registration
renames it also in the first model, where two outputs then have the same name. -/
theorem C14_shared_output_duplicates_names : ∃ cs s, s ∈ (exec cs).models ∧ ¬ ((exec cs).outputNames s).Nodup := by
  let cs : List Call := [.newModel, .newModel, .newOutput 1, .newOutput 1,
    .registerOutput 0 "x".toList (some 0), .registerOutput 0 "y".toList (some 1), .registerOutput 1 "y".toList (some 0)]
  have h1 : (exec cs).models[0]?.map (fun s => s.outputs) = some [0, 1] := by decide
  have h2 : (exec cs).objs = ["y".toList, "y".toList] := by
    simp [cs, exec, run, step, stepModel, Call.wf, Call.model, stepOn, registerOutput, World.put, checkBannedChars]
  cases hs : (exec cs).models[0]? with
  | none => rw [hs] at h1; cases h1
  | some s =>
    rw [hs] at h1
    simp at h1
    refine ⟨cs, s, mem_of_get hs, ?_⟩
    rw [World.outputNames, h1, h2]
    decide

/-- C14, the part that holds: after any history in which no output object is registered with two models, the names of the
registered outputs of every model are pairwise different.  Missing: objects registered with two models (false). -/
theorem C14_output_names_distinct_partial (cs : List Call) (h : NotShared (exec cs)) (s : MState)
    (hs : s ∈ (exec cs).models) : ((exec cs).outputNames s).Nodup := by
  obtain ⟨i, hi⟩ := List.mem_iff_getElem?.1 hs
  rw [(outInv cs).names h i s hi]
  exact ((outInv cs).nodup s hs).2

/-- C14: what `register_output` accepts, in terms of observable names: a well-formed name that is not the name of
an output, input or declared variable of the model, and an output object not registered with the model yet.
The object then has that name and is the last registered output. -/
theorem C14_register_accepts_iff_partial (cs : List Call) (h : NotShared (exec cs)) (i : Nat) (s : MState)
    (hi : (exec cs).models[i]? = some s) (name : Name) (o : Nat) (ho : o < (exec cs).objs.length) :
    ((step (exec cs) (.registerOutput i name (some o))).2 = none ↔
      checkBannedChars name = true ∧ o ∉ s.outputs ∧ name ∉ (exec cs).outputNames s ∧ name ∉ s.inputs ∧ name ∉ s.declared) ∧
    ((step (exec cs) (.registerOutput i name (some o))).2 = none →
      ∃ s', (step (exec cs) (.registerOutput i name (some o))).1.models[i]? = some s' ∧ s'.outputs = s.outputs ++ [o] ∧
        (step (exec cs) (.registerOutput i name (some o))).1.objs[o]? = some name) := by
  have hstep : step (exec cs) (.registerOutput i name (some o)) = registerOutput (exec cs) i s name (some o) := by
    simp [step, stepModel, Call.wf, ho, Call.model, hi, stepOn]
  rw [hstep, (outInv cs).names h i s hi]
  unfold registerOutput
  by_cases hb : checkBannedChars name = false
  · simp [hb]
  · have hb' : checkBannedChars name = true := by simpa using hb
    rw [if_neg hb]
    dsimp only
    by_cases h0 : o ∈ s.outputs
    · simp [h0]
    · by_cases h1 : name ∈ s.outNames
      · simp [h0, h1]
      · by_cases h2 : name ∈ s.inputs
        · simp [h0, h1, h2]
        · by_cases h3 : name ∈ s.declared
          · simp [h0, h1, h2, h3]
          · simp only [h0, h1, h2, h3, if_false, hb', not_false_eq_true, and_self, true_and, iff_self, forall_const]
            exact ⟨_, get_put_self (w := { (exec cs) with objs := (exec cs).objs.set o name }) hi, rfl, by simp [World.put, ho]⟩

/-- non-trivial history for C14-C17: two models, inputs, outputs, a rejected registration, an indexed output -/
def exHist : List Call := [.newModel, .newModel, .createInput 0 "x".toList .good, .declareVariable 0 "d".toList .good, .newOutput 1,
  .registerOutput 0 "y".toList (some 0), .newOutput 2, .registerOutput 0 "y".toList (some 1), .registerOutput 0 "z".toList (some 1),
  .createOutput 1 "y".toList .good, .declareVariable 1 "x".toList .good, .add 0 (some "A".toList) true, .add 0 none true,
  .addDesignVariable 0 "x".toList 5, .addDesignVariable 0 "x".toList 6, .addObjective 0 "y".toList 1,
  .addConstraint 0 "z".toList { lower := some (.num 0), upper := some (.arr [1, 2]) },
  .connect 0 "y".toList "A.t".toList, .connect 0 "z".toList "A.u".toList, .connect 0 "y".toList "A.t".toList]

theorem exHist_outputs : (exec exHist).models.map (·.outputs) = [[0, 1], [2]] := by decide
theorem exHist_names : (exec exHist).models.map (·.outNames) = [["y".toList, "z".toList], ["y".toList]] := by decide

theorem exHist_notShared : NotShared (exec exHist) := by
  have h := exHist_outputs
  intro i j s t hi hj hij o ho ho'
  have h1 : ((exec exHist).models.map (·.outputs))[i]? = some s.outputs := by simp [hi]
  have h2 : ((exec exHist).models.map (·.outputs))[j]? = some t.outputs := by simp [hj]
  rw [h] at h1 h2
  rcases i with _ | _ | i <;> rcases j with _ | _ | j <;> simp at h1 h2 hij
  · rw [← h1] at ho; rw [← h2] at ho'; simp at ho ho'; omega
  · rw [← h1] at ho; rw [← h2] at ho'; simp at ho ho'; omega

/-! ### C15 -/

/-- C15 as stated is false of the code: `create_input` accepts a name that is already used by an input or by a
registered output, and `declare_variable` accepts the name of a source. -/
theorem C15_clashing_names_accepted :
    (∃ cs s, s ∈ (exec cs).models ∧ ¬ s.inputs.Nodup) ∧
    (∃ cs s x, s ∈ (exec cs).models ∧ x ∈ s.inputs ∧ x ∈ (exec cs).outputNames s) ∧
    (∃ cs s x, s ∈ (exec cs).models ∧ x ∈ s.declared ∧ x ∈ (exec cs).outputNames s) ∧
    (∃ cs s x, s ∈ (exec cs).models ∧ x ∈ s.declared ∧ x ∈ s.inputs) := by
  have eval : ∀ cs : List Call, (exec cs).models.length = 1 → ∃ s, (exec cs).models = [s] := by
    intro cs h
    exact List.length_eq_one_iff.1 h
  refine ⟨?_, ?_, ?_, ?_⟩
  · refine ⟨[.newModel, .createInput 0 "x".toList .good, .createInput 0 "x".toList .good], { inputs := ["x".toList, "x".toList] }, ?_, by decide⟩
    simp [exec, run, step, stepModel, Call.wf, Call.model, stepOn, World.put, checkBannedChars]
  · refine ⟨[.newModel, .newOutput 1, .registerOutput 0 "x".toList (some 0), .createInput 0 "x".toList .good],
      { inputs := ["x".toList], outputs := [0], outNames := ["x".toList] }, "x".toList, ?_, by decide, ?_⟩
    · simp [exec, run, step, stepModel, Call.wf, Call.model, stepOn, World.put, checkBannedChars, registerOutput]
    · simp [exec, run, step, stepModel, Call.wf, Call.model, stepOn, World.put, checkBannedChars, registerOutput, World.outputNames]
  · refine ⟨[.newModel, .newOutput 1, .registerOutput 0 "x".toList (some 0), .declareVariable 0 "x".toList .good],
      { declared := ["x".toList], outputs := [0], outNames := ["x".toList] }, "x".toList, ?_, by decide, ?_⟩
    · simp [exec, run, step, stepModel, Call.wf, Call.model, stepOn, World.put, checkBannedChars, registerOutput]
    · simp [exec, run, step, stepModel, Call.wf, Call.model, stepOn, World.put, checkBannedChars, registerOutput, World.outputNames]
  · refine ⟨[.newModel, .createInput 0 "x".toList .good, .declareVariable 0 "x".toList .good],
      { declared := ["x".toList], inputs := ["x".toList] }, "x".toList, ?_, by decide, by decide⟩
    simp [exec, run, step, stepModel, Call.wf, Call.model, stepOn, World.put, checkBannedChars]

theorem fresh_prefix {cs : List Call} {c : Call} (h : FreshHistory (cs ++ [c])) : FreshHistory cs := by
  intro pre d post e
  exact h pre d (post ++ [c]) (by simp [e])

theorem names_clean (cs : List Call) (hf : FreshHistory cs) (hn : NotShared (exec cs)) :
    ∀ s ∈ (exec cs).models, (s.inputs ++ s.outNames).Nodup ∧ ∀ x ∈ s.declared, x ∉ s.inputs ∧ x ∉ s.outNames := by
  induction cs using List.reverseRecOn with
  | nil => simp [exec, run]
  | append_singleton cs c ih =>
    have hfc : FreshUse (exec cs) c := hf cs c [] rfl
    have hch := step_change (exec cs) c
    rw [← exec_snoc] at hch
    have hn0 := hn.back hch
    have ih := ih (fresh_prefix hf) hn0
    have hnames := (outInv cs).names hn0
    generalize exec (cs ++ [c]) = w' at hch hn ⊢
    have key : ∀ {v : World} {j : Nat} {t' : MState}, v.models = (exec cs).models →
        ((t'.inputs ++ t'.outNames).Nodup ∧ ∀ x ∈ t'.declared, x ∉ t'.inputs ∧ x ∉ t'.outNames) →
        ∀ s ∈ (v.put j t').models, (s.inputs ++ s.outNames).Nodup ∧ ∀ x ∈ s.declared, x ∉ s.inputs ∧ x ∉ s.outNames := by
      intro v j t' hv ht s hs
      rcases mem_put hs with rfl | hs
      · exact ht
      · exact ih s (hv ▸ hs)
    cases hch with
    | same => exact ih
    | newModel =>
      intro s hs
      rcases List.mem_append.1 hs with hs | hs
      · exact ih s hs
      · simp at hs; subst hs; simp
    | input j t name hj =>
      have ht := ih t (mem_of_get hj)
      obtain ⟨f1, f2, f3⟩ := hfc t hj
      rw [hnames j t hj] at f2
      refine key rfl ⟨?_, ?_⟩
      · simp only [List.append_assoc, List.nodup_append, List.mem_append, List.mem_singleton] at ht ⊢
        refine ⟨ht.1.1, ⟨by simp, ht.1.2.1, ?_⟩, ?_⟩
        · rintro a rfl b hb rfl; exact f2 hb
        · rintro a ha b (rfl | hb) rfl
          · exact f1 ha
          · exact ht.1.2.2 a ha a hb rfl
      · intro x hx
        have := ht.2 x hx
        refine ⟨?_, this.2⟩
        simp only [List.mem_append, List.mem_singleton]
        rintro (h | rfl)
        · exact this.1 h
        · exact f3 hx
    | declare j t name hj =>
      have ht := ih t (mem_of_get hj)
      obtain ⟨f1, f2⟩ := hfc t hj
      rw [hnames j t hj] at f2
      refine key rfl ⟨ht.1, ?_⟩
      intro x hx
      simp only [List.mem_append, List.mem_singleton] at hx
      rcases hx with hx | rfl
      · exact ht.2 x hx
      · exact ⟨f1, f2⟩
    | register c j t name o n l hj hn' ho hb h0' h1' h2' h3' =>
      have ht := ih t (mem_of_get hj)
      refine key rfl ⟨?_, ?_⟩
      · rw [← List.append_assoc, List.nodup_append]
        refine ⟨ht.1, by simp, ?_⟩
        intro a ha b hb
        simp at hb; subst hb
        rintro rfl
        rcases List.mem_append.1 ha with ha | ha
        · exact h2' ha
        · exact h1' ha
      · intro x hx
        have := ht.2 x hx
        refine ⟨this.1, ?_⟩
        simp only [List.mem_append, List.mem_singleton]
        rintro (h | rfl)
        · exact this.2 h
        · exact h3' hx
    | add j t name hj => exact key rfl (ih t (mem_of_get hj))
    | objective j t name d hj h => exact key rfl (ih t (mem_of_get hj))
    | dv j t name d hj h h' => exact key rfl (ih t (mem_of_get hj))
    | con j t name a hj h => exact key rfl (ih t (mem_of_get hj))
    | connect j t a b hj => exact key rfl (ih t (mem_of_get hj))

/-- C15, the part that holds: if the caller uses a new name in every `create_input` and no name of a source in
`declare_variable` (registered outputs are checked by the code), and no output object is registered with two models, then
in every model the names of inputs and registered outputs are pairwise different and differ from the names of the
declared variables.  Missing: histories in which the caller reuses a name (false). -/
theorem C15_names_have_one_source_partial (cs : List Call) (hf : FreshHistory cs) (hn : NotShared (exec cs)) (s : MState)
    (hs : s ∈ (exec cs).models) :
    (s.inputs ++ (exec cs).outputNames s).Nodup ∧ ∀ x ∈ s.declared, x ∉ s.inputs ∧ x ∉ (exec cs).outputNames s := by
  obtain ⟨i, hi⟩ := List.mem_iff_getElem?.1 hs
  rw [(outInv cs).names hn i s hi]
  exact names_clean cs hf hn s hs

/-- decidable version of `FreshUse` -/
def freshUseB (w : World) : Call → Bool
  | .createInput i name _ => (w.models[i]?).all fun s => decide (name ∉ s.inputs ∧ name ∉ w.outputNames s ∧ name ∉ s.declared)
  | .declareVariable i name _ => (w.models[i]?).all fun s => decide (name ∉ s.inputs ∧ name ∉ w.outputNames s)
  | _ => true

def freshFrom (w : World) : List Call → Bool
  | [] => true
  | c :: cs => freshUseB w c && freshFrom (step w c).1 cs

theorem freshUse_of {w : World} {c : Call} (h : freshUseB w c = true) : FreshUse w c := by
  cases c with
  | createInput i name v => intro s hs; simpa [freshUseB, hs] using h
  | declareVariable i name v => intro s hs; simpa [freshUseB, hs] using h
  | _ => trivial

theorem freshFrom_split : ∀ (pre : List Call) (w : World) (c : Call) (post : List Call),
    freshFrom w (pre ++ c :: post) = true → FreshUse (run w pre) c
  | [], w, c, post, h => by
    simp only [freshFrom, List.nil_append, Bool.and_eq_true] at h
    exact freshUse_of h.1
  | d :: pre, w, c, post, h => by
    simp only [List.cons_append, freshFrom, Bool.and_eq_true] at h
    exact freshFrom_split pre _ c post h.2

theorem freshHistory_of {cs : List Call} (h : freshFrom {} cs = true) : FreshHistory cs := by
  rintro pre c post rfl
  exact freshFrom_split pre {} c post h

/-- the history above satisfies the hypotheses of C14 and C15 and has two models with inputs, outputs and declared variables -/
example : FreshHistory exHist ∧ NotShared (exec exHist) ∧ (exec exHist).models.length = 2 :=
  ⟨freshHistory_of (by decide), exHist_notShared, by decide⟩

/-! ### C16 -/

theorem npGreater_cases {a b : List Rat} {g : List Bool} (h : npGreater a b = some g) :
    (a.length = b.length ∧ g = List.zipWith (fun x y => decide (y < x)) a b) ∨
    (∃ x, a = [x] ∧ g = b.map fun y => decide (y < x)) ∨ (∃ y, b = [y] ∧ g = a.map fun x => decide (y < x)) := by
  unfold npGreater at h
  split at h
  · cases h; exact Or.inl ⟨by assumption, rfl⟩
  · split at h
    · cases h; exact Or.inr (Or.inl ⟨_, rfl, rfl⟩)
    · cases h; exact Or.inr (Or.inr ⟨_, rfl, rfl⟩)
    · cases h

theorem npGreater_spec {l u : Bound} {g : List Bool} (hg : npGreater l.entries u.entries = some g) (ha : g.any id = false)
    (i : Nat) (x y : Rat) (hx : l.at i = some x) (hy : u.at i = some y) : x ≤ y := by
  have hall : ∀ b ∈ g, b = false := by simpa using ha
  have e1 : ∀ b : Bound, ∀ z, b.at i = some z → b.entries = [z] ∨ (b.entries[i]? = some z ∧ b.entries.length ≠ 1) := by
    intro b z hz
    cases b with
    | num q => simp only [Bound.at, Option.some.injEq] at hz; left; simp [Bound.entries, hz]
    | arr q =>
      match q, hz with
      | [], hz => simp [Bound.at] at hz
      | [q], hz => simp only [Bound.at, Option.some.injEq] at hz; left; simp [Bound.entries, hz]
      | q :: q' :: r, hz => right; exact ⟨by simpa [Bound.at, Bound.entries] using hz, by simp [Bound.entries]⟩
    | other => simp [Bound.at] at hz
  have le : ∀ {b : Bool}, b ∈ g → b = decide (y < x) → x ≤ y := by
    intro b hb e
    have := hall b hb
    rw [this] at e
    have := of_decide_eq_false e.symm
    exact not_lt.1 this
  rcases npGreater_cases hg with ⟨hl, rfl⟩ | ⟨z, hl, rfl⟩ | ⟨z, hl, rfl⟩
  · have : l.entries[i]? = some x ∧ u.entries[i]? = some y ∨ l.entries = [x] ∧ u.entries = [y] := by
      rcases e1 l x hx with h1 | ⟨h1, n1⟩ <;> rcases e1 u y hy with h2 | ⟨h2, n2⟩
      · exact Or.inr ⟨h1, h2⟩
      · rw [h1] at hl; exact absurd hl.symm n2
      · rw [h2] at hl; exact absurd hl n1
      · exact Or.inl ⟨h1, h2⟩
    rcases this with ⟨h1, h2⟩ | ⟨h1, h2⟩
    · refine le (b := decide (y < x)) (List.mem_of_getElem? (i := i) ?_) rfl
      rw [List.getElem?_zipWith, h1, h2]
    · exact le (b := decide (y < x)) (by simp [h1, h2]) rfl
  · have hz : z = x := by
      rcases e1 l x hx with h1 | ⟨_, n1⟩
      · rw [h1] at hl; simpa using hl.symm
      · simp [hl] at n1
    have hy' : y ∈ u.entries := by
      rcases e1 u y hy with h2 | ⟨h2, _⟩
      · simp [h2]
      · exact List.mem_of_getElem? h2
    subst hz
    exact le (List.mem_map.2 ⟨y, hy', rfl⟩) rfl
  · have hz : z = y := by
      rcases e1 u y hy with h1 | ⟨_, n1⟩
      · rw [h1] at hl; simpa using hl.symm
      · simp [hl] at n1
    have hx' : x ∈ l.entries := by
      rcases e1 l x hx with h2 | ⟨h2, _⟩
      · simp [h2]
      · exact List.mem_of_getElem? h2
    subst hz
    exact le (List.mem_map.2 ⟨x, hx', rfl⟩) rfl

/-- C16: after any history, in every model: the design variables are declared once each and are inputs of the model; constraints
are declared once each and no lower bound is above its upper bound (entry by entry, with broadcasting). -/
theorem C16_declarations_wellformed (cs : List Call) (s : MState) (hs : s ∈ (exec cs).models) :
    s.designVars.keys.Nodup ∧ (∀ x ∈ s.designVars.keys, x ∈ s.inputs) ∧ s.constraints.keys.Nodup ∧
    (∀ name a, (name, a) ∈ s.constraints → ∀ l u i x y, a.lower = some l → a.upper = some u →
      l.at i = some x → u.at i = some y → x ≤ y) := by
  revert s
  refine model_inv (fun s => s.designVars.keys.Nodup ∧ (∀ x ∈ s.designVars.keys, x ∈ s.inputs) ∧ s.constraints.keys.Nodup ∧
    (∀ name a, (name, a) ∈ s.constraints → ∀ l u i x y, a.lower = some l → a.upper = some u →
      l.at i = some x → u.at i = some y → x ≤ y)) ?_ ?_ cs
  · simp [Dict.keys]
  · intro w c w' h hch s hs
    cases hch with
    | same => exact h s hs
    | newModel =>
      rcases List.mem_append.1 hs with hs | hs
      · exact h s hs
      · simp at hs; subst hs; simp [Dict.keys]
    | input j t name hj =>
      rcases mem_put hs with rfl | hs
      · obtain ⟨a, b, c⟩ := h t (mem_of_get hj)
        exact ⟨a, fun x hx => List.mem_append_left _ (b x hx), c⟩
      · exact h s hs
    | declare j t name hj =>
      rcases mem_put hs with rfl | hs
      · exact h t (mem_of_get hj)
      · exact h s hs
    | register c j t name o n l hj =>
      rcases mem_put hs with rfl | hs
      · exact h t (mem_of_get hj)
      · exact h s hs
    | add j t name hj =>
      rcases mem_put hs with rfl | hs
      · exact h t (mem_of_get hj)
      · exact h s hs
    | objective j t name d hj _ =>
      rcases mem_put hs with rfl | hs
      · exact h t (mem_of_get hj)
      · exact h s hs
    | connect j t a b hj =>
      rcases mem_put hs with rfl | hs
      · exact h t (mem_of_get hj)
      · exact h s hs
    | dv j t name d hj h1 h2 =>
      rcases mem_put hs with rfl | hs
      · obtain ⟨a, b, c⟩ := h t (mem_of_get hj)
        refine ⟨Dict.nodup_set a _ _, ?_, c⟩
        intro x hx
        rcases (Dict.keys_set _ _ _ _).1 hx with hx | rfl
        · exact b x hx
        · exact h1
      · exact h s hs
    | con j t name a hj h1 hb =>
      rcases mem_put hs with rfl | hs
      · obtain ⟨a1, b, c, d⟩ := h t (mem_of_get hj)
        refine ⟨a1, b, Dict.nodup_set c _ _, ?_⟩
        intro name' a' hmem l u i x y hl hu hx hy
        have hfresh : name ∉ Dict.keys t.constraints := fun hk => by rw [Dict.has_iff.2 hk] at h1; cases h1
        simp only [Dict.set_append_of_notin hfresh, List.mem_append, List.mem_singleton, Prod.mk.injEq] at hmem
        rcases hmem with hmem | ⟨rfl, rfl⟩
        · exact d name' a' hmem l u i x y hl hu hx hy
        · obtain ⟨g, hg, hga⟩ := hb l u hl hu
          exact npGreater_spec hg hga i x y hx hy
      · exact h s hs

/-- C16: once set, the objective of a model never changes, and declared design variables and constraints keep their data,
whatever calls follow. -/
theorem C16_declarations_persist (cs ds : List Call) (i : Nat) (s : MState) (hi : (exec cs).models[i]? = some s) :
    ∃ s', (exec (cs ++ ds)).models[i]? = some s' ∧
      (∀ o, s.objective = some o → s'.objective = some o) ∧
      (∀ k a, s.constraints.get? k = some a → s'.constraints.get? k = some a) ∧
      (∀ k d, s.designVars.get? k = some d → s'.designVars.get? k = some d) := by
  rw [exec_append]
  obtain ⟨s', h, g⟩ := run_grows ds (exec cs) hi
  exact ⟨s', h, g.objective, g.constraints, g.designVars⟩

/-- the history above sets all of them -/
example : ∃ s, (exec exHist).models[0]? = some s ∧ s.designVars = [("x".toList, 5)] ∧ s.objective = some ("y".toList, 1) ∧
    s.constraints.keys = ["z".toList] ∧ s.connections = [("y".toList, "A.t".toList), ("z".toList, "A.u".toList)] := by
  have h : (match (exec exHist).models[0]? with
    | some s => decide (s.designVars = [("x".toList, 5)] ∧ s.objective = some ("y".toList, 1) ∧
        s.constraints.keys = ["z".toList] ∧ s.connections = [("y".toList, "A.t".toList), ("z".toList, "A.u".toList)])
    | none => false) = true := by decide
  cases hs : (exec exHist).models[0]? with
  | none => rw [hs] at h; cases h
  | some s => rw [hs] at h; exact ⟨s, rfl, of_decide_eq_true h⟩

/-! ### C17 -/

/-- C17: `connect` on an existing model is accepted iff the two names differ. -/
theorem C17_connect_accepted_iff (w : World) (i : Nat) (hi : i < w.models.length) (a b : Name) :
    (step w (.connect i a b)).2 = none ↔ a ≠ b := by
  have : w.models[i]? = some w.models[i] := List.getElem?_eq_getElem hi
  simp only [step, stepModel, Call.wf, Call.model, Option.bind_some, this, Option.map_some, stepOn]
  by_cases h : a = b
  · simp [h]
  · simp [h]
    split <;> simp

/-- Append the elements of `l` that are not yet in `acc`. -/
def foldKeys {α : Type} [DecidableEq α] (acc l : List α) : List α :=
  l.foldl (fun acc x => if x ∈ acc then acc else acc ++ [x]) acc

theorem foldKeys_append {α : Type} [DecidableEq α] (acc l l' : List α) :
    foldKeys acc (l ++ l') = foldKeys (foldKeys acc l) l' := List.foldl_append
theorem foldKeys_one_mem {α : Type} [DecidableEq α] {acc : List α} {x : α} (h : x ∈ acc) : foldKeys acc [x] = acc := if_pos h
theorem foldKeys_one_notMem {α : Type} [DecidableEq α] {acc : List α} {x : α} (h : x ∉ acc) : foldKeys acc [x] = acc ++ [x] :=
  if_neg h

theorem connections_other {w : World} {i : Nat} {s : MState} (hi : w.models[i]? = some s) (c : Call)
    (hc : ∀ a b, c ≠ .connect i a b) : ∃ s', (step w c).1.models[i]? = some s' ∧ s'.connections = s.connections := by
  have hch := step_change w c
  generalize (step w c).1 = w' at hch ⊢
  have key : ∀ {v : World} {j : Nat} {t t' : MState}, v.models = w.models → w.models[j]? = some t →
      t'.connections = t.connections → ∃ s', (v.put j t').models[i]? = some s' ∧ s'.connections = s.connections := by
    intro v j t t' hv hj e
    by_cases hij : i = j
    · subst hij
      rw [hi] at hj; cases hj
      exact ⟨t', get_put_self (by rw [hv]; exact hi), e⟩
    · exact ⟨s, by rw [get_put_ne hij, hv]; exact hi, rfl⟩
  cases hch with
  | same => exact ⟨s, hi, rfl⟩
  | newModel => exact ⟨s, get_append_one hi, rfl⟩
  | input j t name hj => exact key rfl hj rfl
  | declare j t name hj => exact key rfl hj rfl
  | register c j t name o n l hj => exact key rfl hj rfl
  | add j t name hj => exact key rfl hj rfl
  | objective j t name d hj h => exact key rfl hj rfl
  | dv j t name d hj h h' => exact key rfl hj rfl
  | con j t name a hj h => exact key rfl hj rfl
  | connect j t a b hj =>
    have hji : j ≠ i := fun e => hc a b (by rw [e])
    exact ⟨s, by rw [get_put_ne (Ne.symm hji)]; exact hi, rfl⟩

theorem connections_step {w : World} {i : Nat} {s : MState} (hi : w.models[i]? = some s) (c : Call) :
    ∃ s', (step w c).1.models[i]? = some s' ∧ s'.connections = foldKeys s.connections (acceptedPair w i c) := by
  by_cases hc : ∃ a b, c = .connect i a b
  · obtain ⟨a, b, rfl⟩ := hc
    have hst : step w (.connect i a b) = stepOn w i s (.connect i a b) := by
      simp [step, stepModel, Call.wf, Call.model, hi]
    rw [acceptedPair, hst]
    by_cases hab : a = b
    · subst hab
      simp only [stepOn, if_true]
      exact ⟨s, hi, by simp [foldKeys]⟩
    · simp only [stepOn, hab, if_false]
      by_cases hm : (a, b) ∈ s.connections
      · simp only [hm, if_true, and_self]
        exact ⟨s, hi, (foldKeys_one_mem hm).symm⟩
      · simp only [hm, if_false, and_self, if_true]
        exact ⟨_, get_put_self hi, (foldKeys_one_notMem hm).symm⟩
  · have e : acceptedPair w i c = [] := by
      cases c with
      | connect j a b =>
        rw [acceptedPair, if_neg]
        rintro ⟨rfl, _⟩
        exact hc ⟨a, b, rfl⟩
      | _ => rfl
    rw [e]
    exact connections_other hi c (fun a b h => hc ⟨a, b, h⟩)

theorem connections_run (cs : List Call) (w : World) (i : Nat) (s : MState) (hi : w.models[i]? = some s) :
    ∃ s', (run w cs).models[i]? = some s' ∧
      s'.connections = foldKeys s.connections (accepted w i cs) := by
  induction cs generalizing w s with
  | nil => exact ⟨s, hi, rfl⟩
  | cons c cs ih =>
    obtain ⟨s1, h1, e1⟩ := connections_step hi c
    obtain ⟨s2, h2, e2⟩ := ih (step w c).1 s1 h1
    refine ⟨s2, h2, ?_⟩
    rw [e2, e1, accepted, foldKeys_append]

/-- C17: a model created after the calls `cs` records, after any further calls `ds`, exactly the accepted connections, without
duplicates, in the order in which they were first issued; none connects a name to itself. -/
theorem C17_connections_exact (cs ds : List Call) (i : Nat) (hi : i = (exec cs).models.length) :
    ∃ s, (exec (cs ++ .newModel :: ds)).models[i]? = some s ∧ s.connections.Nodup ∧
      (∀ ab, ab ∈ s.connections ↔ ab ∈ accepted (exec (cs ++ [.newModel])) i ds) ∧
      (∀ ab ∈ s.connections, ab.1 ≠ ab.2) ∧
      (∀ x ∈ s.connections, ∀ y ∈ s.connections, s.connections.idxOf x < s.connections.idxOf y ↔
        (accepted (exec (cs ++ [.newModel])) i ds).idxOf x < (accepted (exec (cs ++ [.newModel])) i ds).idxOf y) := by
  have e : exec (cs ++ .newModel :: ds) = run (exec (cs ++ [.newModel])) ds := by
    rw [← exec_append]; simp
  have h0 : (exec (cs ++ [.newModel])).models[i]? = some {} := by
    rw [exec_snoc, hi]; simp [step, Call.wf]
  obtain ⟨s, h1, h2⟩ := connections_run ds _ i {} h0
  have h3 : s.connections = dictFromKeys (accepted (exec (cs ++ [.newModel])) i ds) := h2
  have hlen : ∀ (ds : List Call) (w : World), i < w.models.length → ∀ ab ∈ accepted w i ds, ab.1 ≠ ab.2 := by
    intro ds
    induction ds with
    | nil => intro w _ ab hab; simp [accepted] at hab
    | cons c ds ih =>
      intro w hw ab hab
      rw [accepted] at hab
      rcases List.mem_append.1 hab with hab | hab
      · cases c with
        | connect j a b =>
          rw [acceptedPair] at hab
          split at hab
          · rename_i hab' hj
            obtain ⟨rfl, hj2⟩ := hj
            have hab'' := List.mem_singleton.1 hab; subst hab''
            exact (C17_connect_accepted_iff w j hw a b).1 hj2
          · simp at hab
        | _ => simp [acceptedPair] at hab
      · have hg := List.getElem?_eq_getElem hw
        obtain ⟨s', h', _⟩ := change_grows (step_change w c) hg
        rcases List.getElem?_eq_some_iff.1 h' with ⟨hl, _⟩
        exact ih _ hl ab hab
  have hi1 : i < (exec (cs ++ [.newModel])).models.length := by
    rcases List.getElem?_eq_some_iff.1 h0 with ⟨h, _⟩; exact h
  refine ⟨s, by rw [e]; exact h1, ?_, ?_, ?_, ?_⟩
  · rw [h3]; exact nodup_dictFromKeys _
  · intro ab; rw [h3]; exact mem_dictFromKeys _ _
  · intro ab hab
    rw [h3] at hab
    exact hlen ds _ hi1 ab ((mem_dictFromKeys _ _).1 hab)
  · intro x hx y hy
    rw [h3] at hx hy ⊢
    exact order_dictFromKeys _ ((mem_dictFromKeys _ _).1 hx) ((mem_dictFromKeys _ _).1 hy)

/-- C17 as stated is false of the code for submodel names: an automatic name is not compared with the names in use. -/
theorem C17_automatic_submodel_name_clashes : ∃ cs s, s ∈ (exec cs).models ∧ ¬ s.subgraphs.Nodup := by
  refine ⟨[.newModel, .add 0 (some (genHexName 2)) true, .add 0 none true], { subgraphs := [genHexName 2, genHexName 2] }, ?_, by simp⟩
  simp [exec, run, step, stepModel, Call.wf, Call.model, stepOn, World.put, genHexName_banned]

theorem genHex_ne {a b : Nat} (h : a < b) (hb : b < 62 * 63 ^ 4) : genHexName a ≠ genHexName b := by
  intro e
  have := C01_auto_names_collisions_exact a b h e
  omega

/-- C17, submodels, the part that holds: if no submodel is given a name of the form of an automatic name and fewer than
62*63^4 nodes were created, the submodels of a model have pairwise different names.  Missing: the excluded cases (false). -/
theorem C17_submodel_names_distinct_partial (cs : List Call) (hu : ∀ i n b, Call.add i (some n) b ∈ cs → ∀ k, n ≠ genHexName k)
    (hn : (exec cs).nodes < 62 * 63 ^ 4) (s : MState) (hs : s ∈ (exec cs).models) : s.subgraphs.Nodup := by
  suffices h : ∀ s ∈ (exec cs).models, s.subgraphs.Nodup ∧ ∀ x ∈ s.subgraphs, ∀ k, x = genHexName k →
      ∃ k' ≤ (exec cs).nodes, x = genHexName k' from (h s hs).1
  clear hs s
  induction cs using List.reverseRecOn with
  | nil => simp [exec, run]
  | append_singleton cs c ih =>
    have hch := step_change (exec cs) c
    rw [← exec_snoc] at hch
    have mono : (exec cs).nodes ≤ (exec (cs ++ [c])).nodes := by
      generalize exec (cs ++ [c]) = w' at hch
      cases hch <;> first | exact le_rfl | (simp only [World.put]; omega) | assumption
    have ih := ih (fun i n b h => hu i n b (by simp [h])) (lt_of_le_of_lt mono hn)
    generalize hw : exec (cs ++ [c]) = w' at hch hn mono ⊢
    have weak : ∀ t ∈ (exec cs).models, t.subgraphs.Nodup ∧ ∀ x ∈ t.subgraphs, ∀ k, x = genHexName k →
        ∃ k' ≤ w'.nodes, x = genHexName k' := by
      intro t ht
      refine ⟨(ih t ht).1, fun x hx k e => ?_⟩
      obtain ⟨k', h1, h2⟩ := (ih t ht).2 x hx k e
      exact ⟨k', h1.trans mono, h2⟩
    have key : ∀ {v : World} {j : Nat} {t t' : MState}, v.models = (exec cs).models → (exec cs).models[j]? = some t →
        t'.subgraphs = t.subgraphs → ∀ s ∈ (v.put j t').models, s.subgraphs.Nodup ∧ ∀ x ∈ s.subgraphs, ∀ k, x = genHexName k →
        ∃ k' ≤ w'.nodes, x = genHexName k' := by
      intro v j t t' hv hj e s hs
      rcases mem_put hs with rfl | hs
      · rw [e]; exact weak t (mem_of_get hj)
      · exact weak s (hv ▸ hs)
    cases hch with
    | same => exact weak
    | newModel =>
      intro s hs
      rcases List.mem_append.1 hs with hs | hs
      · exact weak s hs
      · simp at hs; subst hs; simp
    | input j t name hj => exact key rfl hj rfl
    | declare j t name hj => exact key rfl hj rfl
    | register c j t name o n l hj => exact key rfl hj rfl
    | objective j t name d hj h => exact key rfl hj rfl
    | dv j t name d hj h h' => exact key rfl hj rfl
    | con j t name a hj h => exact key rfl hj rfl
    | connect j t a b hj => exact key rfl hj rfl
    | add j t name hj hfresh =>
      intro s hs
      rcases mem_put hs with rfl | hs
      · have ht := ih t (mem_of_get hj)
        have ht' := weak t (mem_of_get hj)
        cases name with
        | some nm =>
          have hnm := hu j nm true (by simp)
          refine ⟨?_, ?_⟩
          · simp only [Option.getD_some, List.nodup_append, List.nodup_singleton, List.mem_singleton, forall_eq]
            exact ⟨ht.1, trivial, fun x hx e => hfresh nm rfl (e ▸ hx)⟩
          · intro x hx k e
            rcases List.mem_append.1 hx with hx | hx
            · exact ht'.2 x hx k e
            · simp at hx; subst hx; exact absurd e (hnm k)
        | none =>
          refine ⟨?_, ?_⟩
          · simp only [Option.getD_none, List.nodup_append, List.nodup_singleton, List.mem_singleton, forall_eq]
            refine ⟨ht.1, trivial, fun x hx e => ?_⟩
            obtain ⟨k', h1, h2⟩ := ht.2 x hx _ e
            rw [e] at h2
            exact genHex_ne (Nat.lt_succ_of_le h1) hn h2.symm
          · intro x hx k e
            rcases List.mem_append.1 hx with hx | hx
            · exact ht'.2 x hx k e
            · simp at hx; subst hx; exact ⟨_, le_rfl, rfl⟩
      · exact weak s hs

/-- the history above satisfies the hypotheses: one named and one unnamed submodel -/
example : (∀ i n b, Call.add i (some n) b ∈ exHist → ∀ k, n ≠ genHexName k) ∧ (exec exHist).nodes < 62 * 63 ^ 4 ∧
    (exec exHist).models.map (·.subgraphs.length) = [2, 0] := by
  refine ⟨?_, by rw [show (exec exHist).nodes = 11 by decide]; norm_num, by decide⟩
  intro i n b h k e
  have hn : n = "A".toList := by
    simp [exHist] at h; exact h.2.1
  have := genHexName_length k
  rw [← e, hn] at this
  simp at this

end Csdl.Api
