import Verif.Spec.ModelApi
import Verif.Proofs.Dict
import Verif.Proofs.Collect
import Mathlib.Data.List.Nodup
import Mathlib.Data.List.Induction
import Mathlib.Tactic.Linarith
namespace Csdl.Api

/-- The possible effects of one call. -/
inductive Change (w : World) : Call → World → Prop
  | same (c : Call) (n : Nat) (l : List Name) (hn : w.nodes ≤ n) : Change w c { w with nodes := n, objs := w.objs ++ l }
  | newModel : Change w .newModel { w with models := w.models ++ [{}] }
  | input (i : Nat) (s : MState) (name : Name) (hi : w.models[i]? = some s) (hb : checkBannedChars name = true) :
      Change w (.createInput i name .good) ({ w with nodes := w.nodes + 1 }.put i { s with inputs := s.inputs ++ [name] })
  | declare (i : Nat) (s : MState) (name : Name) (hi : w.models[i]? = some s) :
      Change w (.declareVariable i name .good) ({ w with nodes := w.nodes + 1 }.put i { s with declared := s.declared ++ [name] })
  | register (c : Call) (i : Nat) (s : MState) (name : Name) (o n : Nat) (l : List Name) (hi : w.models[i]? = some s)
      (hn : w.nodes ≤ n) (ho : o < (w.objs ++ l).length) (hb : checkBannedChars name = true) (h0 : o ∉ s.outputs)
      (h1 : name ∉ s.outNames) (h2 : name ∉ s.inputs)
      (h3 : name ∉ s.declared) :
      Change w c ({ w with nodes := n, objs := (w.objs ++ l).set o name }.put i
        { s with outputs := s.outputs ++ [o], outNames := s.outNames ++ [name] })
  | add (i : Nat) (s : MState) (name : Option Name) (hi : w.models[i]? = some s) (h : ∀ n, name = some n → n ∉ s.subgraphs) :
      Change w (.add i name true) ({ w with nodes := w.nodes + 1 }.put i
        { s with subgraphs := s.subgraphs ++ [name.getD (genHexName (w.nodes + 1))] })
  | objective (i : Nat) (s : MState) (name : Name) (d : Nat) (hi : w.models[i]? = some s) (h : s.objective = none) :
      Change w (.addObjective i name d) (w.put i { s with objective := some (name, d) })
  | dv (i : Nat) (s : MState) (name : Name) (d : Nat) (hi : w.models[i]? = some s) (h : name ∈ s.inputs)
      (h' : s.designVars.has name = false) :
      Change w (.addDesignVariable i name d) (w.put i { s with designVars := s.designVars.set name d })
  | con (i : Nat) (s : MState) (name : Name) (a : ConstraintArgs) (hi : w.models[i]? = some s)
      (h : s.constraints.has name = false)
      (hb : ∀ l u, a.lower = some l → a.upper = some u → ∃ g, npGreater l.entries u.entries = some g ∧ g.any id = false) :
      Change w (.addConstraint i name a) (w.put i { s with constraints := s.constraints.set name a })
  | connect (i : Nat) (s : MState) (a b : Name) (hi : w.models[i]? = some s) (h : a ≠ b) (h' : (a, b) ∉ s.connections) :
      Change w (.connect i a b) (w.put i { s with connections := s.connections ++ [(a, b)] })

theorem Change.refl (w : World) (c : Call) : Change w c w := by
  have := Change.same (w := w) c w.nodes [] le_rfl
  simpa using this

theorem Change.nodes (w : World) (c : Call) (n : Nat) (h : w.nodes ≤ n) : Change w c { w with nodes := n } := by
  have := Change.same (w := w) c n [] h
  simpa using this

theorem register_change {w : World} {c : Call} {i : Nat} {s : MState} (hi : w.models[i]? = some s) (name : Name)
    (n : Nat) (l : List Name) (hn : w.nodes ≤ n) (var : Option Nat)
    (hv : ∀ o, var = some o → o < (w.objs ++ l).length) :
    Change w c (registerOutput { w with nodes := n, objs := w.objs ++ l } i s name var).1 := by
  unfold registerOutput
  split
  · exact .same c n l hn
  · rename_i hb
    cases var with
    | none => exact .same c n l hn
    | some o =>
      dsimp only
      split
      · exact .same c n l hn
      · split
        · exact .same c n l hn
        · split
          · exact .same c n l hn
          · split
            · exact .same c n l hn
            · rename_i a1 a2 a3 a4
              refine .register c i s name o n l hi hn (hv o rfl) ?_ a1 a2 a3 a4
              simpa using hb

theorem stepOn_change {w : World} {i : Nat} {s : MState} (hi : w.models[i]? = some s) (c : Call) (hc : c.model = some i)
    (hwf : c.wf w = true) : Change w c (stepOn w i s c).1 := by
  cases c with
  | newModel => cases hc
  | newOutput => cases hc
  | createInput m name val =>
    cases hc
    simp only [stepOn]
    split
    · exact .refl w _
    · rename_i hb
      cases val with
      | badType => exact .refl w _
      | badShape => exact .nodes w _ _ (by simp)
      | good => exact .input i s name hi (by simpa using hb)
  | declareVariable m name val =>
    cases hc
    simp only [stepOn]
    cases val with
    | badType => exact .refl w _
    | badShape => exact .nodes w _ _ (by simp)
    | good => exact .declare i s name hi
  | registerOutput m name var =>
    cases hc
    have := register_change (c := .registerOutput i name var) hi name w.nodes [] le_rfl var (by
      intro o ho; subst ho; simpa [Call.wf] using hwf)
    simpa [stepOn] using this
  | createOutput m name val =>
    cases hc
    simp only [stepOn]
    split
    · exact .refl w _
    · cases val with
      | badType => exact .refl w _
      | badShape => exact .nodes w _ _ (by simp)
      | good => exact register_change hi name (w.nodes + 1) [name] (by simp) _ (by intro o ho; cases ho; simp)
  | add m name isModel =>
    cases hc
    simp only [stepOn]
    split
    · exact .refl w _
    · split
      · exact .refl w _
      · split
        · exact .refl w _
        · rename_i _ a2 a3
          cases isModel with
          | false => simp at a2
          | true =>
            refine .add i s name hi ?_
            rintro n rfl
            simpa using a3
  | addObjective m name payload =>
    cases hc
    simp only [stepOn]
    split
    · exact .refl w _
    · rename_i h
      exact .objective i s name payload hi (by simpa using h)
  | addDesignVariable m name payload =>
    cases hc
    simp only [stepOn]
    split
    · exact .refl w _
    · split
      · exact .refl w _
      · rename_i h1 h2
        exact .dv i s name payload hi (by simpa using h1) (by simpa using h2)
  | addConstraint m name a =>
    cases hc
    simp only [stepOn, addConstraint]
    split
    · exact .refl w _
    · rename_i h0
      split
      · exact .refl w _
      · split
        · exact .refl w _
        · split
          · exact .refl w _
          · have h0' : s.constraints.has name = false := by simpa using h0
            split
            · rename_i l u hl hu
              split
              · exact .refl w _
              · rename_i g hg
                split
                · exact .refl w _
                · rename_i hgany
                  refine .con i s name a hi h0' ?_
                  intro l' u' hl' hu'
                  rw [hl] at hl'; rw [hu] at hu'
                  cases hl'; cases hu'
                  exact ⟨g, hg, by simpa using hgany⟩
            · rename_i hno
              refine .con i s name a hi h0' ?_
              intro l u hl hu
              exact absurd hu (hno l u hl)
  | connect m a b =>
    cases hc
    simp only [stepOn]
    split
    · exact .refl w _
    · split
      · exact .refl w _
      · rename_i h1 h2
        exact .connect i s a b hi h1 h2

theorem step_change (w : World) (c : Call) : Change w c (step w c).1 := by
  unfold step
  split
  · exact .refl w c
  · rename_i hwf
    have hwf' : c.wf w = true := by simpa using hwf
    split
    · exact .newModel
    · rename_i extra
      have := Change.same (w := w) (.newOutput extra) (w.nodes + extra + 1) [genHexName (w.nodes + extra)] (by omega)
      simpa using this
    · unfold stepModel
      split
      · exact .refl w _
      · rename_i i s he
        have : c.model = some i ∧ w.models[i]? = some s := by
          cases hm : c.model with
          | none => rw [hm] at he; cases he
          | some j =>
            rw [hm] at he
            simp only [Option.bind_some] at he
            cases hj : w.models[j]? with
            | none => rw [hj] at he; cases he
            | some s' => rw [hj] at he; cases he; exact ⟨rfl, hj⟩
        exact stepOn_change this.2 c this.1 hwf'

theorem exec_snoc (cs : List Call) (c : Call) : exec (cs ++ [c]) = (step (exec cs) c).1 := by
  simp [exec, run]

theorem exec_append (cs ds : List Call) : exec (cs ++ ds) = run (exec cs) ds := by
  simp [exec, run]

/-- Induction over histories. -/
theorem exec_inv (P : World → Prop) (h0 : P {}) (hs : ∀ w c w', P w → Change w c w' → P w') (cs : List Call) :
    P (exec cs) := by
  induction cs using List.reverseRecOn with
  | nil => exact h0
  | append_singleton cs c ih => rw [exec_snoc]; exact hs _ c _ ih (step_change _ _)

theorem mem_put {w : World} {i : Nat} {s s' : MState} (h : s ∈ (w.put i s').models) : s = s' ∨ s ∈ w.models := by
  rw [World.put] at h
  rcases List.mem_or_eq_of_mem_set h with h | h
  · exact Or.inr h
  · exact Or.inl h

theorem mem_of_get {w : World} {i : Nat} {s : MState} (h : w.models[i]? = some s) : s ∈ w.models :=
  List.mem_of_getElem? h

/-- Invariants that only look at one model. -/
theorem model_inv (P : MState → Prop) (h0 : P {}) (hs : ∀ (w : World) c w', (∀ s ∈ w.models, P s) → Change w c w' →
    ∀ s ∈ w'.models, P s) (cs : List Call) : ∀ s ∈ (exec cs).models, P s :=
  exec_inv (fun w => ∀ s ∈ w.models, P s) (by simp) (fun w c w' => hs w c w') cs

theorem get_put {w : World} {i j : Nat} {s s' t : MState} (hi : w.models[i]? = some t)
    (h : (w.put i s').models[j]? = some s) : (j = i ∧ s = s') ∨ (j ≠ i ∧ w.models[j]? = some s) := by
  rw [World.put, List.getElem?_set] at h
  split at h
  · split at h
    · cases h; rename_i hij _; exact Or.inl ⟨hij.symm, rfl⟩
    · cases h
  · rename_i hij; exact Or.inr ⟨fun h => hij h.symm, h⟩

theorem get_put_self {w : World} {i : Nat} {s' t : MState} (hi : w.models[i]? = some t) :
    (w.put i s').models[i]? = some s' := by
  have : i < w.models.length := by
    rcases List.getElem?_eq_some_iff.1 hi with ⟨h, _⟩; exact h
  simp [World.put, this]

theorem get_put_ne {w : World} {i j : Nat} {s' : MState} (hij : j ≠ i) :
    (w.put i s').models[j]? = w.models[j]? := by
  simp [World.put, List.getElem?_set, Ne.symm hij]

/-! ### monotonicity -/

/-- How the state of one model can evolve: outputs, inputs, declared variables grow; declarations persist. -/
structure Grows (s s' : MState) : Prop where
  outputs : s.outputs ⊆ s'.outputs
  inputs : s.inputs ⊆ s'.inputs
  objective : ∀ o, s.objective = some o → s'.objective = some o
  constraints : ∀ k a, s.constraints.get? k = some a → s'.constraints.get? k = some a
  designVars : ∀ k a, s.designVars.get? k = some a → s'.designVars.get? k = some a
  connections : s.connections ⊆ s'.connections

theorem Grows.refl (s : MState) : Grows s s := ⟨fun _ h => h, fun _ h => h, fun _ h => h, fun _ _ h => h, fun _ _ h => h, fun _ h => h⟩

theorem Grows.trans {a b c : MState} (h : Grows a b) (h' : Grows b c) : Grows a c :=
  ⟨fun _ x => h'.1 (h.1 x), fun _ x => h'.2 (h.2 x), fun _ x => h'.3 _ (h.3 _ x), fun _ _ x => h'.4 _ _ (h.4 _ _ x),
   fun _ _ x => h'.5 _ _ (h.5 _ _ x), fun _ x => h'.6 (h.6 x)⟩

theorem get_append_one {l : List MState} {i : Nat} {s a : MState} (h : l[i]? = some s) : (l ++ [a])[i]? = some s := by
  rcases List.getElem?_eq_some_iff.1 h with ⟨hlt, _⟩
  rw [List.getElem?_append_left hlt, h]

theorem set_get_fresh {ν : Type} {d : Dict Name ν} {n k : Name} {v a : ν} (h : d.has n = false) (hk : d.get? k = some a) :
    (d.set n v).get? k = some a := by
  rw [Dict.get?_set, if_neg, hk]
  rintro rfl
  simp [Dict.has, hk] at h

theorem change_grows {w w' : World} {c : Call} (h : Change w c w') {i : Nat} {s : MState} (hi : w.models[i]? = some s) :
    ∃ s', w'.models[i]? = some s' ∧ Grows s s' := by
  have key : ∀ {v : World} {j : Nat} {t t' : MState}, v.models = w.models → w.models[j]? = some t → Grows t t' →
      ∃ s', (v.put j t').models[i]? = some s' ∧ Grows s s' := by
    intro v j t t' hv hj hg
    by_cases hij : i = j
    · subst hij
      rw [hi] at hj; cases hj
      exact ⟨t', get_put_self (by rw [hv]; exact hi), hg⟩
    · exact ⟨s, by rw [get_put_ne hij, hv]; exact hi, .refl s⟩
  cases h with
  | same => exact ⟨s, hi, .refl s⟩
  | newModel => exact ⟨s, get_append_one hi, .refl s⟩
  | input j t name hj => exact key rfl hj ⟨fun _ h => h, by simp, fun _ h => h, fun _ _ h => h, fun _ _ h => h, fun _ h => h⟩
  | declare j t name hj => exact key rfl hj ⟨fun _ h => h, by simp, fun _ h => h, fun _ _ h => h, fun _ _ h => h, fun _ h => h⟩
  | register c j t name o n l hj => exact key rfl hj ⟨by simp, by simp, fun _ h => h, fun _ _ h => h, fun _ _ h => h, fun _ h => h⟩
  | add j t name hj => exact key rfl hj ⟨by simp, by simp, fun _ h => h, fun _ _ h => h, fun _ _ h => h, fun _ h => h⟩
  | objective j t name d hj h =>
    exact key rfl hj ⟨by simp, by simp, fun _ h' => by simp [h] at h', fun _ _ h => h, fun _ _ h => h, fun _ h => h⟩
  | dv j t name d hj h h' =>
    exact key rfl hj ⟨by simp, by simp, fun _ h => h, fun _ _ h => h, fun _ _ h => set_get_fresh h' h, fun _ h => h⟩
  | con j t name a hj h =>
    exact key rfl hj ⟨by simp, by simp, fun _ h => h, fun _ _ h1 => set_get_fresh h h1, fun _ _ h => h, fun _ h => h⟩
  | connect j t a b hj =>
    exact key rfl hj ⟨by simp, by simp, fun _ h => h, fun _ _ h => h, fun _ _ h => h, by simp⟩

theorem run_grows (cs : List Call) (w : World) {i : Nat} {s : MState} (hi : w.models[i]? = some s) :
    ∃ s', (run w cs).models[i]? = some s' ∧ Grows s s' := by
  induction cs generalizing w s with
  | nil => exact ⟨s, hi, .refl s⟩
  | cons c cs ih =>
    obtain ⟨s1, h1, g1⟩ := change_grows (step_change w c) hi
    obtain ⟨s2, h2, g2⟩ := ih _ h1
    exact ⟨s2, h2, g1.trans g2⟩

/-! ### names of outputs -/

theorem NotShared.back {w w' : World} {c : Call} (h : Change w c w') (hn : NotShared w') : NotShared w := by
  intro i j s t hi hj hij o ho ho'
  obtain ⟨s', hi', g1⟩ := change_grows h hi
  obtain ⟨t', hj', g2⟩ := change_grows h hj
  exact hn i j s' t' hi' hj' hij o (g1.outputs ho) (g2.outputs ho')

structure OutInv (w : World) : Prop where
  nodup : ∀ s ∈ w.models, s.outputs.Nodup ∧ s.outNames.Nodup
  bound : ∀ s ∈ w.models, ∀ o ∈ s.outputs, o < w.objs.length
  names : NotShared w → ∀ (i : Nat) (s : MState), w.models[i]? = some s → w.outputNames s = s.outNames

theorem outputNames_congr {w w' : World} {s s' : MState} (h : s'.outputs = s.outputs)
    (ho : ∀ o ∈ s.outputs, w'.objs.getD o [] = w.objs.getD o []) : w'.outputNames s' = w.outputNames s := by
  rw [World.outputNames, World.outputNames, h]
  exact List.map_congr_left ho

theorem outInv (cs : List Call) : OutInv (exec cs) := by
  refine exec_inv OutInv ⟨by simp, by simp, by simp⟩ ?_ cs
  intro w c w' ⟨h1, h2, h3⟩ hch
  -- changes that keep outputs of all models and append objects
  have key : ∀ {v : World} {j : Nat} {t t' : MState}, v.models = w.models → w.models[j]? = some t →
      t'.outputs = t.outputs → t'.outNames = t.outNames → v.objs = w.objs → NotShared w → OutInv (v.put j t') := by
    intro v j t t' hv hj e1 e2 e3 hns
    refine ⟨?_, ?_, ?_⟩
    · intro s hs
      rcases mem_put hs with rfl | hs
      · rw [e1, e2]; exact h1 t (mem_of_get hj)
      · exact h1 s (hv ▸ hs)
    · intro s hs o ho
      show o < v.objs.length
      rw [e3]
      rcases mem_put hs with rfl | hs
      · rw [e1] at ho; exact h2 t (mem_of_get hj) o ho
      · exact h2 s (hv ▸ hs) o ho
    · intro _ i s hi
      rcases get_put (by rw [hv]; exact hj) hi with ⟨rfl, rfl⟩ | ⟨hne, hi⟩
      · rw [e2, ← h3 hns _ t hj]
        exact outputNames_congr e1 (fun o _ => by show v.objs.getD o [] = _; rw [e3])
      · rw [hv] at hi
        rw [← h3 hns _ s hi]
        exact outputNames_congr rfl (fun o _ => by show v.objs.getD o [] = _; rw [e3])
  have key' : ∀ {v : World} {j : Nat} {t t' : MState}, w' = v.put j t' → v.models = w.models → w.models[j]? = some t →
      t'.outputs = t.outputs → t'.outNames = t.outNames → v.objs = w.objs → OutInv w' := by
    intro v j t t' e4 hv hj e1 e2 e3
    refine ⟨?_, ?_, ?_⟩
    · intro s hs
      rw [e4] at hs
      rcases mem_put hs with rfl | hs
      · rw [e1, e2]; exact h1 t (mem_of_get hj)
      · exact h1 s (hv ▸ hs)
    · intro s hs o ho
      rw [e4] at hs ⊢
      show o < v.objs.length
      rw [e3]
      rcases mem_put hs with rfl | hs
      · rw [e1] at ho; exact h2 t (mem_of_get hj) o ho
      · exact h2 s (hv ▸ hs) o ho
    · intro hns i s hi
      have := (key hv hj e1 e2 e3 (hns.back hch)).names (e4 ▸ hns) i s (e4 ▸ hi)
      rw [e4]; exact this
  cases hch with
  | same c n l hn =>
    refine ⟨h1, ?_, ?_⟩
    · intro s hs o ho
      have := h2 s hs o ho
      simp only [List.length_append]; omega
    · intro hns i s hi
      rw [← h3 hns i s hi]
      refine outputNames_congr rfl (fun o ho => ?_)
      have := h2 s (mem_of_get hi) o ho
      simp [List.getD_eq_getElem?_getD, List.getElem?_append_left this]
  | newModel =>
    have hback : ∀ {s}, s ∈ w.models ++ [({} : MState)] → s ∈ w.models ∨ s = {} := by simp
    have hns' : NotShared { w with models := w.models ++ [{}] } → NotShared w := fun h => h.back .newModel
    refine ⟨?_, ?_, ?_⟩
    · intro s hs
      rcases hback hs with hs | rfl
      · exact h1 s hs
      · simp
    · intro s hs o ho
      rcases hback hs with hs | rfl
      · exact h2 s hs o ho
      · simp at ho
    · intro hns i s hi
      rcases hback (List.mem_of_getElem? hi) with hs | rfl
      · simp only [List.getElem?_append] at hi
        split at hi
        · exact h3 (hns' hns) i s hi
        · rename_i hlt
          rcases Nat.lt_or_ge (i - w.models.length) 1 with h | h
          · have : i - w.models.length = 0 := by omega
            rw [this] at hi; simp at hi; subst hi; rfl
          · rw [List.getElem?_eq_none (by simpa using h)] at hi; cases hi
      · rfl
  | input j t name hj => exact key' rfl rfl hj rfl rfl rfl
  | declare j t name hj => exact key' rfl rfl hj rfl rfl rfl
  | add j t name hj => exact key' rfl rfl hj rfl rfl rfl
  | objective j t name d hj h => exact key' rfl rfl hj rfl rfl rfl
  | dv j t name d hj h h' => exact key' rfl rfl hj rfl rfl rfl
  | con j t name a hj h => exact key' rfl rfl hj rfl rfl rfl
  | connect j t a b hj => exact key' rfl rfl hj rfl rfl rfl
  | register c j t name o n l hj hn ho hb h0' h1' h2' h3' =>
    refine ⟨?_, ?_, ?_⟩
    · intro s hs
      rcases mem_put hs with rfl | hs
      · have := h1 t (mem_of_get hj)
        refine ⟨?_, ?_⟩
        · simp only [List.nodup_append, List.nodup_singleton, List.mem_singleton, forall_eq]
          exact ⟨this.1, trivial, fun x hx e => h0' (e ▸ hx)⟩
        · simp only [List.nodup_append, List.nodup_singleton, List.mem_singleton, forall_eq]
          exact ⟨this.2, trivial, fun x hx e => h1' (e ▸ hx)⟩
      · exact h1 s hs
    · intro s hs o' ho'
      show o' < ((w.objs ++ l).set o name).length
      rw [List.length_set]
      rcases mem_put hs with rfl | hs
      · rcases List.mem_append.1 ho' with ho' | ho'
        · have := h2 t (mem_of_get hj) o' ho'
          simp only [List.length_append]; omega
        · simp at ho'; subst ho'; exact ho
      · have := h2 s hs o' ho'
        simp only [List.length_append]; omega
    · intro hns i s hi
      have hns0 := hns.back (.register c j t name o n l hj hn ho hb h0' h1' h2' h3')
      have hsame : ∀ s ∈ w.models, o ∉ s.outputs → ∀ o' ∈ s.outputs, ((w.objs ++ l).set o name).getD o' [] = w.objs.getD o' [] := by
        intro s hs hno o' ho'
        have hlt := h2 s hs o' ho'
        have hne : o ≠ o' := fun e => hno (e ▸ ho')
        simp [List.getD_eq_getElem?_getD, List.getElem?_set, hne, List.getElem?_append_left hlt]
      rcases get_put (w := { w with nodes := n, objs := (w.objs ++ l).set o name }) hj hi with ⟨rfl, rfl⟩ | ⟨hne, hi'⟩
      · show World.outputNames _ _ = t.outNames ++ [name]
        rw [← h3 hns0 i t hj]
        simp only [World.outputNames, List.map_append, World.put, List.map_cons, List.map_nil]
        congr 1
        · exact List.map_congr_left (hsame t (mem_of_get hj) h0')
        · simp only [List.getD_eq_getElem?_getD, List.getElem?_set_self' ]
          simp [List.getElem?_eq_getElem ho]
      · rw [← h3 hns0 i s hi']
        refine outputNames_congr rfl (hsame s (mem_of_get hi') ?_)
        have := hns i j s _ hi (get_put_self hj) hne
        intro hmem
        exact this o hmem (by simp)

end Csdl.Api
