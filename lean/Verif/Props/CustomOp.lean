import Verif.Spec.CustomOp
import Verif.Proofs.Dict
import Mathlib.Data.List.Induction
import Mathlib.Algebra.Order.Field.Rat
/-!
# C37, C38, C54: custom operations
-/
namespace Csdl.Custom
open Csdl
section
variable {V D : Type} [Mul V] [One V]

theorem loopErr_cons {α S : Type} {f : S → α → S × Option CErr} (a : α) (l : List α) (s : S) : loopErr f s (a :: l) = andThen (f s a) fun s => loopErr f s l := rfl

theorem andThen_assoc {S : Type} (r : S × Option CErr) (k k' : S → S × Option CErr) : andThen (andThen r k) k' = andThen r fun s => andThen (k s) k' := by
  rcases r with ⟨s, _ | e⟩ <;> rfl

theorem andThen_pure {S : Type} (r : S × Option CErr) : andThen r (fun s => (s, none)) = r := by
  rcases r with ⟨s, _ | e⟩ <;> rfl

theorem loopErr_append {α S : Type} {f : S → α → S × Option CErr} (l l' : List α) : ∀ s, loopErr f s (l ++ l') = andThen (loopErr f s l) fun s => loopErr f s l' := by
  induction l with
  | nil => intro s; rfl
  | cons a l ih => intro s; simp only [List.cons_append, loopErr_cons, andThen_assoc, ih]

theorem loopErr_map {α β S : Type} {f : S → β → S × Option CErr} (g : α → β) (l : List α) : ∀ s, loopErr f s (l.map g) = loopErr (fun s a => f s (g a)) s l := by
  induction l with
  | nil => intro s; rfl
  | cons a l ih => intro s; simp only [List.map_cons, loopErr_cons, ih]

theorem loopErr_congr {α S : Type} {f g : S → α → S × Option CErr} (l : List α) (h : ∀ s, ∀ a ∈ l, f s a = g s a) : ∀ s, loopErr f s l = loopErr g s l := by
  induction l with
  | nil => intro s; rfl
  | cons a l ih => intro s; simp only [loopErr_cons, h s a (by simp), ih fun s b hb => h s b (by simp [hb])]

theorem loopErr_pairs {S : Type} {f : S → Name × Name → S × Option CErr} (as bs : List Name) : ∀ s,
    loopErr f s (pairs as bs) = loopErr (fun s a => loopErr (fun s b => f s (a, b)) s bs) s as := by
  induction as with
  | nil => intro s; rfl
  | cons a as ih =>
    intro s
    unfold pairs at ih ⊢
    simp only [List.flatMap_cons, loopErr_append, loopErr_map, loopErr_cons, ih]

/-- declaring pairs one by one -/
theorem declareOne_all (d : D) (ps : List (Name × Name)) : ∀ o : Op D,
    (ps.Nodup ∧ (∀ p ∈ ps, p ∉ o.derivs.keys) → loopErr (fun o p => declareOne o (.str p.1) (.str p.2) d) o ps = ({ o with derivs := o.derivs ++ ps.map fun p => (p, d) }, none)) ∧
    (¬ (ps.Nodup ∧ ∀ p ∈ ps, p ∉ o.derivs.keys) → ∃ qs, qs <+: ps ∧
      loopErr (fun o p => declareOne o (.str p.1) (.str p.2) d) o ps = ({ o with derivs := o.derivs ++ qs.map fun p => (p, d) }, some .key)) := by
  induction ps with
  | nil => intro o; exact ⟨fun _ => by simp [loopErr], fun h => absurd ⟨by simp, by simp⟩ h⟩
  | cons p ps ih =>
    intro o
    rw [loopErr_cons]
    by_cases hp : p ∈ o.derivs.keys
    · have e1 : declareOne o (.str p.1) (.str p.2) d = (o, some .key) := by
        unfold declareOne; dsimp only; rw [if_pos (Dict.has_iff.2 hp)]
      rw [e1]; dsimp only [andThen]
      refine ⟨fun h => absurd hp (h.2 p (by simp)), fun _ => ⟨[], by simp, by simp⟩⟩
    · have e1 : declareOne o (.str p.1) (.str p.2) d = ({ o with derivs := o.derivs ++ [(p, d)] }, none) := by
        unfold declareOne; dsimp only
        rw [if_neg (fun h => hp (Dict.has_iff.1 h)), Dict.set_append_of_notin hp]
      rw [e1]; dsimp only [andThen]
      obtain ⟨i1, i2⟩ := ih { o with derivs := o.derivs ++ [(p, d)] }
      have hk : ∀ q, q ∈ (o.derivs ++ [(p, d)] : Dict (Name × Name) D).keys ↔ q ∈ o.derivs.keys ∨ q = p := by
        intro q; simp [Dict.keys]
      have hcond : (ps.Nodup ∧ ∀ q ∈ ps, q ∉ (o.derivs ++ [(p, d)] : Dict (Name × Name) D).keys) ↔ ((p :: ps).Nodup ∧ ∀ q ∈ p :: ps, q ∉ o.derivs.keys) := by
        simp only [hk, not_or, List.nodup_cons, List.mem_cons, forall_eq_or_imp]
        constructor
        · rintro ⟨h1, h2⟩
          exact ⟨⟨fun h => (h2 p h).2 rfl, h1⟩, hp, fun q hq => (h2 q hq).1⟩
        · rintro ⟨⟨h1, h2⟩, h3, h4⟩
          exact ⟨h2, fun q hq => ⟨h4 q hq, fun e => h1 (e ▸ hq)⟩⟩
      constructor
      · intro h
        rw [i1 (hcond.2 h)]
        simp
      · intro h
        obtain ⟨qs, hq, e⟩ := i2 (fun h' => h (hcond.1 h'))
        refine ⟨p :: qs, by simpa using hq, ?_⟩
        rw [e]; simp

theorem declare_str (d : D) (fuel : Nat) (o : Op D) (a b : Name) (ha : a ≠ ['*']) (hb : b ≠ ['*']) :
    declareDerivatives d (fuel + 1) o (.str a) (.str b) = declareOne o (.str a) (.str b) d := by
  unfold declareDerivatives
  simp [expandNames, ha, hb]

/-- `declare_derivatives` is the declaration of all pairs one by one -/
theorem declare_eq (d : D) (fuel : Nat) (o : Op D) (of wrt : Names) (ho : ['*'] ∉ o.outputs.map (·.1)) (hi : ['*'] ∉ o.inputs.map (·.1))
    (h1 : denotes (o.outputs.map (·.1)) of ≠ []) (h2 : denotes (o.inputs.map (·.1)) wrt ≠ []) :
    declareDerivatives d (fuel + 2) o of wrt = loopErr (fun o p => declareOne o (.str p.1) (.str p.2) d) o (pairs (denotes (o.outputs.map (·.1)) of) (denotes (o.inputs.map (·.1)) wrt)) := by
  have star : ∀ {all : List Name} {ns : Names}, ['*'] ∉ all → denotes all ns ≠ [] →
      (expandNames all ns = denotes all ns ∧ expandNames all ns ≠ [] ∧ ∀ x ∈ denotes all ns, x ≠ ['*']) ∨ (∃ s, ns = .str s ∧ s ≠ ['*'] ∧ expandNames all ns = [] ∧ denotes all ns = [s]) := by
    intro all ns hs hne
    cases ns with
    | str s =>
      by_cases h : s = ['*']
      · subst h
        refine Or.inl ⟨by simp [expandNames, denotes], ?_, ?_⟩
        · simpa [expandNames, denotes] using hne
        · intro x hx hxe; subst hxe; exact hs (by simpa [denotes] using hx)
      · exact Or.inr ⟨s, rfl, h, by simp [expandNames, h], by simp [denotes, h]⟩
    | list l =>
      by_cases h : ['*'] ∈ l
      · refine Or.inl ⟨by simp [expandNames, denotes, h], ?_, ?_⟩
        · simpa [expandNames, denotes, h] using hne
        · intro x hx hxe; subst hxe; exact hs (by simpa [denotes, h] using hx)
      · refine Or.inl ⟨by simp [expandNames, denotes, h], ?_, ?_⟩
        · simpa [expandNames, denotes, h] using hne
        · intro x hx hxe; subst hxe; simp [denotes, h] at hx
  rw [loopErr_pairs]
  unfold declareDerivatives
  dsimp only
  rcases star ho h1 with ⟨a1, a2, a3⟩ | ⟨s, rfl, a1, a2, a3⟩ <;> rcases star hi h2 with ⟨b1, b2, b3⟩ | ⟨t, rfl, b1, b2, b3⟩
  · rw [if_pos ⟨a2, b2⟩, a1, b1]
    exact loopErr_congr _ (fun s a ha => loopErr_congr _ (fun s b hb => declare_str d fuel s a b (a3 a ha) (b3 b hb)) s) o
  · rw [if_neg (by rintro ⟨_, h⟩; exact h b2), if_pos a2, a1, b3]
    refine loopErr_congr _ (fun s a ha => ?_) o
    rw [declare_str d fuel s a t (a3 a ha) b1]
    simp only [loopErr, andThen_pure]
  · rw [if_neg (by rintro ⟨h, _⟩; exact h a2), if_neg (fun h => h a2), if_pos b2, b1, a3]
    rw [loopErr_cons]; simp only [show ∀ (f : Op D → Name → Op D × Option CErr) o, loopErr f o [] = (o, none) from fun _ _ => rfl, andThen_pure]
    have : loopErr (fun o b => declareDerivatives d (fuel + 1) o (.str s) (.str b)) o (denotes (o.inputs.map (·.1)) wrt) =
        loopErr (fun o b => declareOne o (.str s) (.str b) d) o (denotes (o.inputs.map (·.1)) wrt) :=
      loopErr_congr _ (fun o' b hb => declare_str d fuel o' s b a1 (b3 b hb)) o
    exact this
  · rw [if_neg (by rintro ⟨h, _⟩; exact h a2), if_neg (fun h => h a2), if_neg (fun h => h b2), a3, b3]
    simp only [loopErr, andThen_pure]

/-! ### C37 -/

/-- C37 (partial: '*' with no outputs or inputs, and the empty list, excluded): `declare_derivatives(of, wrt)` declares, in order, exactly the pairs of a name denoted by `of` and a name denoted by
`wrt`, if none was declared before and none occurs twice; otherwise it raises KeyError, after declaring pairs of the product up to there.  Nothing else changes, and earlier
declarations are kept as they are. -/
theorem C37_product_declared_partial (d : D) (limit : Nat) (hl : 2 ≤ limit) (o : Op D) (of wrt : Names) (ho : "*".toList ∉ o.outputs.map (·.1)) (hi : "*".toList ∉ o.inputs.map (·.1))
    (h1 : denotes (o.outputs.map (·.1)) of ≠ []) (h2 : denotes (o.inputs.map (·.1)) wrt ≠ []) (ps : List (Name × Name))
    (hps : ps = pairs (denotes (o.outputs.map (·.1)) of) (denotes (o.inputs.map (·.1)) wrt)) :
    (ps.Nodup ∧ (∀ p ∈ ps, p ∉ o.derivs.keys) → declareDerivatives d limit o of wrt = ({ o with derivs := o.derivs ++ ps.map fun p => (p, d) }, none)) ∧
    (¬ (ps.Nodup ∧ ∀ p ∈ ps, p ∉ o.derivs.keys) → ∃ qs, qs <+: ps ∧ declareDerivatives d limit o of wrt = ({ o with derivs := o.derivs ++ qs.map fun p => (p, d) }, some .key)) := by
  obtain ⟨fuel, rfl⟩ : ∃ f, limit = f + 2 := ⟨limit - 2, by omega⟩
  rw [declare_eq d fuel o of wrt ho hi h1 h2, ← hps]
  exact declareOne_all d ps o

/-- a case with a wildcard and a list -/
example : (declareDerivatives (7 : Nat) 1000 { inputs := [("a".toList, some [1]), ("b".toList, some [1])], outputs := [("x".toList, some [1]), ("y".toList, some [1])] }
      (.list ["x".toList, "y".toList]) (.str "*".toList)).1.derivs.keys =
    [("x".toList, "a".toList), ("x".toList, "b".toList), ("y".toList, "a".toList), ("y".toList, "b".toList)] := by decide

/-- C37, for all arguments without exception: declared derivatives are never overwritten or removed. -/
theorem C37_never_overwrites (d : D) (limit : Nat) : ∀ (o : Op D) (of wrt : Names), o.derivs <+: (declareDerivatives d limit o of wrt).1.derivs ∧
    (o.derivs.keys.Nodup → (declareDerivatives d limit o of wrt).1.derivs.keys.Nodup) := by
  have hloop : ∀ {α : Type} {f : Op D → α → Op D × Option CErr}, (∀ o a, o.derivs <+: (f o a).1.derivs ∧ (o.derivs.keys.Nodup → (f o a).1.derivs.keys.Nodup)) →
      ∀ (l : List α) (o : Op D), o.derivs <+: (loopErr f o l).1.derivs ∧ (o.derivs.keys.Nodup → (loopErr f o l).1.derivs.keys.Nodup) := by
    intro α f hf l
    induction l with
    | nil => intro o; exact ⟨List.prefix_refl _, id⟩
    | cons a l ih =>
      intro o
      have h1 := hf o a
      unfold loopErr
      rcases h : f o a with ⟨s, _ | e⟩
      · rw [h] at h1
        exact ⟨h1.1.trans (ih s).1, fun hn => (ih s).2 (h1.2 hn)⟩
      · rw [h] at h1; exact h1
  induction limit with
  | zero => intro o of wrt; exact ⟨List.prefix_refl _, id⟩
  | succ n ih =>
    intro o of wrt
    unfold declareDerivatives
    dsimp only
    split_ifs
    · exact hloop (fun o a => hloop (fun o b => ih o _ _) _ o) _ o
    · exact hloop (fun o a => ih o _ _) _ o
    · exact hloop (fun o a => ih o _ _) _ o
    · unfold declareOne
      split
      · rename_i a b _ _ _
        by_cases h : o.derivs.has (a, b) = true
        · rw [if_pos h]; exact ⟨List.prefix_refl _, id⟩
        · rw [if_neg h]
          have hk : (a, b) ∉ o.derivs.keys := fun h' => h (Dict.has_iff.2 h')
          refine ⟨?_, fun hn => Dict.nodup_set hn _ _⟩
          dsimp only
          rw [Dict.set_append_of_notin hk]
          exact List.prefix_append _ _
      · exact ⟨List.prefix_refl _, id⟩

/-- C37 as stated is false of the code: for an operation with an output `x` and no inputs, `declare_derivatives('x', '*')` declares the derivative of `x` with respect to an input called '*'
instead of none; and `declare_derivatives([], 'a')` raises TypeError instead of declaring nothing. -/
theorem C37_empty_wildcard (d : D) (o : Op D) (ho : o.inputs = []) (hd : o.derivs = []) :
    (declareDerivatives d 1000 o (.str "x".toList) (.str "*".toList)).1.derivs = [(("x".toList, "*".toList), d)] ∧
    (declareDerivatives d 1000 o (.list []) (.str "a".toList)).2 = some .type := by
  constructor
  · unfold declareDerivatives
    simp [expandNames, ho, declareOne, hd, Dict.has, Dict.get?, Dict.set]
  · unfold declareDerivatives
    simp [expandNames, declareOne]

/-! ### C38 -/

/-- calls that add inputs and outputs do not raise -/
def Accepted (limit : Nat) (o : Op D) (cs : List (CCall V D)) : Prop := ∀ pre c post, cs = pre ++ c :: post → (step limit (run limit o pre) c).2 = none

def CCall.inName : CCall V D → Option Name
  | .input n _ _ => some n
  | _ => none

def CCall.outName : CCall V D → Option Name
  | .output n _ _ => some n
  | _ => none

theorem declare_io (d : D) (limit : Nat) : ∀ (o : Op D) (of wrt : Names), ∃ ds, (declareDerivatives d limit o of wrt).1 = { o with derivs := ds } := by
  have hloop : ∀ {α : Type} {f : Op D → α → Op D × Option CErr}, (∀ o a, ∃ ds, (f o a).1 = { o with derivs := ds }) →
      ∀ (l : List α) (o : Op D), ∃ ds, (loopErr f o l).1 = { o with derivs := ds } := by
    intro α f hf l
    induction l with
    | nil => intro o; exact ⟨_, rfl⟩
    | cons a l ih =>
      intro o
      obtain ⟨d1, h1⟩ := hf o a
      unfold loopErr
      rcases h : f o a with ⟨s, _ | e⟩
      · rw [h] at h1
        dsimp only at h1; subst h1
        obtain ⟨d2, h2⟩ := ih { o with derivs := d1 }
        exact ⟨d2, h2⟩
      · rw [h] at h1; exact ⟨d1, h1⟩
  induction limit with
  | zero => intro o of wrt; exact ⟨_, rfl⟩
  | succ n ih =>
    intro o of wrt
    unfold declareDerivatives
    dsimp only
    split_ifs
    · exact hloop (fun o a => hloop (fun o b => ih o _ _) _ o) _ o
    · exact hloop (fun o a => ih o _ _) _ o
    · exact hloop (fun o a => ih o _ _) _ o
    · unfold declareOne
      split
      · split_ifs <;> exact ⟨_, rfl⟩
      · exact ⟨_, rfl⟩

theorem run_append (limit : Nat) (o : Op D) (cs cs' : List (CCall V D)) : run limit o (cs ++ cs') = run limit (run limit o cs) cs' := by
  unfold run; rw [List.foldl_append]

/-- C38, what always holds: after any sequence of calls, accepted or not, input names are pairwise distinct and so are output names; redeclaring an input, and declaring an input as an output,
raises KeyError and changes nothing. -/
theorem C38_declared_once_partial (limit : Nat) (cs : List (CCall V D)) :
    let o := run limit ({} : Op D) cs
    o.inputs.keys.Nodup ∧ o.outputs.keys.Nodup ∧
    ∀ n ∈ o.inputs.keys, ∀ (s : ShapeArg) (v : ValArg V), step limit o (.input n s v) = (o, some .key) ∧ step limit o (.output n s v) = (o, some .key) := by
  intro o
  have hn : o.inputs.keys.Nodup ∧ o.outputs.keys.Nodup := by
    suffices H : ∀ o0 : Op D, o0.inputs.keys.Nodup ∧ o0.outputs.keys.Nodup → (run limit o0 cs).inputs.keys.Nodup ∧ (run limit o0 cs).outputs.keys.Nodup from
      H {} ⟨by simp [Dict.keys], by simp [Dict.keys]⟩
    clear o
    induction cs with
    | nil => intro o0 h; exact h
    | cons c cs ih =>
      intro o0 h
      refine ih _ ?_
      cases c with
      | input n s v =>
        simp only [step, addInput]
        split_ifs
        · exact h
        · cases getShapeVal s v false with
          | none => exact ⟨Dict.nodup_set h.1 _ _, h.2⟩
          | some r => exact ⟨Dict.nodup_set h.1 _ _, h.2⟩
      | output n s v =>
        simp only [step, addOutput]
        split_ifs
        · exact h
        · cases getShapeVal s v false with
          | none => exact ⟨h.1, Dict.nodup_set h.2 _ _⟩
          | some r => exact ⟨h.1, Dict.nodup_set h.2 _ _⟩
      | derivs of wrt d =>
        obtain ⟨ds, e⟩ := declare_io d limit o0 of wrt
        simp only [step, e]
        exact h
  refine ⟨hn.1, hn.2, fun n h s v => ⟨?_, ?_⟩⟩
  · simp [step, addInput, Dict.has_iff.2 h]
  · simp [step, addOutput, Dict.has_iff.2 h]

/-- C38 (partial): if all calls are accepted, and no output was declared twice or declared as an input after it, then the names of inputs and outputs are exactly the names declared, in order; they are pairwise
distinct and disjoint, and the counts are the numbers of names. -/
theorem C38_counts_partial (limit : Nat) (cs : List (CCall V D)) (ha : Accepted limit ({} : Op D) cs) (ho : (cs.filterMap CCall.outName).Nodup)
    (hd : ∀ pre n s v post, cs = pre ++ .input n s v :: post → n ∉ pre.filterMap CCall.outName) :
    let o := run limit ({} : Op D) cs
    o.inputs.keys = cs.filterMap CCall.inName ∧ o.outputs.keys = cs.filterMap CCall.outName ∧ o.inputs.keys.Nodup ∧ o.outputs.keys.Nodup ∧
    (∀ n ∈ o.inputs.keys, n ∉ o.outputs.keys) ∧ o.nargs = o.inputs.keys.length ∧ o.nouts = o.outputs.keys.length := by
  suffices H : ∀ l : List (CCall V D), l <+: cs →
      (run limit ({} : Op D) l).inputs.keys = l.filterMap CCall.inName ∧ (run limit ({} : Op D) l).outputs.keys = l.filterMap CCall.outName ∧
      (∀ n ∈ (run limit ({} : Op D) l).inputs.keys, n ∉ (run limit ({} : Op D) l).outputs.keys) ∧
      (run limit ({} : Op D) l).nargs = (run limit ({} : Op D) l).inputs.keys.length ∧ (run limit ({} : Op D) l).nouts = (run limit ({} : Op D) l).outputs.keys.length by
    obtain ⟨h1, h2, h3, h4, h5⟩ := H cs (List.prefix_refl _)
    obtain ⟨n1, n2, _⟩ := C38_declared_once_partial (V := V) (D := D) limit cs
    exact ⟨h1, h2, n1, n2, h3, h4, h5⟩
  intro l
  induction l using List.reverseRecOn with
  | nil => intro _; simp [run, Dict.keys]
  | append_singleton l c ih =>
    intro hp
    obtain ⟨post, hpost⟩ := hp
    obtain ⟨h1, h2, h3, h4, h5⟩ := ih ⟨c :: post, by rw [← hpost]; simp⟩
    have hacc := ha l c post (by rw [← hpost]; simp)
    have hrun : run limit ({} : Op D) (l ++ [c]) = (step limit (run limit ({} : Op D) l) c).1 := by rw [run_append]; rfl
    rw [hrun]
    generalize run limit ({} : Op D) l = o at *
    cases c with
    | input n s v =>
      simp only [step, addInput] at hacc ⊢
      have hnot : ¬ o.inputs.has n = true := by intro h; rw [if_pos h] at hacc; cases hacc
      rw [if_neg hnot] at hacc ⊢
      cases hg : getShapeVal s v false with
      | none => rw [hg] at hacc; cases hacc
      | some r =>
        have hk : n ∉ o.inputs.keys := fun h => hnot (Dict.has_iff.2 h)
        have hno := hd l n s v post (by rw [← hpost]; simp)
        dsimp only
        rw [Dict.set_append_of_notin hk]
        have hkeys : (o.inputs ++ [(n, some r.1)] : Dict Name (Option Shape)).keys = o.inputs.keys ++ [n] := by simp [Dict.keys]
        refine ⟨?_, ?_, ?_, ?_, h5⟩
        · rw [hkeys, h1]; simp [CCall.inName]
        · rw [h2]; simp [CCall.outName]
        · intro x hx
          rw [hkeys] at hx
          rcases List.mem_append.1 hx with hx | hx
          · exact h3 x hx
          · rw [List.mem_singleton.1 hx, h2]; exact hno
        · rw [hkeys, h4]; simp
    | output n s v =>
      simp only [step, addOutput] at hacc ⊢
      have hnot : ¬ o.inputs.has n = true := by intro h; rw [if_pos h] at hacc; cases hacc
      rw [if_neg hnot] at hacc ⊢
      cases hg : getShapeVal s v false with
      | none => rw [hg] at hacc; cases hacc
      | some r =>
        have hk : n ∉ o.outputs.keys := by
          rw [h2]
          rw [← hpost] at ho
          simp only [List.append_assoc, List.filterMap_append, List.singleton_append, List.filterMap_cons, CCall.outName, List.filterMap_nil] at ho
          have := List.disjoint_of_nodup_append ho
          intro h; exact this h (by simp)
        dsimp only
        rw [Dict.set_append_of_notin hk]
        have hkeys : (o.outputs ++ [(n, some r.1)] : Dict Name (Option Shape)).keys = o.outputs.keys ++ [n] := by simp [Dict.keys]
        refine ⟨?_, ?_, ?_, h4, ?_⟩
        · rw [h1]; simp [CCall.inName]
        · rw [hkeys, h2]; simp [CCall.outName]
        · intro x hx hx'
          rw [hkeys] at hx'
          rcases List.mem_append.1 hx' with hx' | hx'
          · exact h3 x hx hx'
          · rw [List.mem_singleton.1 hx'] at hx; exact hnot (Dict.has_iff.2 hx)
        · rw [hkeys, h5]; simp
    | derivs of wrt d =>
      obtain ⟨ds, e⟩ := declare_io d limit o of wrt
      simp only [step, e]
      refine ⟨by rw [h1]; simp [CCall.inName], by rw [h2]; simp [CCall.outName], h3, h4, h5⟩

/-- C38 as stated is false of the code: an output declared twice is accepted and counted twice; a name can be declared an output and then an input; and an input whose value has the wrong shape
is rejected but stays declared, without a shape and not counted. -/
theorem C38_not_once (limit : Nat) (s : ShapeArg) (x : V) (n : Name) (a : Arr V) (h2 : a.shape ≠ [2]) :
    (let o := run limit ({} : Op D) [.output n s (.number x), .output n s (.number x)]
     Accepted limit ({} : Op D) [.output n s (.number x), .output n s (.number x)] ∧ o.nouts = 2 ∧ o.outputs.keys = [n]) ∧
    (let o := run limit ({} : Op D) [.output n s (.number x), .input n s (.number x)]
     Accepted limit ({} : Op D) [.output n s (.number x), .input n s (.number x)] ∧ o.inputs.keys = [n] ∧ o.outputs.keys = [n]) ∧
    (let r := step limit ({} : Op D) (.input n (.tuple [2]) (.array a))
     r.2 = some .value ∧ r.1.inputs = [(n, none)] ∧ r.1.nargs = 0) := by
  have hg : ∃ b : Arr V, getShapeVal s (.number x) false = some (s.shape, some b) := by
    unfold getShapeVal valArray
    by_cases h : s.shape = [1]
    · simp [h, onesTimes]
    · simp [h, onesTimes]
  obtain ⟨b, hg⟩ := hg
  have acc : ∀ c1 c2 : CCall V D, (step limit ({} : Op D) c1).2 = none → (step limit (step limit ({} : Op D) c1).1 c2).2 = none → Accepted limit ({} : Op D) [c1, c2] := by
    intro c1 c2 e1 e2 pre c post he
    match pre with
    | [] => simp at he; rw [← he.1]; exact e1
    | [y] => simp at he; rw [← he.1, ← he.2.1]; exact e2
    | y :: z :: l => simp at he
  refine ⟨⟨acc _ _ ?_ ?_, ?_, ?_⟩, ⟨acc _ _ ?_ ?_, ?_, ?_⟩, ?_⟩ <;>
    simp [run, step, addOutput, addInput, hg, Dict.has, Dict.get?, Dict.set, Dict.keys]
  simp [getShapeVal, valArray, ShapeArg.shape, h2]

/-! ### C54 -/

theorem matchArgs_ok (l : List ((Name × Shape) × Name)) : ∀ {o o' : Op D}, matchArgs o l = (o', none) →
    o' = { o with deps := o.deps ++ l.map (·.1) } ∧ ∀ e ∈ l, e.1.1 = e.2 ∧ o.inputs.get? e.2 = some (some e.1.2) := by
  induction l with
  | nil => intro o o' h; cases h; exact ⟨by simp, by simp⟩
  | cons e l ih =>
    intro o o' h
    obtain ⟨arg, key⟩ := e
    unfold matchArgs at h
    by_cases h1 : arg.1 ≠ key
    · rw [if_pos h1] at h; cases h
    rw [if_neg h1] at h
    have h1' : arg.1 = key := by simpa using h1
    rcases hg : o.inputs.get? arg.1 with _ | _ | s
    · rw [hg] at h; cases h
    · rw [hg] at h; cases h
    · rw [hg] at h; dsimp only at h
      by_cases h2 : arg.2 ≠ s
      · rw [if_pos h2] at h; cases h
      rw [if_neg h2] at h
      have h2' : arg.2 = s := by simpa using h2
      obtain ⟨i1, i2⟩ := ih h
      refine ⟨by rw [i1]; simp, fun e he => ?_⟩
      rcases List.mem_cons.1 he with rfl | he
      · exact ⟨h1', by dsimp only; rw [← h1', hg, h2']⟩
      · exact i2 e he

theorem makeOuts_ok (l : List (Name × Option Shape)) : ∀ {outs}, makeOuts l = some outs → l = outs.map fun e => (e.1, some e.2) := by
  induction l with
  | nil => intro outs h; cases h; rfl
  | cons e l ih =>
    intro outs h
    obtain ⟨n, _ | s⟩ := e
    · cases h
    · unfold makeOuts at h
      obtain ⟨os, h1, rfl⟩ := Option.map_eq_some_iff.1 h
      rw [ih h1]; rfl

theorem step_mono (limit : Nat) (o : Op D) (c : CCall V D) : (∀ n ∈ o.inputs.keys, n ∈ (step limit o c).1.inputs.keys) ∧ (step limit o c).1.deps = o.deps ∧
    (∀ n s v, c = .input n s v → n ∈ (step limit o c).1.inputs.keys ∧ (n ∈ o.inputs.keys → (step limit o c).2 ≠ none)) := by
  cases c with
  | input n s v =>
    simp only [step, addInput]
    by_cases h : o.inputs.has n = true
    · rw [if_pos h]
      refine ⟨fun _ h => h, rfl, fun n' s' v' e => ?_⟩
      cases e; exact ⟨Dict.has_iff.1 h, fun _ => by simp⟩
    · rw [if_neg h]
      cases getShapeVal s v false with
      | none =>
        refine ⟨fun x hx => (Dict.keys_set _ _ _ _).2 (Or.inl hx), rfl, fun n' s' v' e => ?_⟩
        cases e; exact ⟨(Dict.keys_set _ _ _ _).2 (Or.inr rfl), fun _ => by simp⟩
      | some r =>
        refine ⟨fun x hx => (Dict.keys_set _ _ _ _).2 (Or.inl hx), rfl, fun n' s' v' e => ?_⟩
        cases e; exact ⟨(Dict.keys_set _ _ _ _).2 (Or.inr rfl), fun hn => absurd (Dict.has_iff.2 hn) h⟩
  | output n s v =>
    simp only [step, addOutput]
    by_cases h : o.inputs.has n = true
    · rw [if_pos h]
      exact ⟨fun _ h => h, rfl, fun n' s' v' e => by cases e⟩
    · rw [if_neg h]
      cases getShapeVal s v false with
      | none => exact ⟨fun x hx => hx, rfl, fun n' s' v' e => by cases e⟩
      | some r => exact ⟨fun x hx => hx, rfl, fun n' s' v' e => by cases e⟩
  | derivs of wrt d =>
    obtain ⟨ds, e⟩ := declare_io d limit o of wrt
    simp only [step, e]
    exact ⟨fun _ h => h, trivial, fun n' s' v' e => by cases e⟩

theorem run_deps (limit : Nat) (cs : List (CCall V D)) : ∀ o : Op D, (run limit o cs).deps = o.deps := by
  induction cs with
  | nil => intro o; rfl
  | cons c cs ih => intro o; exact (ih _).trans (step_mono limit o c).2.1

theorem run_inputs (limit : Nat) (cs : List (CCall V D)) : ∀ o : Op D, (∀ n ∈ o.inputs.keys, n ∈ (run limit o cs).inputs.keys) ∧
    (∀ n s v, CCall.input n s v ∈ cs → n ∈ (run limit o cs).inputs.keys) := by
  induction cs with
  | nil => intro o; exact ⟨fun _ h => h, fun _ _ _ h => by cases h⟩
  | cons c cs ih =>
    intro o
    obtain ⟨i1, i2⟩ := ih (step limit o c).1
    refine ⟨fun n hn => i1 n ((step_mono limit o c).1 n hn), fun n s v h => ?_⟩
    rcases List.mem_cons.1 h with h | h
    · exact i1 n ((step_mono limit o c).2.2 n s v h.symm).1
    · exact i2 n s v h

theorem loop_input_error (limit : Nat) (cs : List (CCall V D)) {n : Name} {s : ShapeArg} {v : ValArg V} (hc : CCall.input n s v ∈ cs) : ∀ o : Op D, n ∈ o.inputs.keys →
    (loopErr (step limit) o cs).2 ≠ none := by
  induction cs with
  | nil => cases hc
  | cons c cs ih =>
    intro o hn
    rw [loopErr_cons]
    have h1 := step_mono limit o c
    rcases hs : step limit o c with ⟨o2, _ | e⟩
    · rw [hs] at h1
      rcases List.mem_cons.1 hc with h | h
      · exact absurd rfl ((h1.2.2 n s v h.symm).2 hn)
      · exact ih h o2 (h1.1 n hn)
    · simp [andThen]

theorem loopErr_run {limit : Nat} (cs : List (CCall V D)) : ∀ {o o1 : Op D}, loopErr (step limit) o cs = (o1, none) → run limit o cs = o1 := by
  induction cs with
  | nil => intro o o1 h; cases h; rfl
  | cons c cs ih =>
    intro o o1 h
    rw [loopErr_cons] at h
    rcases hs : step limit o c with ⟨o2, _ | e⟩
    · rw [hs] at h
      have := ih h
      unfold run at this ⊢
      rw [List.foldl_cons, hs]; exact this
    · rw [hs] at h; cases h

theorem custom_ok {limit : Nat} {o o' : Op D} {cs : List (CCall V D)} {args outs : List (Name × Shape)} (h : custom limit o cs args = (o', .ok outs)) :
    args.length = (run limit o cs).inputs.length ∧ matchArgs (run limit o cs) (args.zip ((run limit o cs).inputs.map (·.1))) = (o', none) ∧ makeOuts o'.outputs = some outs := by
  unfold custom at h
  rcases hl : loopErr (step limit) o cs with ⟨o1, _ | e⟩
  · rw [hl] at h; dsimp only at h
    rw [loopErr_run cs hl]
    by_cases hlen : args.length ≠ o1.inputs.length
    · rw [if_pos hlen] at h; cases h
    rw [if_neg hlen] at h
    rcases hm : matchArgs o1 (args.zip (o1.inputs.map (·.1))) with ⟨o2, _ | e⟩
    · rw [hm] at h; dsimp only at h
      cases ho : makeOuts o2.outputs with
      | none => rw [ho] at h; cases h
      | some os =>
        rw [ho] at h; cases h
        exact ⟨by simpa using hlen, hm, ho⟩
    · rw [hm] at h; dsimp only at h; cases h
  · rw [hl] at h; dsimp only at h; cases h

theorem zip_inputs (args : List (Name × Shape)) : ∀ d : Dict Name (Option Shape), args.length = d.length → d.keys.Nodup →
    (∀ e ∈ args.zip (d.map (·.1)), e.1.1 = e.2 ∧ d.get? e.2 = some (some e.1.2)) → d = args.map fun a => (a.1, some a.2) := by
  induction args with
  | nil => intro d hl _ _; cases d with
    | nil => rfl
    | cons _ _ => simp at hl
  | cons a args ih =>
    intro d hl hn he
    cases d with
    | nil => simp at hl
    | cons e d =>
      obtain ⟨k, s⟩ := e
      simp only [Dict.keys, List.map_cons, List.nodup_cons] at hn
      have h0 := he (a, k) (by simp)
      dsimp only at h0
      have : s = some a.2 := by simpa [Dict.get?] using h0.2
      subst this
      rw [List.map_cons, h0.1]
      congr 1
      refine ih d (by simpa using hl) hn.2 (fun e' he' => ?_)
      have h1 := he e' (by simp [he'])
      refine ⟨h1.1, ?_⟩
      have hk : e'.2 ∈ d.map (·.1) := (List.of_mem_zip (a := e'.1) (b := e'.2) he').2
      have hne : k ≠ e'.2 := fun h => hn.1 (h ▸ hk)
      simpa [Dict.get?, hne] using h1.2

/-- C54: if `custom(*args, op=op)`, with a new operation `op` whose `define` makes the calls `cs`, is accepted, then the arguments are, in order and without exception, the declared inputs: same names, same
shapes; they are the dependencies of the operation, in order; and the outputs returned are exactly the declared outputs, in order, with their names and shapes. -/
theorem C54_arguments_match (limit : Nat) (o' : Op D) (cs : List (CCall V D)) (args : List (Name × Shape)) (outs : List (Name × Shape)) (h : custom limit {} cs args = (o', .ok outs)) :
    (run limit {} cs).inputs = args.map (fun a => (a.1, some a.2)) ∧ (run limit {} cs).outputs = outs.map (fun e => (e.1, some e.2)) ∧ o'.deps = args ∧
    o'.inputs = (run limit {} cs).inputs ∧ o'.outputs = (run limit {} cs).outputs ∧ o'.derivs = (run limit {} cs).derivs := by
  obtain ⟨h1, h2, h3⟩ := custom_ok h
  obtain ⟨e1, e2⟩ := matchArgs_ok _ h2
  have e3 := makeOuts_ok _ h3
  subst e1
  refine ⟨zip_inputs args _ h1 (C38_declared_once_partial limit cs).1 e2, e3, ?_, rfl, rfl, rfl⟩
  dsimp only
  rw [run_deps, List.map_fst_zip (by simp [h1])]; rfl

/-- C54, an operation object can be used only once, if it has inputs: a second `custom` with the same object is rejected. -/
theorem C54_single_use (limit : Nat) (o' : Op D) (cs : List (CCall V D)) (args args' : List (Name × Shape)) (outs : List (Name × Shape)) (h : custom limit {} cs args = (o', .ok outs))
    (n : Name) (s : ShapeArg) (v : ValArg V) (hn : CCall.input n s v ∈ cs) : ∃ e, (custom limit o' cs args').2 = .error e := by
  obtain ⟨_, _, _, h4, _⟩ := C54_arguments_match limit o' cs args outs h
  have hk : n ∈ o'.inputs.keys := by rw [h4]; exact (run_inputs limit cs {}).2 n s v hn
  have := loop_input_error limit cs hn o' hk
  unfold custom
  rcases hl : loopErr (step limit) o' cs with ⟨o1, _ | e⟩
  · rw [hl] at this; exact absurd rfl this
  · exact ⟨e, rfl⟩

end

/-- the hypotheses hold: an operation with two inputs, an output and all derivatives -/
def exCustom : List (CCall Rat Nat) := [.input "a".toList (.tuple [1]) (.number 1), .input "b".toList (.tuple [2, 3]) (.number 0), .output "x".toList (.int 3) (.number 1), .derivs (.str "*".toList) (.str "*".toList) 7]

example : (custom 1000 {} exCustom [("a".toList, [1]), ("b".toList, [2, 3])]).2 = .ok [("x".toList, [3])] ∧ Accepted 1000 ({} : Op Nat) exCustom ∧ (exCustom.filterMap CCall.outName).Nodup := by
  refine ⟨rfl, ?_, by decide⟩
  intro pre c post he
  match pre with
  | [] => simp [exCustom] at he; rw [← he.1]; rfl
  | [a] => simp [exCustom] at he; rw [← he.1, ← he.2.1]; rfl
  | [a, b] => simp [exCustom] at he; rw [← he.1, ← he.2.1, ← he.2.2.1]; rfl
  | [a, b, c'] => simp [exCustom] at he; rw [← he.1, ← he.2.1, ← he.2.2.1, ← he.2.2.2.1]; rfl
  | a :: b :: c' :: d :: l => simp [exCustom] at he

end Csdl.Custom
