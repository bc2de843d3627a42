import Verif.Spec.PassArgs
import Verif.Props.ImplicitProgram
/-
Lemmas for C107.
-/
namespace Csdl

theorem nameMap_append (h : Heap) (l : List Nat) (a : Nat) : nameMap h (l ++ [a]) = (nameMap h l).set (h a).name a := by
  simp [nameMap, Dict.ofPairs, Dict.update]

/-- the dictionary of a list of variables by name has the last one of each name -/
theorem nameMap_last {h : Heap} {l : List Nat} {x : Name} {v : Nat} : (nameMap h l).get? x = some v ↔ LastOf (fun i => (h i).name) l v ∧ (h v).name = x := by
  induction l using List.reverseRecOn with
  | nil => simp [nameMap, Dict.ofPairs, Dict.update, Dict.get?, LastOf]
  | append_singleton l a ih =>
    rw [nameMap_append, Dict.get?_set]
    constructor
    · intro hh
      split_ifs at hh with hk
      · cases hh
        exact ⟨⟨l, [], rfl, by simp⟩, hk⟩
      · obtain ⟨⟨l1, l2, rfl, h2⟩, h3⟩ := ih.1 hh
        refine ⟨⟨l1, l2 ++ [a], by simp, fun u hu => ?_⟩, h3⟩
        rcases List.mem_append.1 hu with hu | hu
        · exact h2 u hu
        · rw [List.mem_singleton.1 hu]
          dsimp only
          rw [h3]
          exact hk
    · rintro ⟨⟨l1, l2, e, h2⟩, h3⟩
      split_ifs with hk
      · rcases List.eq_nil_or_concat l2 with rfl | ⟨l3, a', rfl⟩
        · have := (List.append_inj' e rfl).2
          simp only [List.cons.injEq, and_true] at this
          rw [this]
        · have e' : l ++ [a] = (l1 ++ v :: l3) ++ [a'] := by simpa using e
          obtain ⟨_, e2⟩ := List.append_inj' e' rfl
          simp only [List.cons.injEq, and_true] at e2
          subst e2
          exact absurd (hk.trans h3.symm) (h2 a (by simp))
      · rcases List.eq_nil_or_concat l2 with rfl | ⟨l3, a', rfl⟩
        · have := (List.append_inj' e rfl).2
          simp only [List.cons.injEq, and_true] at this
          subst this
          exact absurd h3 hk
        · have e' : l ++ [a] = (l1 ++ v :: l3) ++ [a'] := by simpa using e
          obtain ⟨e1, _⟩ := List.append_inj' e' rfl
          exact ih.2 ⟨⟨l1, l3, e1, fun u hu => h2 u (by simp [hu])⟩, h3⟩

namespace Prog
open Csdl Csdl.Arith
variable {K F : Type}

section
variable {objs : List (PObj K F)} {d : Nat} {w : Val K}

theorem modify_get (i : Nat) : (objs.modify d fun p => { p with val := some w })[i]? = if d = i then objs[i]?.map (fun p => { p with val := some w }) else objs[i]? := by
  rw [List.getElem?_modify]
  split <;> simp

theorem objects_modify : objects (objs.modify d fun p => { p with val := some w }) = objects objs := by
  funext i
  unfold objects
  rw [modify_get]
  split
  · cases objs[i]? <;> rfl
  · rfl

theorem kindOf_modify : kindOf (objs.modify d fun p => { p with val := some w }) = kindOf objs := by
  funext i
  unfold kindOf
  rw [modify_get]
  split
  · cases objs[i]? <;> rfl
  · rfl

theorem residualModel_modify (root : OModel) : residualModel (objs.modify d fun p => { p with val := some w }) root = residualModel objs root := by
  unfold residualModel
  rw [objects_modify]

end

/-- passing values changes nothing but values -/
theorem passArgs_objects {root : OModel} : ∀ {args : List (Name × Shape × Val K)} {objs objs' : List (PObj K F)} {e : Option ImpErr}, passArgs root objs args = (objs', e) →
    objects objs' = objects objs ∧ kindOf objs' = kindOf objs ∧ residualModel objs' root = residualModel objs root
  | [], objs, objs', e, h => by cases h; exact ⟨rfl, rfl, rfl⟩
  | a :: as, objs, objs', e, h => by
    rw [passArgs] at h
    split at h
    · cases h; exact ⟨rfl, rfl, rfl⟩
    · split_ifs at h
      · cases h; exact ⟨rfl, rfl, rfl⟩
      · obtain ⟨h1, h2, h3⟩ := passArgs_objects h
        exact ⟨h1.trans objects_modify, h2.trans kindOf_modify, h3.trans (residualModel_modify root)⟩

/-- it is rejected exactly if the check of the arguments is -/
theorem passArgs_error {root : OModel} : ∀ {args : List (Name × Shape × Val K)} {objs : List (PObj K F)},
    checkArgs (residualModel objs root) (args.map fun a => (a.1, a.2.1)) = match (passArgs root objs args).2 with | none => .ok () | some e => .error e
  | [], objs => rfl
  | a :: as, objs => by
    rw [List.map_cons, checkArgs, passArgs]
    dsimp only
    cases hd : (nameMap (residualModel objs root).h (residualModel objs root).declared).get? a.1 with
    | none => rfl
    | some d =>
      dsimp only
      split_ifs with hs
      · rfl
      · rw [← passArgs_error (objs := objs.modify d fun p => { p with val := some a.2.2 }), residualModel_modify]

theorem passedTo_cons (a : Name × Shape × Val K) (as : List (Name × Shape × Val K)) (n : Name) : passedTo (a :: as) n = (passedTo as n).or (if a.1 = n then some a.2.2 else none) := by
  unfold passedTo
  rw [List.reverse_cons, List.find?_append]
  cases as.reverse.find? fun a => a.1 = n with
  | some b => simp
  | none =>
    simp only [List.find?_cons, List.find?_nil]
    by_cases h : a.1 = n <;> simp [h]

variable [One K]

theorem initial_modify {objs : List (PObj K F)} {d i : Nat} {w : Val K} (hd : d < objs.length) : initial (objs.modify d fun p => { p with val := some w }) i = if d = i then w else initial objs i := by
  unfold initial
  rw [modify_get]
  split_ifs with h
  · subst h
    rw [List.getElem?_eq_getElem hd]
    rfl
  · rfl

/-- the values when the arguments have been passed -/
theorem passArgs_initial {root : OModel} : ∀ {args : List (Name × Shape × Val K)} {objs objs' : List (PObj K F)}, (∀ d ∈ root.declared, d < objs.length) → passArgs root objs args = (objs', none) →
    (∀ i, LastOf (fun i => (objects objs i).name) root.declared i → initial objs' i = (passedTo args (objects objs i).name).getD (initial objs i)) ∧
    ∀ i, ¬ LastOf (fun i => (objects objs i).name) root.declared i → initial objs' i = initial objs i
  | [], objs, objs', hl, h => by cases h; exact ⟨fun i _ => rfl, fun i _ => rfl⟩
  | a :: as, objs, objs', hl, h => by
    rw [passArgs] at h
    cases hd : (nameMap (residualModel objs root).h (residualModel objs root).declared).get? a.1 with
    | none => rw [hd] at h; cases h
    | some d =>
      rw [hd] at h
      dsimp only at h
      split_ifs at h with hs
      · cases h
      obtain ⟨d1, d2⟩ := nameMap_last.1 hd
      have d1 : LastOf (fun i => (objects objs i).name) root.declared d := d1
      have d2 : (objects objs d).name = a.1 := d2
      obtain ⟨h1, h2⟩ := passArgs_initial (by simpa using hl) h
      rw [objects_modify] at h1 h2
      refine ⟨fun i hi => ?_, fun i hi => ?_⟩
      · rw [h1 i hi, initial_modify (hl d d1.mem), passedTo_cons]
        by_cases hn : a.1 = (objects objs i).name
        · rw [if_pos hn, if_pos (LastOf.eq d1 hi (d2.trans hn))]
          cases passedTo as (objects objs i).name <;> rfl
        · rw [if_neg hn, if_neg fun e => hn (by rw [← e]; exact d2.symm)]
          cases passedTo as (objects objs i).name <;> rfl
      · rw [h2 i hi, initial_modify (hl d d1.mem), if_neg (fun e : d = i => hi (e ▸ d1))]

end Prog
end Csdl
