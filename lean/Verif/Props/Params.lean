import Verif.Spec.Params
import Verif.Proofs.Dict
import Mathlib.Tactic.Tauto
/-!
# C39, C40: options (`Parameters`)
-/
namespace Csdl.Params
open Csdl
section
variable {V T : Type}

theorem checkBound_none {cmp : V → V → Option Bool} {v : V} {b : Option V} : checkBound cmp v b = none ↔ ∀ u, b = some u → cmp v u = some false := by
  cases b with
  | none => simp [checkBound]
  | some u =>
    unfold checkBound
    rcases h : cmp v u with _ | _ | _ <;> simp [h]

theorem checkKind_none (py : Py V T) (d : Decl V T) (v : V) (h : ¬ (d.types.isSome && d.values.isSome) = true) :
    checkKind py (storedDecl py d) v = none ↔ (∀ l, d.values = some l → ∃ w ∈ l, py.eq v w = true) ∧ (∀ t, d.types = some t → OfTypes py v t) := by
  unfold checkKind storedDecl
  dsimp only
  cases ht : d.types with
  | none =>
    simp only [typesIsBool]
    cases hv : d.values with
    | none => simp
    | some l => simp
  | some t =>
    have hv : d.values = none := by
      cases hv : d.values with
      | none => rfl
      | some l => rw [ht, hv] at h; simp at h
    rw [hv]
    cases t with
    | one t =>
      by_cases hb : py.isBool t = true
      · rw [if_pos (show typesIsBool py (some (.one t)) = true from hb)]
        simp only [OfTypes, hb, if_true, Option.some.injEq, forall_eq', reduceCtorEq, false_implies, implies_true, true_and]
        cases h1 : py.eq v (py.ofBool true) <;> cases h2 : py.eq v (py.ofBool false) <;> simp [h1, h2]
      · rw [if_neg (show ¬ typesIsBool py (some (.one t)) = true from hb)]
        simp only [OfTypes, hb, isInstance, Option.some.injEq, forall_eq', reduceCtorEq, false_implies, implies_true, true_and, if_false]
        rcases hi : py.isInst v t with _ | _ <;> simp [hi]
    | tuple l =>
      simp only [typesIsBool, OfTypes, isInstance]
      rcases hi : l.any (py.isInst v ·) with _ | _
      · have : ¬ ∃ t ∈ l, py.isInst v t = true := by rw [List.any_eq_false] at hi; rintro ⟨t, h1, h2⟩; exact hi t h1 h2
        simp [this, hi]
      · have := List.any_eq_true.1 hi
        simp [this, hi]
    | list l => simp [typesIsBool, OfTypes, isInstance]

/-- the check of values is validity -/
theorem assertValid_none (py : Py V T) (d : Decl V T) (v : V) (h : ¬ (d.types.isSome && d.values.isSome) = true) : assertValid py (storedDecl py d) v = none ↔ Valid py d v := by
  have hk := checkKind_none py d v h
  have hc : (storedDecl py d).check = d.check := rfl
  have hu : (storedDecl py d).upper = d.upper := rfl
  have hl : (storedDecl py d).lower = d.lower := rfl
  have ha : (storedDecl py d).allowNone = true ↔ d.allowNone = true ∨ ∃ w, d.default = some w ∧ py.isNone w = true := by
    unfold storedDecl
    cases d.default <;> simp
  have hcheck : checkUser v d.check = none ↔ ∀ c, d.check = some c → c v = true := by
    cases hd : d.check with
    | none => simp [checkUser]
    | some c => by_cases h' : c v = true <;> simp [checkUser, h']
  unfold assertValid Valid
  rw [hc, hu, hl, Option.or_eq_none_iff, hcheck, ← ha, ← checkBound_none, ← checkBound_none, ← and_assoc (a := ∀ l, d.values = some l → _), ← hk]
  refine and_congr_left fun _ => ?_
  by_cases hn : (py.isNone v && (storedDecl py d).allowNone) = true
  · rw [if_pos hn]
    rw [Bool.and_eq_true] at hn
    simp [hn]
  · rw [if_neg hn, Option.or_eq_none_iff, Option.or_eq_none_iff]
    rw [Bool.and_eq_true] at hn
    simp [hn]

/-- an entry, given the declaration and the value it should have -/
def MetaOk (py : Py V T) (m : Meta V T) (d : Decl V T) (v : Option V) : Prop :=
  ¬ (d.types.isSome && d.values.isSome) = true ∧ m.decl = storedDecl py d ∧ m.val = v ∧ m.set = v.isSome ∧ ∀ w, v = some w → Valid py d w

/-- the options agree with the history -/
def Agree (py : Py V T) (p : Params V T) (h : List (PCall V T × Bool)) : Prop :=
  p.dict.keys.Nodup ∧ ∀ n, (p.dict.get? n = none → current n h = none ∧ inForce n h = none) ∧
    ∀ m, p.dict.get? n = some m → ∃ d v, inForce n h = some d ∧ current n h = some v ∧ MetaOk py m d v

theorem setItem_cases (py : Py V T) (p : Params V T) (n : Name) (v : V) :
    (∃ m, p.dict.get? n = some m ∧ p.readOnly = false ∧ assertValid py m.decl v = none ∧ setItem py p n v = ({ p with dict := p.dict.set n ⟨some v, true, m.decl⟩ }, none)) ∨
    (∃ e, setItem py p n v = (p, some e)) := by
  unfold setItem
  cases p.dict.get? n with
  | none => exact Or.inr ⟨_, rfl⟩
  | some m =>
    dsimp only
    cases hr : p.readOnly with
    | true => exact Or.inr ⟨_, rfl⟩
    | false =>
      simp only [Bool.false_eq_true, if_false]
      cases ha : assertValid py m.decl v with
      | none => exact Or.inl ⟨m, rfl, trivial, ha, rfl⟩
      | some e => exact Or.inr ⟨e, rfl⟩

theorem agree_step (py : Py V T) {p : Params V T} {h : List (PCall V T × Bool)} (ha : Agree py p h) (c : PCall V T) (hc : ∀ n d, c = .declare n d → (step py p c).2 = none) :
    Agree py (step py p c).1 ((c, (step py p c).2.isNone) :: h) := by
  obtain ⟨hn, ha⟩ := ha
  cases c with
  | set n v =>
    simp only [step]
    rcases setItem_cases py p n v with ⟨m, h1, h2, h3, h4⟩ | ⟨e, h4⟩
    · rw [h4]
      refine ⟨Dict.nodup_set hn _ _, fun x => ?_⟩
      simp only [Option.isNone_none, current, inForce]
      rw [Dict.get?_set]
      by_cases hx : n = x
      · subst hx
        rw [if_pos rfl, if_pos rfl]
        refine ⟨by simp, fun m' hm' => ?_⟩
        cases hm'
        obtain ⟨d, v', k1, k2, k3, k4, k5, k6, k7⟩ := (ha n).2 m h1
        exact ⟨d, some v, k1, rfl, k3, k4, rfl, rfl, fun w hw => by cases hw; rw [k4] at h3; exact (assertValid_none py d v k3).1 h3⟩
      · rw [if_neg hx, if_neg hx]
        exact ha x
    · rw [h4]
      refine ⟨hn, fun x => ?_⟩
      simp only [Option.isNone_some, current, inForce]
      exact ha x
  | undeclare n =>
    simp only [step, undeclare]
    refine ⟨?_, fun x => ?_⟩
    · unfold Dict.pop Dict.keys
      exact (hn.sublist ((List.filter_sublist).map _))
    · simp only [Option.isNone_none, current, inForce]
      by_cases hx : n = x
      · subst hx
        rw [if_pos rfl, if_pos rfl]
        refine ⟨fun _ => ⟨rfl, rfl⟩, fun m hm => ?_⟩
        have := Dict.get?_some_mem hm
        simp [Dict.pop] at this
      · rw [if_neg hx, if_neg hx]
        have : Dict.get? (p.dict.pop n) x = p.dict.get? x := by
          clear ha hn hc
          unfold Dict.pop
          induction p.dict with
          | nil => rfl
          | cons kv l ih =>
            by_cases hk : kv.1 = n
            · rw [List.filter_cons_of_neg (by simpa using hk), ih]
              obtain ⟨k, w⟩ := kv
              simp only at hk
              subst hk
              simp [Dict.get?, hx]
            · rw [List.filter_cons_of_pos (by simpa using hk)]
              obtain ⟨k, w⟩ := kv
              simp only [Dict.get?, ih]
        rw [this]
        exact ha x
  | declare n d =>
    have hok := hc n d rfl
    simp only [step] at hok ⊢
    unfold declare at hok ⊢
    by_cases hb : (d.types.isSome && d.values.isSome) = true
    · rw [if_pos hb] at hok; cases hok
    rw [if_neg hb] at hok ⊢
    have key : Agree py { p with dict := p.dict.set n ⟨d.default, d.default.isSome, storedDecl py d⟩, allRecordable := p.allRecordable && d.recordable } ((.declare n d, true) :: h) := by
      refine ⟨Dict.nodup_set hn _ _, fun x => ?_⟩
      simp only [current, inForce]
      rw [Dict.get?_set]
      by_cases hx : n = x
      · subst hx
        rw [if_pos rfl, if_pos rfl, if_pos rfl]
        refine ⟨by simp, fun m' hm' => ?_⟩
        cases hm'
        refine ⟨d, d.default, rfl, rfl, hb, rfl, rfl, rfl, fun w hw => ?_⟩
        rw [← assertValid_none py d w hb]
        rw [hw] at hok
        exact hok
      · rw [if_neg hx, if_neg hx, if_neg hx]
        exact ha x
    dsimp only at hok ⊢
    rw [hok]; exact key

theorem agree_run (py : Py V T) (cs : List (PCall V T)) : ∀ {p : Params V T} {h : List (PCall V T × Bool)}, Agree py p h → DeclsOk (run py p h cs).2 → Agree py (run py p h cs).1 (run py p h cs).2 := by
  have hsub : ∀ (cs : List (PCall V T)) (p : Params V T) (h : List (PCall V T × Bool)) e, e ∈ h → e ∈ (run py p h cs).2 := by
    intro cs
    induction cs with
    | nil => intro p h e he; exact he
    | cons c cs ih => intro p h e he; exact ih _ _ e (List.mem_cons_of_mem _ he)
  induction cs with
  | nil => intro p h ha _; exact ha
  | cons c cs ih =>
    intro p h ha hd
    unfold run at hd ⊢
    refine ih (agree_step py ha c (fun n d hc => ?_)) hd
    cases hs : (step py p c).2 with
    | none => rfl
    | some e =>
      exfalso
      refine hd n d (hsub cs _ _ _ ?_)
      rw [hs, hc]; simp

/-- C39: after any sequence of `declare`, `undeclare` and item assignments on new options, in which every declaration succeeded (assignments may have raised), reading an option gives: KeyError if it is not
declared; RuntimeError if it is declared and has no value; else the last value assigned successfully since its last declaration, or the default; and this value satisfies the declaration in force.
(Partial: `types=bool` is satisfied by every value equal to True or False, see `C39_bool_accepts_int`.) -/
theorem C39_reads_last_valid_partial (py : Py V T) (ro : Bool) (cs : List (PCall V T)) (p : Params V T) (h : List (PCall V T × Bool)) (hr : run py { readOnly := ro } [] cs = (p, h)) (hd : DeclsOk h) (n : Name) :
    (current n h = none → getItem p n = .error .key) ∧
    (current n h = some none → getItem p n = .error .runtime) ∧
    (∀ v, current n h = some (some v) → getItem p n = .ok (some v) ∧ ∃ d, inForce n h = some d ∧ Valid py d v) := by
  have ha : Agree py p h := by
    have := agree_run py cs (p := { readOnly := ro }) (h := []) ⟨by simp [Dict.keys], fun x => ⟨fun _ => ⟨rfl, rfl⟩, fun m hm => by simp [Dict.get?] at hm⟩⟩ (by rw [hr]; exact hd)
    rw [hr] at this
    exact this
  obtain ⟨a1, a2⟩ := ha.2 n
  unfold getItem
  cases hg : p.dict.get? n with
  | none =>
    obtain ⟨c1, _⟩ := a1 hg
    rw [c1]
    exact ⟨fun _ => rfl, fun h => (by cases h), fun v h => (by cases h)⟩
  | some m =>
    obtain ⟨d, v, k1, k2, _, _, k5, k6, k7⟩ := a2 m hg
    rw [k2]
    dsimp only
    refine ⟨fun h => (by cases h), fun h => ?_, fun w h => ?_⟩
    · cases h; rw [k6]; rfl
    · cases h
      rw [k6, k5]
      exact ⟨rfl, d, k1, k7 w rfl⟩

/-- C39, assignment: it succeeds exactly when the option is declared, the options are not read-only and the value satisfies the declaration in force; then only this option changes; otherwise it raises
(KeyError if the option is not declared or the options are read-only) and changes nothing. -/
theorem C39_set (py : Py V T) (ro : Bool) (cs : List (PCall V T)) (p : Params V T) (h : List (PCall V T × Bool)) (hr : run py { readOnly := ro } [] cs = (p, h)) (hd : DeclsOk h) (n : Name) (v : V) :
    ((setItem py p n v).2 = none ↔ p.readOnly = false ∧ ∃ d, inForce n h = some d ∧ Valid py d v) ∧
    ((setItem py p n v).2 ≠ none → (setItem py p n v).1 = p) ∧
    (inForce n h = none ∨ p.readOnly = true → (setItem py p n v).2 = some .key) ∧
    ((setItem py p n v).2 = none → getItem (setItem py p n v).1 n = .ok (some v) ∧ ∀ x, x ≠ n → getItem (setItem py p n v).1 x = getItem p x) := by
  have ha : Agree py p h := by
    have := agree_run py cs (p := { readOnly := ro }) (h := []) ⟨by simp [Dict.keys], fun x => ⟨fun _ => ⟨rfl, rfl⟩, fun m hm => by simp [Dict.get?] at hm⟩⟩ (by rw [hr]; exact hd)
    rw [hr] at this
    exact this
  obtain ⟨a1, a2⟩ := ha.2 n
  cases hg : p.dict.get? n with
  | none =>
    have e : setItem py p n v = (p, some .key) := by unfold setItem; rw [hg]
    rw [e]
    refine ⟨by simp [(a1 hg).2], fun _ => rfl, fun _ => rfl, by simp⟩
  | some m =>
    obtain ⟨d, w, k1, k2, k3, k4, _⟩ := a2 m hg
    cases hro : p.readOnly with
    | true =>
      have e : setItem py p n v = (p, some .key) := by unfold setItem; rw [hg]; simp [hro]
      rw [e]
      refine ⟨by simp, fun _ => rfl, fun _ => rfl, by simp⟩
    | false =>
      have hv := assertValid_none py d v k3
      rw [← k4] at hv
      cases hx : assertValid py m.decl v with
      | some e' =>
        have e : setItem py p n v = (p, some e') := by unfold setItem; rw [hg]; simp [hro, hx]
        rw [e]
        refine ⟨?_, fun _ => rfl, by simp [k1], by simp⟩
        rw [k1]
        simp only [reduceCtorEq, true_and, Option.some.injEq, exists_eq_left', false_iff]
        rw [← hv, hx]; simp
      | none =>
        have e : setItem py p n v = ({ p with dict := p.dict.set n ⟨some v, true, m.decl⟩ }, none) := by unfold setItem; rw [hg]; simp [hro, hx]
        rw [e]
        refine ⟨?_, by simp, by simp [k1], fun _ => ⟨?_, fun x hxn => ?_⟩⟩
        · rw [k1]; simp only [true_and, Option.some.injEq, exists_eq_left', true_iff]; exact hv.1 hx
        · unfold getItem; dsimp only; rw [Dict.get?_set, if_pos rfl]; rfl
        · unfold getItem; dsimp only; rw [Dict.get?_set, if_neg (fun h => hxn h.symm)]

/-- C39, `update`: it makes the assignments in order up to the first that raises. -/
theorem C39_update (py : Py V T) (p : Params V T) (l : List (Name × V)) :
    ∃ pre post, l = pre ++ post ∧ (update py p l).1 = (run py p [] (pre.map fun e => .set e.1 e.2)).1 ∧
      (∀ e ∈ (run py p [] (pre.map fun e => PCall.set e.1 e.2)).2, e.2 = true) ∧
      ((update py p l).2 = none ↔ post = []) ∧ ∀ e post', post = e :: post' → (setItem py (update py p l).1 e.1 e.2).2 = (update py p l).2 := by
  have hrun : ∀ (cs : List (PCall V T)) (p : Params V T) (h : List (PCall V T × Bool)), (run py p h cs).1 = (run py p [] cs).1 ∧ (run py p h cs).2 = (run py p [] cs).2 ++ h := by
    intro cs
    induction cs with
    | nil => intro p h; exact ⟨rfl, rfl⟩
    | cons c cs ih =>
      intro p h
      unfold run
      obtain ⟨i1, i2⟩ := ih (step py p c).1 ((c, (step py p c).2.isNone) :: h)
      obtain ⟨j1, j2⟩ := ih (step py p c).1 [(c, (step py p c).2.isNone)]
      exact ⟨by rw [i1, j1], by rw [i2, j2]; simp⟩
  induction l generalizing p with
  | nil => exact ⟨[], [], rfl, rfl, by simp [run], by simp [update], by simp⟩
  | cons e l ih =>
    obtain ⟨n, v⟩ := e
    rcases hs : setItem py p n v with ⟨p', _ | er⟩
    · obtain ⟨pre, post, h1, h2, h3, h4, h5⟩ := ih p'
      have hu : update py p ((n, v) :: l) = update py p' l := by conv => lhs; unfold update; rw [hs]
      rw [hu]
      refine ⟨(n, v) :: pre, post, by rw [h1]; rfl, ?_, ?_, h4, h5⟩
      · rw [h2, List.map_cons]
        have : (run py p [] (PCall.set n v :: pre.map fun e => PCall.set e.1 e.2)).1 = (run py (step py p (.set n v)).1 [] (pre.map fun e => PCall.set e.1 e.2)).1 := by
          conv => lhs; unfold run
          rw [(hrun _ _ _).1]
        rw [this]
        simp only [step, hs]
      · intro e he
        rw [List.map_cons] at he
        unfold run at he
        rw [(hrun _ _ _).2] at he
        simp only [step, hs] at he
        rcases List.mem_append.1 he with he | he
        · exact h3 e he
        · simp at he; rw [he]
    · have hp : p' = p := by
        rcases setItem_cases py p n v with ⟨m, _, _, _, h4⟩ | ⟨e, h4⟩
        · rw [h4] at hs; cases hs
        · rw [h4] at hs; cases hs; rfl
      subst hp
      have hu : update py p' ((n, v) :: l) = (p', some er) := by unfold update; rw [hs]
      rw [hu]
      refine ⟨[], (n, v) :: l, rfl, rfl, by simp [run], by simp, ?_⟩
      intro e post' he
      cases he
      rw [hs]

/-! ### C40 -/

/-- C40 is false of the code, always: if `declare` raises because the default value is not valid, then the option has this value. -/
theorem C40_invalid_default_stays (py : Py V T) (p : Params V T) (n : Name) (d : Decl V T) (v : V) (hd : d.default = some v) (hb : ¬ (d.types.isSome && d.values.isSome) = true)
    (hv : ¬ Valid py d v) : (declare py p n d).2 ≠ none ∧ getItem (declare py p n d).1 n = .ok (some v) := by
  rw [← assertValid_none py d v hb] at hv
  unfold declare
  rw [if_neg hb]
  dsimp only
  rw [hd]
  refine ⟨hv, ?_⟩
  unfold getItem
  dsimp only
  rw [Dict.get?_set, if_pos rfl]
  rfl

/-- C40 (partial: only if the declaration is rejected for having both `types` and `values`): nothing changes. -/
theorem C40_rejected_declaration_partial (py : Py V T) (p : Params V T) (n : Name) (d : Decl V T) (hb : d.types.isSome = true ∧ d.values.isSome = true) :
    declare py p n d = (p, some .runtime) := by
  unfold declare
  rw [if_pos (by simp [hb])]

/-- C40 (partial), other options: a declaration, accepted or not, changes no other option. -/
theorem C40_others_unchanged_partial (py : Py V T) (p : Params V T) (n x : Name) (d : Decl V T) (hx : x ≠ n) : getItem (declare py p n d).1 x = getItem p x := by
  unfold declare
  split_ifs
  · rfl
  · have : getItem { p with dict := p.dict.set n ⟨d.default, d.default.isSome, storedDecl py d⟩, allRecordable := p.allRecordable && d.recordable } x = getItem p x := by
      unfold getItem
      dsimp only
      rw [Dict.get?_set, if_neg (fun h => hx h.symm)]
    exact this

end

/-! ### examples -/

/-- Python values None, True, False and ints, and the types bool and int: `True == 1`, and bool is a subclass of int. -/
inductive PyVal where
  | none | bool (b : Bool) | int (i : Int)
  deriving DecidableEq

inductive PyType where
  | bool | int
  deriving DecidableEq

/-- the number a value stands for -/
def PyVal.num : PyVal → Option Int
  | .none => Option.none
  | .bool b => some (if b then 1 else 0)
  | .int i => some i

/-- the type of a value -/
def PyVal.hasType : PyVal → PyType → Bool
  | .bool _, _ => true
  | .int _, .int => true
  | _, _ => false

def python : Py PyVal PyType :=
  { eq := fun a b => decide (a.num = b.num), isNone := fun a => decide (a = .none), isInst := PyVal.hasType
    gt := fun a b => match a.num, b.num with | some x, some y => some (decide (x > y)) | _, _ => none
    lt := fun a b => match a.num, b.num with | some x, some y => some (decide (x < y)) | _, _ => none
    ofBool := .bool, isBool := fun t => decide (t = .bool) }

/-- a history with accepted and rejected assignments meets the hypotheses -/
example : ∃ p h, run python {} [] [.declare "n".toList { types := some (.one .int), upper := some (.int 10) }, .set "n".toList (.int 3), .set "n".toList (.int 11), .set "k".toList (.int 0)] = (p, h) ∧
    (∀ e ∈ h, ∀ n d, e ≠ (.declare n d, false)) ∧ current "n".toList h = some (some (.int 3)) := by
  refine ⟨_, _, rfl, ?_, rfl⟩
  intro e he n d hd
  subst hd
  simp [step, declare, setItem, Dict.set, Dict.get?, assertValid, checkKind, checkBound, storedDecl, typesIsBool, isInstance, python, PyVal.num, PyVal.hasType] at he

/-- C39: `types=bool` does not mean that the value is a bool: 1 is accepted (as equal to True), although `isinstance(1, bool)` is false. -/
theorem C39_bool_accepts_int : (setItem python (declare python {} "flag".toList { types := some (.one .bool) }).1 "flag".toList (.int 1)).2 = none ∧ python.isInst (.int 1) .bool = false := by decide

/-- C40, the hypotheses hold: default 11 with upper bound 10 -/
example : getItem (declare python {} "n".toList { default := some (.int 11), upper := some (.int 10) }).1 "n".toList = .ok (some (.int 11)) := rfl

end Csdl.Params
