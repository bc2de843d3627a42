import Verif.Props.Params
/-!
# C108: listing and saving options
-/
namespace Csdl.Params
open Csdl
section
variable {V T : Type}

theorem keys_set_eq (d : Dict Name (Meta V T)) (n : Name) (m : Meta V T) : (d.set n m).keys = if n ∈ d.keys then d.keys else d.keys ++ [n] := by
  induction d with
  | nil => simp [Dict.set, Dict.keys]
  | cons e d ih =>
    obtain ⟨k, w⟩ := e
    unfold Dict.set
    by_cases hk : k = n
    · subst hk; simp [Dict.keys]
    · have hk' : ¬ n = k := fun h => hk h.symm
      rw [if_neg hk]
      show k :: (Dict.set d n m).keys = _
      rw [ih]
      have he : Dict.keys ((k, w) :: d) = k :: Dict.keys d := rfl
      rw [he]
      by_cases hm : n ∈ Dict.keys d
      · rw [if_pos hm, if_pos (List.mem_cons_of_mem _ hm)]
      · rw [if_neg hm, if_neg (by simp [hk', hm])]; rfl

theorem keys_pop (d : Dict Name (Meta V T)) (n : Name) : (d.pop n).keys = d.keys.filter (· ≠ n) := by
  unfold Dict.pop Dict.keys
  rw [List.filter_map]
  rfl

/-- the flag is set if every option may be saved -/
def Flag (p : Params V T) : Prop := p.allRecordable = true → ∀ e ∈ p.dict, e.2.decl.recordable = true

theorem mem_set {d : Dict Name (Meta V T)} {n : Name} {m : Meta V T} {e : Name × Meta V T} (h : e ∈ d.set n m) : e.2 = m ∨ e ∈ d := by
  induction d with
  | nil => simp only [Dict.set, List.mem_singleton] at h; exact Or.inl (by rw [h])
  | cons a d ih =>
    obtain ⟨k, w⟩ := a
    unfold Dict.set at h
    split_ifs at h
    · rcases List.mem_cons.1 h with h | h
      · exact Or.inl (by rw [h])
      · exact Or.inr (List.mem_cons_of_mem _ h)
    · rcases List.mem_cons.1 h with h | h
      · exact Or.inr (by rw [h]; exact List.mem_cons_self)
      · exact (ih h).imp id (List.mem_cons_of_mem _)

theorem order_step (py : Py V T) {p : Params V T} {h : List (PCall V T × Bool)} (hk : p.dict.keys = order h) (hf : Flag p) (c : PCall V T) (hc : ∀ n d, c = .declare n d → (step py p c).2 = none) :
    (step py p c).1.dict.keys = order ((c, (step py p c).2.isNone) :: h) ∧ Flag (step py p c).1 := by
  cases c with
  | set n v =>
    have ho : order ((PCall.set n v, (step py p (.set n v)).2.isNone) :: h) = order h := by
      cases (step py p (.set n v)).2.isNone <;> rfl
    rw [ho]
    simp only [step]
    rcases setItem_cases py p n v with ⟨m, h1, h2, h3, h4⟩ | ⟨e, h4⟩
    · rw [h4]
      refine ⟨?_, fun ha e he => ?_⟩
      · dsimp only
        rw [keys_set_eq, if_pos (Dict.get?_mem_keys h1), hk]
      · rcases mem_set he with he | he
        · rw [he]; exact hf ha _ (Dict.get?_some_mem h1)
        · exact hf ha _ he
    · rw [h4]; exact ⟨hk, hf⟩
  | undeclare n =>
    simp only [step, undeclare, Option.isNone_none, order]
    exact ⟨by rw [keys_pop, hk], fun ha e he => hf ha e (List.mem_filter.1 he).1⟩
  | declare n d =>
    have hok := hc n d rfl
    rw [hok]
    simp only [step] at hok ⊢
    unfold declare at hok ⊢
    by_cases hb : (d.types.isSome && d.values.isSome) = true
    · rw [if_pos hb] at hok; cases hok
    rw [if_neg hb]
    simp only [Option.isNone_none, order]
    refine ⟨by rw [keys_set_eq, hk], fun ha e he => ?_⟩
    simp only [Bool.and_eq_true] at ha
    rcases mem_set he with he | he
    · rw [he]; exact ha.2
    · exact hf ha.1 _ he

theorem order_run (py : Py V T) (cs : List (PCall V T)) : ∀ {p : Params V T} {h : List (PCall V T × Bool)}, p.dict.keys = order h → Flag p → DeclsOk (run py p h cs).2 →
    (run py p h cs).1.dict.keys = order (run py p h cs).2 ∧ Flag (run py p h cs).1 := by
  have hsub : ∀ (cs : List (PCall V T)) (p : Params V T) (h : List (PCall V T × Bool)) e, e ∈ h → e ∈ (run py p h cs).2 := by
    intro cs
    induction cs with
    | nil => intro p h e he; exact he
    | cons c cs ih => intro p h e he; exact ih _ _ e (List.mem_cons_of_mem _ he)
  induction cs with
  | nil => intro p h ha hf _; exact ⟨ha, hf⟩
  | cons c cs ih =>
    intro p h ha hf hd
    unfold run at hd ⊢
    have hs := order_step py ha hf c (fun n d hc => by
      cases hs : (step py p c).2 with
      | none => rfl
      | some e =>
        exfalso
        refine hd n d (hsub cs _ _ _ ?_)
        rw [hs, hc]; simp)
    exact ih hs.1 hs.2 hd

theorem agree_of_run {py : Py V T} {ro : Bool} {cs : List (PCall V T)} {p : Params V T} {h : List (PCall V T × Bool)} (hr : run py { readOnly := ro } [] cs = (p, h)) (hd : DeclsOk h) :
    Agree py p h ∧ p.dict.keys = order h ∧ Flag p := by
  have h1 := agree_run py cs (p := { readOnly := ro }) (h := []) ⟨by simp [Dict.keys], fun x => ⟨fun _ => ⟨rfl, rfl⟩, fun m hm => by simp [Dict.get?] at hm⟩⟩ (by rw [hr]; exact hd)
  have h2 := order_run py cs (p := { readOnly := ro }) (h := []) rfl (fun _ e he => by cases he) (by rw [hr]; exact hd)
  rw [hr] at h1 h2
  exact ⟨h1, h2⟩

/-- C108: after any sequence of calls in which every declaration succeeded, iterating over the options gives the declared options, each once, in the order of their declarations; `in` says whether an
option is declared; and `items` gives for each of them its value, or the undefined value if it has none (no exception, unlike reading it). -/
theorem C108_listing (py : Py V T) (ro : Bool) (cs : List (PCall V T)) (p : Params V T) (h : List (PCall V T × Bool)) (hr : run py { readOnly := ro } [] cs = (p, h)) (hd : DeclsOk h) :
    iter p = order h ∧ (order h).Nodup ∧ (∀ n, n ∈ order h ↔ (inForce n h).isSome = true) ∧ (∀ n, contains p n = true ↔ n ∈ order h) ∧
    items p = (order h).map fun n => (n, (current n h).join) := by
  obtain ⟨⟨hn, ha⟩, hk, hf⟩ := agree_of_run hr hd
  have hc : ∀ n, contains p n = true ↔ n ∈ order h := fun n => by rw [← hk]; exact Dict.has_iff
  refine ⟨hk, hk ▸ hn, fun n => ?_, hc, ?_⟩
  · rw [← hc]
    unfold contains
    cases hg : p.dict.get? n with
    | none => rw [((ha n).1 hg).2]; simp
    | some m => obtain ⟨d, v, k1, _⟩ := (ha n).2 m hg; rw [k1]; rfl
  · unfold items
    rw [← hk]
    unfold Dict.keys
    rw [List.map_map]
    refine List.map_congr_left fun e he => ?_
    obtain ⟨d, v, _, k2, _, _, k5, _⟩ := (ha e.1).2 e.2 (Dict.mem_get? hn he)
    simp only [Function.comp_apply]
    rw [k2, k5]; rfl

theorem get?_filter {d : Dict Name (Meta V T)} (hn : d.keys.Nodup) (f : Meta V T → Bool) (n : Name) : Dict.get? (d.filter fun e => f e.2) n = (d.get? n).filter f := by
  induction d with
  | nil => rfl
  | cons e d ih =>
    obtain ⟨k, w⟩ := e
    simp only [Dict.keys, List.map_cons, List.nodup_cons] at hn
    have ih := ih hn.2
    by_cases hk : k = n
    · subst hk
      cases hw : f w with
      | true => rw [List.filter_cons_of_pos (by exact hw)]; simp [Dict.get?, Option.filter, hw]
      | false =>
        rw [List.filter_cons_of_neg (by simp [hw]), ih]
        have : Dict.get? d k = none := Dict.get?_none_iff.2 hn.1
        simp [Dict.get?, this, Option.filter, hw]
    · cases hw : f w with
      | true => rw [List.filter_cons_of_pos (by exact hw)]; simp [Dict.get?, hk, ih]
      | false => rw [List.filter_cons_of_neg (by simp [hw]), ih]; simp [Dict.get?, hk]

/-- C108, saving: options restored from a saved state are read-only exactly if the saved ones were, and consist of exactly those declared options whose declaration allows them to be saved, in the same order;
reading or assigning one of them has the same outcome as before, and every other option is not declared. -/
theorem C108_saving (py : Py V T) (ro : Bool) (cs : List (PCall V T)) (p : Params V T) (h : List (PCall V T × Bool)) (hr : run py { readOnly := ro } [] cs = (p, h)) (hd : DeclsOk h) :
    (saved p).readOnly = p.readOnly ∧ iter (saved p) = (order h).filter (mayBeSaved h) ∧
    (∀ n, mayBeSaved h n = true → getItem (saved p) n = getItem p n ∧ ∀ v, (setItem py (saved p) n v).2 = (setItem py p n v).2) ∧
    ∀ n, mayBeSaved h n = false → getItem (saved p) n = .error .key := by
  obtain ⟨⟨hn, ha⟩, hk, hf⟩ := agree_of_run hr hd
  have hrec : ∀ e ∈ p.dict, mayBeSaved h e.1 = e.2.decl.recordable := by
    intro e he
    obtain ⟨d, v, k1, k2, k3, k4, _⟩ := (ha e.1).2 e.2 (Dict.mem_get? hn he)
    unfold mayBeSaved
    rw [k1, k4]; rfl
  have hro : (saved p).readOnly = p.readOnly := by unfold saved; split_ifs <;> rfl
  have hdict : (saved p).dict = p.dict.filter fun e => e.2.decl.recordable := by
    unfold saved
    split_ifs with hall
    · exact (List.filter_eq_self.2 fun e he => hf hall e he).symm
    · rfl
  have hget : ∀ n, (saved p).dict.get? n = if mayBeSaved h n = true then p.dict.get? n else none := by
    intro n
    rw [hdict, get?_filter hn (fun m => m.decl.recordable)]
    cases hg : p.dict.get? n with
    | none => simp
    | some m => rw [hrec _ (Dict.get?_some_mem hg)]; cases hm : m.decl.recordable <;> simp [hm]
  refine ⟨hro, ?_, fun n hm => ?_, fun n hm => ?_⟩
  · unfold iter
    rw [hdict, ← hk]
    unfold Dict.keys
    rw [List.filter_map]
    congr 1
    exact List.filter_congr fun e he => (hrec e he).symm
  · have hg := hget n
    rw [if_pos hm] at hg
    refine ⟨by unfold getItem; rw [hg], fun v => ?_⟩
    unfold setItem
    rw [hg, hro]
    split
    · rfl
    · split_ifs
      · rfl
      · split <;> rfl
  · have hg := hget n
    rw [if_neg (by simp [hm])] at hg
    unfold getItem
    rw [hg]

end

/-- C108, an example: `a` may not be saved, `b` has no value, `c` is removed, and `a` is declared again: it keeps its place. -/
theorem C108_example : ∃ p h, run python {} [] [.declare "a".toList { default := some (.int 1) }, .declare "b".toList { types := some (.one .int) }, .declare "c".toList {}, .undeclare "c".toList,
      .declare "a".toList { default := some (.int 5), recordable := false }, .set "a".toList (.int 6)] = (p, h) ∧ DeclsOk h ∧
    items p = [("a".toList, some (.int 6)), ("b".toList, none)] ∧ items (saved p) = [("b".toList, none)] := by
  refine ⟨_, _, rfl, ?_, rfl, rfl⟩
  intro n d he
  simp [step, declare, setItem, Dict.set, Dict.get?, undeclare, Dict.pop, assertValid, checkKind, checkBound, checkUser, storedDecl, typesIsBool, isInstance, python, PyVal.num, PyVal.hasType] at he

end Csdl.Params
