import Verif.Spec.Define
import Mathlib.Data.List.Basic
import Mathlib.Data.List.Nodup
/-
C48: models are defined once, top down.
-/
namespace Csdl.Define
open Csdl

theorem checks_iff (o : Obj) : checks o = none ↔ WellDefined o := by
  unfold checks
  constructor
  · intro h
    split at h
    · cases h
    · rename_i h1
      split at h
      · cases h
      · rename_i h2
        split at h
        · cases h
        · rename_i h3
          refine ⟨?_, ?_, ?_⟩
          · by_contra hn
            apply h1
            simp only [not_or, not_not] at hn
            simp [hn.1, hn.2.1, hn.2.2]
          · intro n hn
            by_contra hc
            apply h2
            rw [List.any_eq_true]
            exact ⟨n, hn, by simpa using hc⟩
          · intro p hp hf
            apply h3
            rw [List.any_eq_true]
            exact ⟨p, hp, by simp [hf]⟩
  · rintro ⟨h1, h2, h3⟩
    rw [if_neg, if_neg, if_neg]
    · rw [List.any_eq_true]
      rintro ⟨p, hp, hf⟩
      exact h3 p hp (by simpa using hf)
    · rw [List.any_eq_true]
      rintro ⟨n, hn, hf⟩
      simp [h2 n hn] at hf
    · intro hc
      simp only [Bool.and_eq_true, List.isEmpty_iff] at hc
      rcases h1 with h | h | h
      · exact h hc.1.1
      · exact h hc.1.2
      · exact h hc.2

/-! ### Successful runs -/

/-- A set of undefined models each of which contains another one of the set. -/
def Stuck (C : Nat → Prop) (st : DState) : Prop := ∀ a, C a → (st.heap a).defined = false ∧ ∃ b ∈ (st.heap a).subs, C b

theorem runList_cons_ok {f : DState → Nat → DState × Option DErr} {st st' : DState} {m : Nat} {ms : List Nat} (h : runList f st (m :: ms) = (st', none)) :
    ∃ s1, f st m = (s1, none) ∧ runList f s1 ms = (st', none) := by
  rw [runList] at h
  cases hf : f st m with
  | mk s1 o =>
    rw [hf] at h
    cases o with
    | none => exact ⟨s1, rfl, h⟩
    | some e => cases h

/-- The steps of a successful run on an undefined model. -/
theorem defineRec_ok {prog : Prog} {fuel : Nat} {st st' : DState} {m : Nat} (h : defineRec prog (fuel + 1) st m = (st', none)) (hu : (st.heap m).defined = false) :
    ∃ e s2, prog st m = (e, none) ∧ runList (defineRec prog fuel) (st.call m e) ((st.call m e).heap m).subs = (s2, none) ∧
      WellDefined (s2.heap m) ∧ st' = s2.setObj m { s2.heap m with defined := true } := by
  rw [defineRec, if_neg (by simp [hu])] at h
  cases hp : prog st m with
  | mk e o =>
    rw [hp] at h
    cases o with
    | some err => cases h
    | none =>
      simp only at h
      cases hr : runList (defineRec prog fuel) (st.call m e) ((st.call m e).heap m).subs with
      | mk s2 o2 =>
        rw [hr] at h
        cases o2 with
        | some err => cases h
        | none =>
          simp only at h
          cases hc : checks (s2.heap m) with
          | some err => rw [hc] at h; cases h
          | none =>
            rw [hc] at h
            cases h
            exact ⟨e, s2, rfl, hr, (checks_iff _).1 hc, rfl⟩

theorem defineRec_defined {prog : Prog} {fuel : Nat} {st st' : DState} {m : Nat} {o : Option DErr} (h : defineRec prog (fuel + 1) st m = (st', o)) (hd : (st.heap m).defined = true) : st' = st ∧ o = none := by
  rw [defineRec, if_pos hd] at h
  cases h; exact ⟨rfl, rfl⟩

theorem stuck_call {C : Nat → Prop} {st : DState} (h : Stuck C st) (m : Nat) (e : Effect) : Stuck C (st.call m e) := by
  intro a ha
  obtain ⟨h1, b, hb, hc⟩ := h a ha
  by_cases hm : a = m
  · subst hm
    refine ⟨by simpa [DState.call, Obj.apply] using h1, b, ?_, hc⟩
    simp only [DState.call, Obj.apply, if_true, List.mem_append]
    exact Or.inl hb
  · exact ⟨by simpa [DState.call, hm] using h1, b, by simpa [DState.call, hm] using hb, hc⟩

/-- A successful run starts outside every stuck set and leaves it stuck. -/
theorem stuck_run (prog : Prog) (fuel : Nat) : ∀ (C : Nat → Prop) (st st' : DState) (m : Nat), defineRec prog fuel st m = (st', none) → Stuck C st → ¬C m ∧ Stuck C st' := by
  induction fuel with
  | zero => intro C st st' m h _; cases h
  | succ fuel ih =>
    intro C st st' m h hC
    cases hd : (st.heap m).defined with
    | true =>
      obtain ⟨rfl, _⟩ := defineRec_defined h hd
      refine ⟨?_, hC⟩
      intro hm
      have := (hC m hm).1
      rw [hd] at this; cases this
    | false =>
      obtain ⟨e, s2, _, hr, _, rfl⟩ := defineRec_ok h hd
      have key : ∀ (L : List Nat) (s s2 : DState), runList (defineRec prog fuel) s L = (s2, none) → Stuck C s → (∀ x ∈ L, ¬C x) ∧ Stuck C s2 := by
        intro L
        induction L with
        | nil => intro s s2 hr hs; cases hr; exact ⟨by simp, hs⟩
        | cons x L ihL =>
          intro s s2 hr hs
          obtain ⟨s1, h1, h2⟩ := runList_cons_ok hr
          obtain ⟨hx, hs1⟩ := ih C s s1 x h1 hs
          obtain ⟨hL, hs2⟩ := ihL s1 s2 h2 hs1
          refine ⟨?_, hs2⟩
          intro y hy
          rcases List.mem_cons.1 hy with rfl | hy
          · exact hx
          · exact hL y hy
      have hcall := stuck_call hC m e
      obtain ⟨hL, hs2⟩ := key _ _ _ hr hcall
      have hm : ¬C m := by
        intro hm
        obtain ⟨_, b, hb, hc⟩ := hcall m hm
        exact hL b hb hc
      refine ⟨hm, ?_⟩
      intro a ha
      have ham : a ≠ m := by rintro rfl; exact hm ha
      obtain ⟨h1, b, hb, hc⟩ := hs2 a ha
      exact ⟨by simpa [DState.setObj, ham] using h1, b, by simpa [DState.setObj, ham] using hb, hc⟩

/-- What a successful run does: `new` are the models whose `define` it has run. -/
structure Out (st st' : DState) (roots new : List Nat) : Prop where
  calls : st'.calls = st.calls ++ new
  nodup : new.Nodup
  undef : ∀ k ∈ new, (st.heap k).defined = false
  deff : ∀ k ∈ new, (st'.heap k).defined = true
  same : ∀ k, k ∉ new → st'.heap k = st.heap k
  good : ∀ k ∈ new, WellDefined (st'.heap k) ∧ ∀ x ∈ (st'.heap k).subs, (st'.heap x).defined = true
  rootsDef : ∀ r ∈ roots, (st'.heap r).defined = true
  top : TopDown st'.heap roots new

theorem Out.keep {st st' : DState} {r n : List Nat} (h : Out st st' r n) {k : Nat} (hk : (st.heap k).defined = true) : st'.heap k = st.heap k := by
  apply h.same
  intro hn
  have := h.undef k hn
  rw [hk] at this; cases this

theorem Out.refl (st : DState) : Out st st [] [] := by
  refine ⟨by simp, by simp, by simp, by simp, by simp, by simp, by simp, ?_⟩
  intro pre m post h
  cases pre <;> cases h

theorem Out.trans {a b c : DState} {r1 r2 n1 n2 : List Nat} (h1 : Out a b r1 n1) (h2 : Out b c r2 n2) : Out a c (r1 ++ r2) (n1 ++ n2) := by
  have hdis : ∀ k ∈ n1, k ∉ n2 := by
    intro k hk hk2
    have e1 := h1.deff k hk
    have e2 := h2.undef k hk2
    rw [e1] at e2; cases e2
  have hkeep : ∀ k, (b.heap k).defined = true → (c.heap k).defined = true := fun k hk => by rw [h2.keep hk]; exact hk
  refine ⟨by rw [h2.calls, h1.calls, List.append_assoc], ?_, ?_, ?_, ?_, ?_, ?_, ?_⟩
  · rw [List.nodup_append]
    refine ⟨h1.nodup, h2.nodup, ?_⟩
    rintro x hx y hy rfl
    exact hdis x hx hy
  · intro k hk
    rcases List.mem_append.1 hk with hk | hk
    · exact h1.undef k hk
    · have := h2.undef k hk
      by_contra hc
      have hc : (a.heap k).defined = true := by simpa using hc
      rw [h1.keep hc, hc] at this; cases this
  · intro k hk
    rcases List.mem_append.1 hk with hk | hk
    · exact hkeep k (h1.deff k hk)
    · exact h2.deff k hk
  · intro k hk
    simp only [List.mem_append, not_or] at hk
    rw [h2.same k hk.2, h1.same k hk.1]
  · intro k hk
    rcases List.mem_append.1 hk with hk | hk
    · rw [h2.keep (h1.deff k hk)]
      exact ⟨(h1.good k hk).1, fun x hx => hkeep x ((h1.good k hk).2 x hx)⟩
    · exact h2.good k hk
  · intro r hr
    rcases List.mem_append.1 hr with hr | hr
    · exact hkeep r (h1.rootsDef r hr)
    · exact h2.rootsDef r hr
  · intro pre m post h
    rw [List.append_eq_append_iff] at h
    rcases h with ⟨as, h3, h4⟩ | ⟨bs, h3, h4⟩
    · -- pre = n1 ++ as
      rcases h2.top as m post h4 with hm | ⟨p, hp, hm⟩
      · left; simp [hm]
      · right; exact ⟨p, by rw [h3]; simp [hp], hm⟩
    · cases bs with
      | nil =>
        simp only [List.append_nil, List.nil_append] at h3 h4
        rcases h2.top [] m post (by rw [← h4]; rfl) with hm | ⟨p, hp, _⟩
        · left; simp [hm]
        · cases hp
      | cons y bs =>
        simp only [List.cons_append, List.cons.injEq] at h4
        obtain ⟨rfl, rfl⟩ := h4
        rcases h1.top pre m bs h3 with hm | ⟨p, hp, hm⟩
        · left; simp [hm]
        · right
          refine ⟨p, hp, ?_⟩
          rw [h2.keep (h1.deff p (by rw [h3]; simp [hp]))]
          exact hm

/-- The models `S` are being defined, and each contains the next one or `m`. -/
def Stack (S : Nat → Prop) (m : Nat) (st : DState) : Prop := ∀ a, S a → (st.heap a).defined = false ∧ ∃ b ∈ (st.heap a).subs, S b ∨ b = m

theorem list_out {f : DState → Nat → DState × Option DErr} {S : Nat → Prop} {m : Nat}
    (ih : ∀ (S : Nat → Prop) (st st' : DState) (m : Nat), f st m = (st', none) → Stack S m st → ∃ new, Out st st' [m] new ∧ ∀ a ∈ new, ¬S a) :
    ∀ (L : List Nat) (s s2 : DState), runList f s L = (s2, none) → Stack S m s → (s.heap m).defined = false →
      (∀ x ∈ L, x ∈ (s.heap m).subs) → ∃ new, Out s s2 L new ∧ ∀ a ∈ new, ¬S a ∧ a ≠ m := by
  intro L
  induction L with
  | nil => intro s s2 hr _ _ _; cases hr; exact ⟨[], Out.refl _, by simp⟩
  | cons x L ihL =>
    intro s s2 hr hs hu hsub
    obtain ⟨s1, h1, h2⟩ := runList_cons_ok hr
    have hstack : Stack (fun a => S a ∨ a = m) x s := by
      rintro a (ha | rfl)
      · obtain ⟨p1, b, p2, p3⟩ := hs a ha
        exact ⟨p1, b, p2, Or.inl p3⟩
      · exact ⟨hu, x, hsub x (by simp), Or.inr rfl⟩
    obtain ⟨n1, o1, d1⟩ := ih _ s s1 x h1 hstack
    have hsame : ∀ a, S a ∨ a = m → s1.heap a = s.heap a := fun a ha => o1.same a (fun hn => d1 a hn ha)
    obtain ⟨n2, o2, d2⟩ := ihL s1 s2 h2 (by
        intro a ha
        rw [hsame a (Or.inl ha)]
        exact hs a ha) (by rw [hsame m (Or.inr rfl)]; exact hu) (by
        intro y hy
        rw [hsame m (Or.inr rfl)]
        exact hsub y (by simp [hy]))
    refine ⟨n1 ++ n2, o1.trans o2, ?_⟩
    intro a ha
    rcases List.mem_append.1 ha with ha | ha
    · have := d1 a ha; simpa [not_or] using this
    · exact d2 a ha

theorem run_out (prog : Prog) (fuel : Nat) : ∀ (S : Nat → Prop) (st st' : DState) (m : Nat), defineRec prog fuel st m = (st', none) → Stack S m st →
    ∃ new, Out st st' [m] new ∧ ∀ a ∈ new, ¬S a := by
  induction fuel with
  | zero => intro S st st' m h _; cases h
  | succ fuel ih =>
    intro S st st' m h hS
    cases hd : (st.heap m).defined with
    | true =>
      obtain ⟨rfl, _⟩ := defineRec_defined h hd
      refine ⟨[], ?_, by simp⟩
      have := Out.refl st'
      exact ⟨this.calls, this.nodup, this.undef, this.deff, this.same, this.good, by simpa using hd, by intro pre m post h; cases pre <;> cases h⟩
    | false =>
      have hmS : ¬S m := by
        intro hm
        have hst : Stuck S st := by
          intro a ha
          obtain ⟨h1, b, hb, hc⟩ := hS a ha
          rcases hc with hc | rfl
          · exact ⟨h1, b, hb, hc⟩
          · exact ⟨h1, b, hb, hm⟩
        exact (stuck_run prog (fuel + 1) S st st' m h hst).1 hm
      obtain ⟨e, s2, _, hr, hw, rfl⟩ := defineRec_ok h hd
      have hheap : ∀ a, a ≠ m → (st.call m e).heap a = st.heap a := fun a ha => by simp [DState.call, ha]
      have hhm : (st.call m e).heap m = (st.heap m).apply e := by simp [DState.call]
      have hSc : Stack S m (st.call m e) := by
        intro a ha
        have ham : a ≠ m := by rintro rfl; exact hmS ha
        rw [hheap a ham]
        exact hS a ha
      obtain ⟨new, o, d⟩ := list_out ih _ _ _ hr hSc (by rw [hhm]; exact hd) (fun x hx => hx)
      have hmn : m ∉ new := fun hn => (d m hn).2 rfl
      have h2m : s2.heap m = (st.call m e).heap m := o.same m hmn
      have hset : ∀ a, a ≠ m → (s2.setObj m { s2.heap m with defined := true }).heap a = s2.heap a := fun a ha => by simp [DState.setObj, ha]
      have hsetm : (s2.setObj m { s2.heap m with defined := true }).heap m = { s2.heap m with defined := true } := by simp [DState.setObj]
      have hdef : ∀ k, (s2.heap k).defined = true → ((s2.setObj m { s2.heap m with defined := true }).heap k).defined = true := by
        intro k hk
        by_cases hkm : k = m
        · subst hkm; rw [hsetm]
        · rw [hset k hkm]; exact hk
      refine ⟨m :: new, ⟨?_, ?_, ?_, ?_, ?_, ?_, ?_, ?_⟩, ?_⟩
      · change s2.calls = _
        rw [o.calls]
        simp [DState.call]
      · exact List.nodup_cons.2 ⟨hmn, o.nodup⟩
      · intro k hk
        rcases List.mem_cons.1 hk with rfl | hk
        · exact hd
        · have hkm := (d k hk).2
          have := o.undef k hk
          rwa [hheap k hkm] at this
      · intro k hk
        rcases List.mem_cons.1 hk with rfl | hk
        · rw [hsetm]
        · exact hdef k (o.deff k hk)
      · intro k hk
        simp only [List.mem_cons, not_or] at hk
        rw [hset k hk.1, o.same k hk.2, hheap k hk.1]
      · intro k hk
        rcases List.mem_cons.1 hk with rfl | hk
        · rw [hsetm]
          refine ⟨⟨hw.nonempty, hw.designVars, hw.concats⟩, ?_⟩
          intro x hx
          apply hdef
          apply o.rootsDef
          rw [← h2m]; exact hx
        · rw [hset k (d k hk).2]
          exact ⟨(o.good k hk).1, fun x hx => hdef x ((o.good k hk).2 x hx)⟩
      · intro r hr
        rw [List.mem_singleton] at hr
        subst hr
        rw [hsetm]
      · intro pre x post hx
        cases pre with
        | nil =>
          simp only [List.nil_append, List.cons.injEq] at hx
          left; simp [hx.1]
        | cons y pre =>
          simp only [List.cons_append, List.cons.injEq] at hx
          obtain ⟨rfl, hx⟩ := hx
          right
          rcases o.top pre x post hx with hm | ⟨p, hp, hm⟩
          · refine ⟨m, by simp, ?_⟩
            rw [hsetm]
            change x ∈ (s2.heap m).subs
            rw [h2m]; exact hm
          · refine ⟨p, by simp [hp], ?_⟩
            rw [hset p (by rintro rfl; exact hmn (by rw [hx]; simp [hp]))]
            exact hm
      · intro a ha
        rcases List.mem_cons.1 ha with rfl | ha
        · exact hmS
        · exact (d a ha).1

/-! ### The theorems -/

/-- The models of the builds of a history. -/
def rootsOf : List UserOp → List Nat
  | [] => []
  | .build r :: ops => r :: rootsOf ops
  | .edit _ _ :: ops => rootsOf ops

theorem hist_out (prog : Prog) (limit : Nat) (rs : List Nat) (st : DState) (h : ∀ o ∈ (hist prog limit st (rs.map .build)).2, o = none) :
    ∃ new, Out st (hist prog limit st (rs.map .build)).1 rs new := by
  induction rs generalizing st with
  | nil => exact ⟨[], Out.refl st⟩
  | cons r rs ih =>
    simp only [List.map_cons, hist, step] at h ⊢
    cases hr : defineRec prog limit st r with
    | mk s1 o =>
      rw [hr] at h
      have ho : o = none := h o (by simp)
      subst ho
      obtain ⟨n1, o1, _⟩ := run_out prog limit (fun _ => False) st s1 r hr (by intro a ha; exact ha.elim)
      obtain ⟨n2, o2⟩ := ih s1 (fun o ho => h o (by simp [ho]))
      exact ⟨n1 ++ n2, o1.trans o2⟩

/-- **C48 (as far as it holds).** Take any `define` methods, any way in which model objects are shared or contain each other, and any number of builds, all of which succeed, starting from models that have not been defined by the library.
Afterwards no `define` has been run twice; `define` has been run exactly once for every model in the hierarchy below a model that was built, and that model is marked as defined, is not empty, has only inputs as design variables and no unassigned
concatenation; every `define` was run after that of a model containing it, except for the models that were built. -/
theorem C48_once_partial (prog : Prog) (limit : Nat) (st : DState) (hf : Fresh st) (rs : List Nat) (h : ∀ o ∈ (hist prog limit st (rs.map .build)).2, o = none) :
    (hist prog limit st (rs.map .build)).1.calls.Nodup ∧
    (∀ r ∈ rs, ∀ m, Below (hist prog limit st (rs.map .build)).1.heap r m →
      (hist prog limit st (rs.map .build)).1.calls.count m = 1 ∧ ((hist prog limit st (rs.map .build)).1.heap m).defined = true ∧ WellDefined ((hist prog limit st (rs.map .build)).1.heap m)) ∧
    TopDown (hist prog limit st (rs.map .build)).1.heap rs (hist prog limit st (rs.map .build)).1.calls := by
  obtain ⟨new, o⟩ := hist_out prog limit rs st h
  generalize (hist prog limit st (rs.map .build)).1 = s' at o ⊢
  have hc : s'.calls = new := by rw [o.calls, hf.1, List.nil_append]
  rw [hc]
  have hin : ∀ k, (s'.heap k).defined = true → k ∈ new := by
    intro k hk
    by_contra hn
    rw [o.same k hn, hf.2 k] at hk
    cases hk
  refine ⟨o.nodup, ?_, o.top⟩
  intro r hr m hb
  have hd : (s'.heap m).defined = true := by
    induction hb with
    | root => exact o.rootsDef r hr
    | sub _ hm ih => exact (o.good _ (hin _ ih)).2 _ hm
  exact ⟨List.count_eq_one_of_mem o.nodup (hin m hd), hd, (o.good m (hin m hd)).1⟩

/-- The loop over the submodels does not change the list it runs over, so that running over the list as it was at the start of the loop (`runList`) and over the list itself (Python) is the same. -/
theorem C48_loop_list (prog : Prog) (limit : Nat) (st s2 : DState) (m : Nat) (hu : (st.heap m).defined = false) (e : Effect)
    (h : runList (defineRec prog limit) (st.call m e) ((st.call m e).heap m).subs = (s2, none)) : (s2.heap m).subs = ((st.call m e).heap m).subs := by
  obtain ⟨new, o, d⟩ := list_out (S := fun _ => False) (m := m) (run_out prog limit) _ _ _ h (by intro a ha; exact ha.elim) (by simpa [DState.call, Obj.apply] using hu) (fun x hx => hx)
  rw [o.same m (fun hm => (d m hm).2 rfl)]

/-! ### Arbitrary histories -/

/-- `b` is a later state than `a`: defined models are untouched, and only undefined ones have been called. -/
structure Later (a b : DState) : Prop where
  keep : ∀ k, (a.heap k).defined = true → (b.heap k).defined = true
  calls : ∃ new, b.calls = a.calls ++ new ∧ ∀ k ∈ new, (a.heap k).defined = false

theorem Later.refl (a : DState) : Later a a := ⟨fun _ h => h, [], by simp, by simp⟩

theorem Later.trans {a b c : DState} (h1 : Later a b) (h2 : Later b c) : Later a c := by
  obtain ⟨k1, n1, e1, u1⟩ := h1
  obtain ⟨k2, n2, e2, u2⟩ := h2
  refine ⟨fun k h => k2 k (k1 k h), n1 ++ n2, by rw [e2, e1, List.append_assoc], ?_⟩
  intro k hk
  rcases List.mem_append.1 hk with hk | hk
  · exact u1 k hk
  · by_contra hc
    have := k1 k (by simpa using hc)
    rw [u2 k hk] at this; cases this

theorem later_list {f : DState → Nat → DState × Option DErr} (hf : ∀ st m, Later st (f st m).1) (L : List Nat) (st : DState) : Later st (runList f st L).1 := by
  induction L generalizing st with
  | nil => exact Later.refl st
  | cons m L ih =>
    rw [runList]
    have := hf st m
    cases hr : f st m with
    | mk s1 o =>
      rw [hr] at this
      cases o with
      | none => exact this.trans (ih s1)
      | some e => exact this

theorem later_call {st : DState} {m : Nat} (hu : (st.heap m).defined = false) (e : Effect) : Later st (st.call m e) := by
  refine ⟨?_, [m], rfl, by simpa using hu⟩
  intro k hk
  by_cases h : k = m
  · subst h; rw [hu] at hk; cases hk
  · simpa [DState.call, h] using hk

theorem later_run (prog : Prog) (fuel : Nat) : ∀ st m, Later st (defineRec prog fuel st m).1 := by
  induction fuel with
  | zero => intro st m; exact Later.refl st
  | succ fuel ih =>
    intro st m
    rw [defineRec]
    split
    · exact Later.refl st
    · rename_i hu
      have hu : (st.heap m).defined = false := by simpa using hu
      cases hp : prog st m with
      | mk e o =>
        cases o with
        | some err => exact later_call hu e
        | none =>
          simp only
          have hl := (later_call hu e).trans (later_list ih ((st.call m e).heap m).subs (st.call m e))
          cases hr : runList (defineRec prog fuel) (st.call m e) ((st.call m e).heap m).subs with
          | mk s2 o2 =>
            rw [hr] at hl
            cases o2 with
            | some err => exact hl
            | none =>
              simp only
              cases checks (s2.heap m) with
              | some err => exact hl
              | none =>
                refine hl.trans ⟨?_, [], by simp [DState.setObj], by simp⟩
                intro k hk
                by_cases hkm : k = m
                · subst hkm; simp [DState.setObj]
                · simpa [DState.setObj, hkm] using hk

theorem later_hist (prog : Prog) (limit : Nat) (ops : List UserOp) (st : DState) : Later st (hist prog limit st ops).1 := by
  induction ops generalizing st with
  | nil => exact Later.refl st
  | cons op ops ih =>
    simp only [hist]
    refine Later.trans ?_ (ih _)
    cases op with
    | build r => exact later_run prog limit st r
    | edit m e =>
      refine ⟨?_, [], by simp [step, DState.setObj], by simp⟩
      intro k hk
      by_cases hkm : k = m
      · subst hkm; simpa [step, DState.setObj, Obj.apply] using hk
      · simpa [step, DState.setObj, hkm] using hk

/-- **C48.** In every history of builds (successful or not) and edits, `define` of a model that is marked as defined is never run again. -/
theorem C48_never_again (prog : Prog) (limit : Nat) (st : DState) (ops : List UserOp) (m : Nat) (h : (st.heap m).defined = true) :
    (hist prog limit st ops).1.calls.count m = st.calls.count m ∧ ((hist prog limit st ops).1.heap m).defined = true := by
  obtain ⟨hk, new, he, hu⟩ := later_hist prog limit ops st
  refine ⟨?_, hk m h⟩
  have hn : m ∉ new := by
    intro hm
    have := hu m hm
    rw [h] at this; cases this
  rw [he, List.count_append, List.count_eq_zero_of_not_mem hn, Nat.add_zero]

/-- **C48.** A model that contains itself, directly or through other models, is never built: if the models `C` are undefined and each contains one of `C`, building any of them raises an exception. -/
theorem C48_cycle (prog : Prog) (limit : Nat) (st : DState) (C : Nat → Prop) (h : ∀ a, C a → (st.heap a).defined = false ∧ ∃ b ∈ (st.heap a).subs, C b) (m : Nat) (hm : C m) :
    ∃ e, (defineRec prog limit st m).2 = some e := by
  cases hr : defineRec prog limit st m with
  | mk s o =>
    cases o with
    | some e => exact ⟨e, rfl⟩
    | none => exact absurd hm (stuck_run prog limit C st s m hr h).1

/-! ### Where the property fails -/

/-- Model 0 adds model 1, which does nothing on its first `define` and creates an input afterwards. -/
def retryProg : Prog := fun st m => if m = 0 then ({ newSubs := if st.calls.contains 0 then [] else [1] }, none) else ({ inputs := if st.calls.contains 1 then ["x".toList] else [] }, none)

/-- Model 0 creates an input; all others do nothing. -/
def editProg : Prog := fun _ m => if m = 0 then ({ inputs := ["x".toList] }, none) else ({}, none)

def freshState : DState := { heap := fun _ => {} }

/-- **C48 is false as stated**: after a build that failed, `define` of model 0 is run a second time by the next build, which succeeds; and a submodel that is added to a model after a build is not defined by the next build, although that build succeeds. -/
theorem C48_refuted :
    (Fresh freshState ∧ (hist retryProg 1000 freshState [.build 0, .build 0]).2 = [some .value, none] ∧ (hist retryProg 1000 freshState [.build 0, .build 0]).1.calls.count 0 = 2) ∧
    ((hist editProg 1000 freshState [.build 0, .edit 0 { inputs := ["x".toList], newSubs := [7] }, .build 0]).2 = [none, none, none] ∧
      7 ∈ ((hist editProg 1000 freshState [.build 0, .edit 0 { inputs := ["x".toList], newSubs := [7] }, .build 0]).1.heap 0).subs ∧
      ((hist editProg 1000 freshState [.build 0, .edit 0 { inputs := ["x".toList], newSubs := [7] }, .build 0]).1.heap 7).defined = false) := by
  refine ⟨⟨⟨rfl, fun _ => rfl⟩, by decide, by decide⟩, by decide, by decide, by decide⟩

/-- A model 0 with the submodels 1 and 2, which share the submodel 3. -/
def diamondProg : Prog := fun _ m =>
  if m = 0 then ({ newSubs := [1, 2] }, none) else if m = 3 then ({ outputs := [("y".toList, some true)], inputs := ["x".toList], designVars := ["x".toList] }, none) else ({ newSubs := [3] }, none)

/-- non-vacuity of C48: a shared submodel, built twice. -/
example : Fresh freshState ∧ (hist diamondProg 1000 freshState [.build 0, .build 0]).2 = [none, none] ∧ (hist diamondProg 1000 freshState [.build 0, .build 0]).1.calls = [0, 1, 3, 2] := by
  refine ⟨⟨rfl, fun _ => rfl⟩, by decide, by decide⟩

end Csdl.Define
