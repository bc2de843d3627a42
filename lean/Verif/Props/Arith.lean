import Verif.Spec.Arith
import Mathlib.Algebra.Field.Basic
import Mathlib.Algebra.Field.Rat
import Mathlib.Tactic.Ring
import Mathlib.Data.List.Induction
/-
C41 (arithmetic on variables means arithmetic), C42 (standard operations have pairwise distinct arguments).
-/
namespace Csdl.Arith
open Csdl

section Eval
variable {K : Type} [Field K] (P : Power K) (given : Nat → Val K)

theorem evalHeap_snoc (h : Heap K) (e : Entry K) : evalHeap P given (h ++ [e]) = evalHeap P given h ++ [e.eval P given (evalHeap P given h)] := by
  simp [evalHeap, List.foldl_append]

theorem evalHeap_append (h t : Heap K) : evalHeap P given h <+: evalHeap P given (h ++ t) := by
  induction t generalizing h with
  | nil => simp
  | cons e t ih =>
    have := ih (h ++ [e])
    rw [List.append_assoc, List.singleton_append] at this
    refine List.IsPrefix.trans ?_ this
    rw [evalHeap_snoc]
    exact List.prefix_append _ _

theorem length_evalHeap (h : Heap K) : (evalHeap P given h).length = h.length := by
  have : ∀ (t : Heap K) (acc : List (Val K)), (t.foldl (fun vals e => vals ++ [e.eval P given vals]) acc).length = acc.length + t.length := by
    intro t
    induction t with
    | nil => intro acc; simp
    | cons e t ih => intro acc; simp only [List.foldl_cons, ih, List.length_append, List.length_cons, List.length_nil]; omega
  simpa [evalHeap] using this h []

theorem getD_prefix {α : Type} {l l' : List α} (h : l <+: l') (i : Nat) (hi : i < l.length) (d : α) : l'.getD i d = l.getD i d := by
  obtain ⟨t, rfl⟩ := h
  simp [List.getD_eq_getElem?_getD, List.getElem?_append_left hi]

theorem value_prefix {h h' : Heap K} (hp : h <+: h') (v : Nat) (hv : v < h.length) : value P given h' v = value P given h v := by
  obtain ⟨t, rfl⟩ := hp
  exact getD_prefix (evalHeap_append P given h t) v (by rw [length_evalHeap]; exact hv) _

theorem shapeOf_prefix {K : Type} {h h' : Heap K} (hp : h <+: h') (v : Nat) (hv : v < h.length) : shapeOf h' v = shapeOf h v := by
  obtain ⟨t, rfl⟩ := hp
  simp [shapeOf, List.getElem?_append_left hv]

theorem newVar_shape {K : Type} (h : Heap K) (k : OpKind K) (deps : List Nat) : shapeOf (newVar h k deps).1 (newVar h k deps).2 = shapeOf h (deps.headD 0) := by
  simp [newVar, shapeOf]

theorem newVar_value (h : Heap K) (k : OpKind K) (deps : List Nat) :
    value P given (newVar h k deps).1 (newVar h k deps).2 = k.eval P (deps.map (value P given h)) := by
  simp only [newVar, value, evalHeap_snoc, List.getD_eq_getElem?_getD]
  rw [List.getElem?_append_right (by rw [length_evalHeap])]
  simp only [length_evalHeap, Nat.sub_self, List.getElem?_cons_zero, Option.getD_some, Entry.eval]
  rfl

theorem newVar_prefix {K : Type} (h : Heap K) (k : OpKind K) (deps : List Nat) : h <+: (newVar h k deps).1 := List.prefix_append _ _

theorem newVar_lt {K : Type} (h : Heap K) (k : OpKind K) (deps : List Nat) : (newVar h k deps).2 < (newVar h k deps).1.length := by simp [newVar]

theorem copy_value (h : Heap K) (a : Nat) :
    value P given (newVar h (.pow (fun _ => 1) (.one fun _ => 1)) [a]).1 (newVar h (.pow (fun _ => 1) (.one fun _ => 1)) [a]).2 = value P given h a := by
  rw [newVar_value]
  funext i
  simp [OpKind.eval, Lit.expand, P.one]

end Eval

/-! ### C42 -/

section C42
variable {K : Type} [Field K]

/-- what is known about the arguments after copying -/
structure DedupSpec (P : Power K) (given : Nat → Val K) (h : Heap K) (seen args : List Nat) (h' : Heap K) (deps : List Nat) : Prop where
  pre : h <+: h'
  len : deps.length = args.length
  nodup : deps.Nodup
  fresh : ∀ d ∈ deps, d ∉ seen
  lt : ∀ d ∈ deps, d < h'.length
  val : deps.map (value P given h') = args.map (value P given h)
  shp : deps.map (shapeOf h') = args.map (shapeOf h)

theorem dedup_spec (P : Power K) (given : Nat → Val K) (args : List Nat) : ∀ (h : Heap K) (seen : List Nat), (∀ a ∈ args, a < h.length) → (∀ a ∈ seen, a < h.length) →
    DedupSpec P given h seen args (dedupArgs h seen args).1 (dedupArgs h seen args).2 := by
  induction args with
  | nil => intro h seen _ _; simp only [dedupArgs]; constructor <;> simp
  | cons a as ih =>
    intro h seen ha hs
    have ha0 : a < h.length := ha a (by simp)
    have has : ∀ x ∈ as, x < h.length := fun x hx => ha x (by simp [hx])
    rw [dedupArgs]
    split
    · rename_i hmem
      simp only
      set r := newVar h (.pow (fun _ => 1) (.one fun _ => 1)) [a] with hr
      have hp : h <+: r.1 := newVar_prefix _ _ _
      have hle := hp.length_le
      have hr2 : r.2 = h.length := rfl
      have hlt : r.2 < r.1.length := newVar_lt _ _ _
      obtain ⟨pre, len, nodup, fresh, lt, val, shp⟩ := ih r.1 (r.2 :: seen) (fun x hx => by have := has x hx; omega)
        (fun x hx => by rcases List.mem_cons.1 hx with rfl | hx; exact hlt; have := hs x hx; omega)
      refine ⟨hp.trans pre, by simp [len], List.nodup_cons.2 ⟨fun hh => fresh _ hh (by simp), nodup⟩, ?_, ?_, ?_, ?_⟩
      · intro d hd
        rcases List.mem_cons.1 hd with rfl | hd
        · intro hh; have := hs _ hh; omega
        · intro hh; exact fresh d hd (by simp [hh])
      · intro d hd
        rcases List.mem_cons.1 hd with rfl | hd
        · have := pre.length_le; omega
        · exact lt d hd
      · rw [List.map_cons, List.map_cons, val, value_prefix P given pre _ hlt, hr, copy_value]
        congr 1
        exact List.map_congr_left fun x hx => value_prefix P given hp x (has x hx)
      · rw [List.map_cons, List.map_cons, shp, shapeOf_prefix pre _ hlt, hr, newVar_shape]
        congr 1
        exact List.map_congr_left fun x hx => shapeOf_prefix hp x (has x hx)
    · rename_i hmem
      simp only
      obtain ⟨pre, len, nodup, fresh, lt, val, shp⟩ := ih h (a :: seen) has (fun x hx => by rcases List.mem_cons.1 hx with rfl | hx; exact ha0; exact hs x hx)
      refine ⟨pre, by simp [len], List.nodup_cons.2 ⟨fun hh => fresh _ hh (by simp), nodup⟩, ?_, ?_, ?_, ?_⟩
      · intro d hd
        rcases List.mem_cons.1 hd with rfl | hd
        · exact hmem
        · intro hh; exact fresh d hd (by simp [hh])
      · intro d hd
        rcases List.mem_cons.1 hd with rfl | hd
        · have := pre.length_le; omega
        · exact lt d hd
      · rw [List.map_cons, List.map_cons, val, value_prefix P given pre _ ha0]
      · rw [List.map_cons, List.map_cons, shp, shapeOf_prefix pre _ ha0]

theorem dedup_id (args : List Nat) : ∀ (h : Heap K) (seen : List Nat), args.Nodup → (∀ a ∈ args, a ∉ seen) → dedupArgs h seen args = (h, args) := by
  induction args with
  | nil => intro h seen _ _; rfl
  | cons a as ih =>
    intro h seen hn hs
    rw [dedupArgs, if_neg (hs a (by simp)), ih h _ hn.of_cons (fun x hx => by
      rw [List.mem_cons, not_or]
      exact ⟨fun hh => (List.nodup_cons.1 hn).1 (hh ▸ hx), hs x (by simp [hx])⟩)]

/-- **C42.** Whatever arguments a standard operation is given (variables that exist), its dependencies are as many, pairwise distinct, exist, and the i-th dependency has the value and the shape of the i-th argument;
the variables that existed keep value and shape. -/
theorem C42_distinct_arguments (P : Power K) (given : Nat → Val K) (h : Heap K) (args : List Nat) (ha : ∀ a ∈ args, a < h.length) :
    let r := dedupArgs h [] args
    r.2.length = args.length ∧ r.2.Nodup ∧ (∀ d ∈ r.2, d < r.1.length) ∧
    (∀ i a d : Nat, args[i]? = some a → r.2[i]? = some d → value P given r.1 d = value P given h a ∧ shapeOf r.1 d = shapeOf h a) ∧
    (∀ v < h.length, value P given r.1 v = value P given h v ∧ shapeOf r.1 v = shapeOf h v) := by
  have s := dedup_spec P given args h [] ha (by simp)
  refine ⟨s.len, s.nodup, s.lt, ?_, fun v hv => ⟨value_prefix P given s.pre v hv, shapeOf_prefix s.pre v hv⟩⟩
  intro i a d hi hd
  have h1 := congrArg (·[i]?) s.val
  have h2 := congrArg (·[i]?) s.shp
  simp only [List.getElem?_map, hi, hd, Option.map_some, Option.some.injEq] at h1 h2
  exact ⟨h1, h2⟩

/-- **C42.** Distinct arguments are the dependencies themselves; nothing is copied. -/
theorem C42_no_copies (h : Heap K) (args : List Nat) (hn : args.Nodup) : dedupArgs h [] args = (h, args) :=
  dedup_id args h [] hn (by simp)

end C42

/-- non-vacuity of C42: `x, y, x, x` become `x, y, x*1, x*1`. -/
example : (dedupArgs ([⟨[2], none⟩, ⟨[3], none⟩] : Heap ℚ) [] [0, 1, 0, 0]).2 = [0, 1, 2, 3] := by decide

/-! ### C41 -/

section C41
variable {K : Type} [Field K]

theorem all_eq_head {K : Type} (h : Heap K) (l : List Nat) (ss : List Shape) (hl : l.map (shapeOf h) = ss) :
    l.all (fun d => shapeOf h d = shapeOf h (l.headD 0)) = true ↔ ∀ s ∈ ss, s = ss.headD [] := by
  subst hl
  cases l with
  | nil => simp
  | cons a l => simp

theorem newOp_spec (P : Power K) (given : Nat → Val K) (h : Heap K) (k : OpKind K) (args : List Nat) (ha : ∀ a ∈ args, a < h.length) (hne : args ≠ []) :
    (newOp h k args = .error .shape ∧ ∃ a ∈ args, shapeOf h a ≠ shapeOf h (args.headD 0)) ∨
    ∃ h' v, newOp h k args = .ok (h', v) ∧ h <+: h' ∧ v < h'.length ∧ value P given h' v = k.eval P (args.map (value P given h)) ∧
      shapeOf h' v = shapeOf h (args.headD 0) ∧ ∀ a ∈ args, shapeOf h a = shapeOf h (args.headD 0) := by
  have s := dedup_spec P given args h [] ha (by simp)
  have hh := all_eq_head _ _ _ s.shp
  have hd : (args.map (shapeOf h)).headD [] = shapeOf h (args.headD 0) := by cases args with
    | nil => exact absurd rfl hne
    | cons => rfl
  rw [hd] at hh
  unfold newOp
  simp only
  split
  · rename_i hc
    right
    refine ⟨_, _, rfl, s.pre.trans (newVar_prefix _ _ _), newVar_lt _ _ _, ?_, ?_, ?_⟩
    · exact (newVar_value P given _ k _).trans (by rw [s.val])
    · refine (newVar_shape _ k _).trans ?_
      have := congrArg (fun l => l.headD []) s.shp
      simp only [hd] at this
      rw [← this]
      cases hdd : (dedupArgs h [] args).2 with
      | nil => have := s.len; rw [hdd] at this; cases args with
        | nil => exact absurd rfl hne
        | cons => simp at this
      | cons => rfl
    · intro a haa
      exact hh.1 hc _ (List.mem_map_of_mem haa)
  · rename_i hc
    left
    refine ⟨rfl, ?_⟩
    by_contra hcon
    push Not at hcon
    apply hc
    refine hh.2 fun s hs => ?_
    obtain ⟨a, haa, rfl⟩ := List.mem_map.1 hs
    exact hcon a haa

variable [DecidableEq K]

theorem exec_spec (P : Power K) (given : Nat → Val K) (h : Heap K) (env : List Nat) (i : Instr K) (henv : ∀ v ∈ env, v < h.length)
    (hf : i.first < env.length) (ho : ∀ y ∈ i.others, y < env.length) :
    ((exec h env i = .error .shape ∨ exec h env i = .error .zeroDiv) ∧
      ((∃ y ∈ i.others, shapeOf h (env.getD y 0) ≠ shapeOf h (env.getD i.first 0)) ∨ i.DivZero)) ∨
    ∃ h' v, exec h env i = .ok (h', v) ∧ h <+: h' ∧ v < h'.length ∧ value P given h' v = i.meaning P (env.map (value P given h)) ∧
      shapeOf h' v = shapeOf h (env.getD i.first 0) ∧ (∀ y ∈ i.others, shapeOf h (env.getD y 0) = shapeOf h (env.getD i.first 0)) ∧ ¬i.DivZero := by
  have hget : ∀ x < env.length, env.getD x 0 < h.length := fun x hx => by
    rw [List.getD_eq_getElem?_getD, List.getElem?_eq_getElem hx]; exact henv _ (List.getElem_mem hx)
  have hval : ∀ x < env.length, (env.map (value P given h)).getD x (fun _ => 0) = value P given h (env.getD x 0) := fun x hx => by
    simp [List.getD_eq_getElem?_getD, List.getElem?_eq_getElem hx]
  have unary : ∀ (k : OpKind K) (x : Nat), x < env.length → ∃ h' v, newOp h k [env.getD x 0] = .ok (h', v) ∧ h <+: h' ∧ v < h'.length ∧
      value P given h' v = k.eval P [(env.map (value P given h)).getD x (fun _ => 0)] ∧ shapeOf h' v = shapeOf h (env.getD x 0) := by
    intro k x hx
    rcases newOp_spec P given h k [env.getD x 0] (by simpa using hget x hx) (by simp) with ⟨_, a, ha, hne⟩ | ⟨h', v, e, p, l, vv, s, _⟩
    · simp only [List.mem_singleton] at ha
      subst ha; exact absurd rfl hne
    · exact ⟨h', v, e, p, l, by rw [vv, List.map_singleton, hval x hx], s⟩
  have binary : ∀ (k : OpKind K) (x y : Nat), x < env.length → y < env.length →
      (newOp h k [env.getD x 0, env.getD y 0] = .error .shape ∧ shapeOf h (env.getD y 0) ≠ shapeOf h (env.getD x 0)) ∨
      ∃ h' v, newOp h k [env.getD x 0, env.getD y 0] = .ok (h', v) ∧ h <+: h' ∧ v < h'.length ∧
      value P given h' v = k.eval P [(env.map (value P given h)).getD x (fun _ => 0), (env.map (value P given h)).getD y (fun _ => 0)] ∧
      shapeOf h' v = shapeOf h (env.getD x 0) ∧ shapeOf h (env.getD y 0) = shapeOf h (env.getD x 0) := by
    intro k x y hx hy
    rcases newOp_spec P given h k [env.getD x 0, env.getD y 0] (by
        intro a ha; simp only [List.mem_cons, List.not_mem_nil, or_false] at ha
        rcases ha with rfl | rfl
        · exact hget x hx
        · exact hget y hy) (by simp) with ⟨e, a, ha, hne⟩ | ⟨h', v, e, p, l, vv, s, al⟩
    · left
      refine ⟨e, ?_⟩
      simp only [List.mem_cons, List.not_mem_nil, or_false] at ha
      rcases ha with rfl | rfl
      · exact absurd rfl hne
      · exact hne
    · right
      exact ⟨h', v, e, p, l, by rw [vv, List.map_cons, List.map_singleton, hval x hx, hval y hy], s, al _ (by simp)⟩
  have finU : ∀ (k : OpKind K) (x : Nat) (m : Val K), x < env.length → (k.eval P [(env.map (value P given h)).getD x (fun _ => 0)] = m) →
      ∃ h' v, newOp h k [env.getD x 0] = .ok (h', v) ∧ h <+: h' ∧ v < h'.length ∧ value P given h' v = m ∧ shapeOf h' v = shapeOf h (env.getD x 0) := by
    intro k x m hx hm
    obtain ⟨h', v, a, b, c, d, e⟩ := unary k x hx
    exact ⟨h', v, a, b, c, d.trans hm, e⟩
  have fin1 : ∀ (i : Instr K) (k : OpKind K) , i.first < env.length → i.others = [] → ¬i.DivZero → exec h env i = newOp h k [env.getD i.first 0] →
      (k.eval P [(env.map (value P given h)).getD i.first (fun _ => 0)] = i.meaning P (env.map (value P given h))) →
      ∃ h' v, exec h env i = .ok (h', v) ∧ h <+: h' ∧ v < h'.length ∧ value P given h' v = i.meaning P (env.map (value P given h)) ∧
      shapeOf h' v = shapeOf h (env.getD i.first 0) ∧ (∀ y ∈ i.others, shapeOf h (env.getD y 0) = shapeOf h (env.getD i.first 0)) ∧ ¬i.DivZero := by
    intro i k hx ho hz he hm
    obtain ⟨h', v, a, b, c, d, e⟩ := finU k i.first _ hx hm
    exact ⟨h', v, he.trans a, b, c, d, e, by rw [ho]; simp, hz⟩
  have fin2 : ∀ (i : Instr K) (k : OpKind K) (y : Nat), i.first < env.length → y < env.length → i.others = [y] → ¬i.DivZero →
      exec h env i = newOp h k [env.getD i.first 0, env.getD y 0] →
      (k.eval P [(env.map (value P given h)).getD i.first (fun _ => 0), (env.map (value P given h)).getD y (fun _ => 0)] = i.meaning P (env.map (value P given h))) →
      ((exec h env i = .error .shape ∨ exec h env i = .error .zeroDiv) ∧
        ((∃ y ∈ i.others, shapeOf h (env.getD y 0) ≠ shapeOf h (env.getD i.first 0)) ∨ i.DivZero)) ∨
      ∃ h' v, exec h env i = .ok (h', v) ∧ h <+: h' ∧ v < h'.length ∧ value P given h' v = i.meaning P (env.map (value P given h)) ∧
      shapeOf h' v = shapeOf h (env.getD i.first 0) ∧ (∀ y ∈ i.others, shapeOf h (env.getD y 0) = shapeOf h (env.getD i.first 0)) ∧ ¬i.DivZero := by
    intro i k y hx hy ho hz he hm
    rcases binary k i.first y hx hy with ⟨e, hne⟩ | ⟨h', v, a, b, c, d, e, f⟩
    · left; exact ⟨Or.inl (he.trans e), Or.inl ⟨y, by simp [ho], hne⟩⟩
    · right; exact ⟨h', v, he.trans a, b, c, d.trans hm, e, by rw [ho]; simpa using f, hz⟩
  cases i with
  | pos x =>
    right
    exact ⟨h, env.getD x 0, rfl, List.prefix_rfl, hget x hf, by simp only [Instr.meaning]; rw [← hval x hf], rfl, by simp [Instr.others], fun hh => hh⟩
  | neg x => right; refine fin1 (.neg x) _ hf rfl (fun hh => hh) rfl ?_; funext j; simp [OpKind.eval, Lit.expand, Instr.meaning, Instr.first]
  | add x y => refine fin2 (.add x y) _ y hf (ho y (by simp [Instr.others])) rfl (fun hh => hh) rfl ?_; funext j; simp [OpKind.eval, Lit.expand, Instr.meaning, Instr.first, List.replicate]
  | addc x c => right; refine fin1 (.addc x c) _ hf rfl (fun hh => hh) rfl ?_; funext j; simp [OpKind.eval, Lit.expand, Instr.meaning, Instr.first]; ring
  | sub x y => refine fin2 (.sub x y) _ y hf (ho y (by simp [Instr.others])) rfl (fun hh => hh) rfl ?_; funext j; simp [OpKind.eval, Lit.expand, Instr.meaning, Instr.first]; ring
  | subc x c => right; refine fin1 (.subc x c) _ hf rfl (fun hh => hh) rfl ?_; funext j; simp [OpKind.eval, Lit.expand, Instr.meaning, Instr.first]; ring
  | rsubc c x => right; refine fin1 (.rsubc c x) _ hf rfl (fun hh => hh) rfl ?_; funext j; simp [OpKind.eval, Lit.expand, Instr.meaning, Instr.first]; ring
  | mul x y => refine fin2 (.mul x y) _ y hf (ho y (by simp [Instr.others])) rfl (fun hh => hh) rfl ?_; funext j; simp [OpKind.eval, Lit.expand, Instr.meaning, Instr.first, List.replicate, P.one]
  | mulc x c => right; refine fin1 (.mulc x c) _ hf rfl (fun hh => hh) rfl ?_; funext j; simp [OpKind.eval, Lit.expand, Instr.meaning, Instr.first, P.one]; ring
  | div x y =>
    refine fin2 (.div x y) _ y hf (ho y (by simp [Instr.others])) rfl (fun hh => hh) rfl ?_
    funext j; simp [OpKind.eval, Lit.expand, Instr.meaning, Instr.first, P.one, P.neg_one, div_eq_mul_inv]
  | divc x c =>
    cases c with
    | num c =>
      by_cases hc : c = 0
      · left
        exact ⟨Or.inr (by simp [exec, recip, hc]; rfl), Or.inr hc⟩
      · right
        refine fin1 (.divc x (.num c)) (.pow (fun _ => 1 / c) (.one fun _ => 1)) hf rfl hc (by simp [exec, recip, hc]; rfl) ?_
        funext j; simp [OpKind.eval, Lit.expand, Instr.meaning, Instr.first, P.one, Const.val]; ring
    | arr s a =>
      right
      refine fin1 (.divc x (.arr s a)) (.pow (fun i => 1 / a i) (.one fun _ => 1)) hf rfl (fun hh => hh) rfl ?_
      funext j; simp [OpKind.eval, Lit.expand, Instr.meaning, Instr.first, P.one, Const.val]; ring
  | rdivc c x => right; refine fin1 (.rdivc c x) _ hf rfl (fun hh => hh) rfl ?_; funext j; simp [OpKind.eval, Lit.expand, Instr.meaning, Instr.first, P.neg_one, div_eq_mul_inv]
  | powc x c => right; refine fin1 (.powc x c) _ hf rfl (fun hh => hh) rfl ?_; funext j; simp [OpKind.eval, Lit.expand, Instr.meaning, Instr.first]

theorem getD_map_lt {α β : Type} (f : α → β) (l : List α) (x : Nat) (hx : x < l.length) (d : α) (e : β) : (l.map f).getD x e = f (l.getD x d) := by
  simp [List.getD_eq_getElem?_getD, List.getElem?_eq_getElem hx]

/-- everything about a program -/
theorem build_spec (P : Power K) (given : Nat → Val K) (is : List (Instr K)) : ∀ (h : Heap K) (env : List Nat), (∀ v ∈ env, v < h.length) → Scoped env.length is →
    ((∃ e, build h env is = .error e) ∧ ¬Accepts (env.map (shapeOf h)) is) ∨
    ∃ h' env', build h env is = .ok (h', env') ∧ Accepts (env.map (shapeOf h)) is ∧ h <+: h' ∧ env <+: env' ∧ (∀ v ∈ env', v < h'.length) ∧
      env'.map (value P given h') = meaning P (env.map (value P given h)) is ∧ env'.map (shapeOf h') = shapes (env.map (shapeOf h)) is := by
  induction is with
  | nil => intro h env hv _; right; exact ⟨h, env, rfl, trivial, List.prefix_rfl, List.prefix_rfl, hv, rfl, rfl⟩
  | cons i is ih =>
    intro h env hv ⟨hf, ho, hs⟩
    have e1 : (env.map (shapeOf h)).getD i.first [] = shapeOf h (env.getD i.first 0) := getD_map_lt _ _ _ hf _ _
    have e2 : ∀ y ∈ i.others, (env.map (shapeOf h)).getD y [] = shapeOf h (env.getD y 0) := fun y hy => getD_map_lt _ _ _ (ho y hy) _ _
    rcases exec_spec P given h env i hv hf ho with ⟨he, hbad⟩ | ⟨h1, v, he, hp, hlt, hval, hsh, hoth, hz⟩
    · left
      refine ⟨?_, ?_⟩
      · rcases he with he | he
        · exact ⟨_, by rw [build, he]⟩
        · exact ⟨_, by rw [build, he]⟩
      · rintro ⟨a, b, _⟩
        rcases hbad with ⟨y, hy, hne⟩ | hd
        · exact hne (by rw [← e2 y hy, ← e1]; exact a y hy)
        · exact b hd
    · have hv1 : ∀ w ∈ env ++ [v], w < h1.length := by
        intro w hw
        rcases List.mem_append.1 hw with hw | hw
        · have := hv w hw; have := hp.length_le; omega
        · simp only [List.mem_singleton] at hw; subst hw; exact hlt
      have hval1 : (env ++ [v]).map (value P given h1) = env.map (value P given h) ++ [i.meaning P (env.map (value P given h))] := by
        rw [List.map_append, List.map_singleton, hval]
        congr 1
        exact List.map_congr_left fun w hw => value_prefix P given hp w (hv w hw)
      have hsh1 : (env ++ [v]).map (shapeOf h1) = env.map (shapeOf h) ++ [(env.map (shapeOf h)).getD i.first []] := by
        rw [List.map_append, List.map_singleton, hsh, e1]
        congr 1
        exact List.map_congr_left fun w hw => shapeOf_prefix hp w (hv w hw)
      have hb : build h env (i :: is) = build h1 (env ++ [v]) is := by rw [build, he]
      rw [hb]
      rcases ih h1 (env ++ [v]) hv1 (by simpa using hs) with ⟨e, hn⟩ | ⟨h', env', eq, acc, p, pe, l, vv, ss⟩
      · left
        refine ⟨e, fun hacc => hn ?_⟩
        rw [hsh1]; exact hacc.2.2
      · right
        refine ⟨h', env', eq, ⟨?_, hz, by rw [← hsh1]; exact acc⟩, hp.trans p, (List.prefix_append _ _).trans pe, l, ?_, ?_⟩
        · intro y hy; rw [e2 y hy, e1]; exact hoth y hy
        · rw [vv, hval1]; rfl
        · rw [ss, hsh1]; rfl

/-- **C41.** Let any graph have been built, and let a sequence of operators be applied to its variables, numbers and arrays, each to earlier results too (any expression, any sharing, repeated
operands).  If the construction succeeds, evaluating the new graph operation by operation gives for every result the value of the arithmetic expression, and for the old variables the old values. -/
theorem C41_values (P : Power K) (given : Nat → Val K) (h : Heap K) (env : List Nat) (is : List (Instr K)) (hv : ∀ v ∈ env, v < h.length) (hs : Scoped env.length is)
    {h' : Heap K} {env' : List Nat} (hb : build h env is = .ok (h', env')) :
    env'.map (value P given h') = meaning P (env.map (value P given h)) is ∧ ∀ v < h.length, value P given h' v = value P given h v := by
  rcases build_spec P given is h env hv hs with ⟨⟨e, he⟩, _⟩ | ⟨a, b, he, _, hp, _, _, hval, _⟩
  · rw [hb] at he; cases he
  · rw [hb] at he; cases he
    exact ⟨hval, fun v => value_prefix P given hp v⟩

/-- **C41.** Every result has the shape of the first variable operand of its operator. -/
theorem C41_shapes (P : Power K) (h : Heap K) (env : List Nat) (is : List (Instr K)) (hv : ∀ v ∈ env, v < h.length) (hs : Scoped env.length is)
    {h' : Heap K} {env' : List Nat} (hb : build h env is = .ok (h', env')) : env'.map (shapeOf h') = shapes (env.map (shapeOf h)) is := by
  rcases build_spec P (fun _ _ => 0) is h env hv hs with ⟨⟨e, he⟩, _⟩ | ⟨a, b, he, _, hp, _, _, _, hsh⟩
  · rw [hb] at he; cases he
  · rw [hb] at he; cases he
    exact hsh

/-- **C41.** The construction succeeds exactly when the variable operands of every operator have equal shapes and nothing is divided by the number zero. -/
theorem C41_accepted_iff (P : Power K) (h : Heap K) (env : List Nat) (is : List (Instr K)) (hv : ∀ v ∈ env, v < h.length) (hs : Scoped env.length is) :
    (∃ r, build h env is = .ok r) ↔ Accepts (env.map (shapeOf h)) is := by
  rcases build_spec P (fun _ _ => 0) is h env hv hs with ⟨⟨e, he⟩, hn⟩ | ⟨a, b, he, hacc, _⟩
  · exact ⟨fun ⟨r, hr⟩ => (by rw [he] at hr; cases hr), fun hh => absurd hh hn⟩
  · exact ⟨fun _ => hacc, fun _ => ⟨_, he⟩⟩

/-- The inputs of a model as a graph. -/
def inputs (ss : List Shape) : Heap K := ss.map fun s => ⟨s, none⟩

theorem evalHeap_inputs (P : Power K) (given : Nat → Val K) (ss : List Shape) : evalHeap P given (inputs ss) = (List.range ss.length).map given := by
  induction ss using List.reverseRecOn with
  | nil => rfl
  | append_singleton ss s ih =>
    have : inputs (K := K) (ss ++ [s]) = inputs ss ++ [⟨s, none⟩] := by simp [inputs]
    rw [this, evalHeap_snoc, ih, List.length_append, List.length_singleton, List.range_succ, List.map_append]
    simp [Entry.eval]

/-- **C41.** For an expression over inputs `0, …, n-1`: the results are the inputs followed by the meaning of each operator. -/
theorem C41_expression (P : Power K) (given : Nat → Val K) (ss : List Shape) (is : List (Instr K)) (hs : Scoped ss.length is)
    {h' : Heap K} {env' : List Nat} (hb : build (inputs ss) (List.range ss.length) is = .ok (h', env')) :
    env'.map (value P given h') = meaning P ((List.range ss.length).map given) is := by
  have := (C41_values P given (inputs ss) (List.range ss.length) is (by simp [inputs]) (by simpa using hs) hb).1
  rw [this]
  congr 1
  apply List.map_congr_left
  intro v hv
  rw [value, evalHeap_inputs, getD_map_lt given _ v (by simpa using hv) 0]
  have hv' : v < ss.length := by simpa using hv
  congr 1
  simp [List.getD_eq_getElem?_getD, hv']

end C41

/-- A power function on the rationals that satisfies the two laws. -/
def ratPower : Power ℚ where
  pow x p := if p = 1 then x else if p = -1 then x⁻¹ else if p = 2 then x * x else 0
  one := by intro x; simp
  neg_one := by intro x; rw [if_neg (by decide), if_pos rfl]

/-- non-vacuity of C41: `(x*x - y) / x + 3` over inputs of shape `(2,)`; the copy `x*1` is variable 2. -/
example : Scoped (K := ℚ) 2 [.mul 0 0, .sub 2 1, .div 3 0, .addc 4 (.num 3)] ∧
    Accepts (K := ℚ) [[2], [2]] [.mul 0 0, .sub 2 1, .div 3 0, .addc 4 (.num 3)] ∧
    (build (inputs [[2], [2]] : Heap ℚ) [0, 1] [.mul 0 0, .sub 2 1, .div 3 0, .addc 4 (.num 3)]).toOption.map (·.2) = some [0, 1, 3, 4, 5, 6] := by
  refine ⟨by simp [Scoped, Instr.first, Instr.others], by simp [Accepts, Instr.first, Instr.others, Instr.DivZero], by decide⟩

/-- operands of different shapes are refused -/
example : ¬Accepts (K := ℚ) [[2], [3]] [.add 0 1] := by simp [Accepts, Instr.first, Instr.others]

/-! ### C55 -/

theorem bcastRev_self (s : Shape) : bcastRev s s = some s := by
  induction s with
  | nil => rfl
  | cons n s ih => simp [bcastRev, bcastAxis, ih]

theorem bcast_self (s : Shape) : bcast s s = some s := by simp [bcast, bcastRev_self]

/-- **C55 (as far as it holds).** An operator with a constant array that broadcasts to the shape of the variable (in particular one of the same shape) gives NumPy's result shape. -/
theorem C55_array_operand_partial {K : Type} [Field K] [DecidableEq K] (P : Power K) (h : Heap K) (env : List Nat) (i : Instr K) (a : Val K) (sa : Shape) (hv : ∀ v ∈ env, v < h.length)
    (hf : i.first < env.length) (hc : i.const = some (.arr sa a)) (hb : bcast (shapeOf h (env.getD i.first 0)) sa = some (shapeOf h (env.getD i.first 0))) :
    ∃ h' v, exec h env i = .ok (h', v) ∧ bcast (shapeOf h (env.getD i.first 0)) sa = some (shapeOf h' v) := by
  have ho : i.others = [] := by cases i <;> first | rfl | cases hc
  have hz : ¬i.DivZero := by
    cases i <;> try exact fun hh => hh
    rename_i x c
    cases hc
    exact fun hh => hh
  rcases exec_spec P (fun _ _ => 0) h env i hv hf (by rw [ho]; simp) with ⟨_, ⟨y, hy, _⟩ | hd⟩ | ⟨h', v, e, _, _, _, hs, _⟩
  · rw [ho] at hy; cases hy
  · exact absurd hd hz
  · exact ⟨h', v, e, by rw [hs]; exact hb⟩

/-- non-vacuity: shape `(2, 3)` and an array of shape `(3,)`. -/
example : bcast [2, 3] [3] = some [2, 3] := by decide

/-- **C55 is false as stated**: a variable of shape `(3,)` plus an array of shape `(2,)` is accepted although NumPy cannot combine them, and a variable of shape `(1,)` times an array of shape `(3,)` gets shape `(1,)`
where NumPy gives `(3,)`. -/
theorem C55_refuted :
    (bcast [3] [2] = none ∧ (exec (inputs [[3]] : Heap ℚ) [0] (.addc 0 (.arr [2] fun _ => 1))).toOption.map (fun r => shapeOf r.1 r.2) = some [3]) ∧
    (bcast [1] [3] = some [3] ∧ (exec (inputs [[1]] : Heap ℚ) [0] (.mulc 0 (.arr [3] fun _ => 1))).toOption.map (fun r => shapeOf r.1 r.2) = some [1]) := by
  refine ⟨⟨by decide, by decide⟩, by decide, by decide⟩

end Csdl.Arith
