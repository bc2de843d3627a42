import Verif.Proofs.Program6
import Verif.Proofs.Program10
/-
Assignments to parts of outputs: which succeed.
-/
namespace Csdl.Prog
open Csdl Csdl.Arith
variable {K F : Type} [Field K] [DecidableEq K]
variable {objs0 : Foreign K F} {L : List (Nat × Stmt K F)} {S : List (Name × Option (List Name))} {st st' : St K F}

/-- after the statements `L`, the variable `x` has the name `nm`, given or automatic -/
def NameAt (L : List (Nat × Stmt K F)) (env : List Nat) (x : Nat) (nm : Name) : Prop :=
  NamedIn L x nm ∨ ((∀ nm', ¬ NamedIn L x nm') ∧ ∃ o, env[x]? = some o ∧ nm = genHexName o)

omit [Field K] [DecidableEq K] in
theorem nameOf_info (objs : List (PObj K F)) (o : Nat) : nameOf objs o = (infoOf objs o).name := by
  show _ = (objects objs o).name
  unfold nameOf objects
  cases objs[o]? <;> rfl

/-- a variable has a given name exactly if its object is in one of the lists of the model -/
theorem Inv.namedIn (h : Inv objs0 L S st) {x o : Nat} (hx : st.env[x]? = some o) (nm : Name) : NamedIn L x nm ↔ (o ∈ st.inputs ∨ o ∈ st.outputs ∨ o ∈ st.declared) ∧ nameOf st.objs o = nm := by
  rw [nameOf_info]
  have hl := lt_of_some hx
  constructor
  · rintro ⟨y, ha, hy⟩
    have he := h.env_of_alias ha
    rw [hx] at he
    rcases hy with ⟨sh, hy | hy⟩ | hy
    · obtain ⟨i, hi, h1, h2, _⟩ := forall₂_mem_right h.inputs hy
      rw [← he] at h1
      cases h1
      exact ⟨Or.inl hi, by rw [h2]⟩
    · obtain ⟨i, hi, h1, h2⟩ := forall₂_mem_right h.declared hy
      rw [← he] at h1
      cases h1
      exact ⟨Or.inr (Or.inr hi), by rw [h2]⟩
    · obtain ⟨i, hi, h1, h2, _⟩ := forall₂_mem_right h.outputs hy
      rw [← he] at h1
      cases h1
      exact ⟨Or.inr (Or.inl hi), h2⟩
  · rintro ⟨hm, rfl⟩
    rcases hm with hm | hm | hm
    · obtain ⟨⟨y, nm, sh⟩, hy, h1, h2, _⟩ := forall₂_mem_left h.inputs hm
      exact ⟨y, (h.alias_iff hl).2 (hx.trans h1.symm), Or.inl ⟨sh, Or.inl (by rw [h2]; exact hy)⟩⟩
    · obtain ⟨⟨y, nm⟩, hy, h1, h2, _⟩ := forall₂_mem_left h.outputs hm
      exact ⟨y, (h.alias_iff hl).2 (hx.trans h1.symm), Or.inr (by rw [h2]; exact hy)⟩
    · obtain ⟨⟨y, nm, sh⟩, hy, h1, h2⟩ := forall₂_mem_left h.declared hm
      exact ⟨y, (h.alias_iff hl).2 (hx.trans h1.symm), Or.inl ⟨sh, Or.inr (by rw [h2]; exact hy)⟩⟩

/-- the name of the object of a variable -/
theorem Inv.nameAt (h : Inv objs0 L S st) {x o : Nat} (hx : st.env[x]? = some o) (nm : Name) : nameOf st.objs o = nm ↔ NameAt L st.env x nm := by
  unfold NameAt
  simp only [h.namedIn hx]
  obtain ⟨hb, p, hp, hk⟩ := h.env o (List.mem_of_getElem? hx)
  have hauto : ¬ (o ∈ st.inputs ∨ o ∈ st.outputs ∨ o ∈ st.declared) → nameOf st.objs o = genHexName o := by
    intro hn
    rcases h.names o p hp hb with h1 | h1 | h1 | h1 | h1
    · exact absurd (Or.inl h1) hn
    · exact absurd (Or.inr (Or.inl h1)) hn
    · exact absurd (Or.inr (Or.inr h1)) hn
    · obtain ⟨s, hs, rfl⟩ := List.mem_map.1 h1
      obtain ⟨_, _, _, _, q, hq, hkq, _⟩ := forall₂_mem_left h.subs hs
      rw [hp] at hq
      cases hq
      rw [hk] at hkq
      cases hkq
    · unfold nameOf
      rw [hp]
      show p.obj.name = _
      rw [h1, h.autos o p hp hb]
  constructor
  · rintro rfl
    by_cases hn : o ∈ st.inputs ∨ o ∈ st.outputs ∨ o ∈ st.declared
    · exact Or.inl ⟨hn, rfl⟩
    · exact Or.inr ⟨fun nm' hc => hn hc.1, o, hx, hauto hn⟩
  · rintro (⟨_, h1⟩ | ⟨h1, o', h2, rfl⟩)
    · exact h1
    · rw [hx] at h2
      cases h2
      exact hauto fun hn => h1 _ ⟨hn, rfl⟩

omit [Field K] [DecidableEq K] in
theorem NameAt.env_eq {L : List (Nat × Stmt K F)} {env env' : List Nat} {x : Nat} (he : env[x]? = env'[x]?) (nm : Name) : NameAt L env x nm ↔ NameAt L env' x nm := by
  unfold NameAt
  rw [he]

/-- the names under which assignments to the parts of the outputs are recorded: those the assigned variables had then -/
def Keys (L : List (Nat × Stmt K F)) (st : St K F) : Prop :=
  ∀ v c val, st.concat.get? v = some (c, val) → ∀ nm, c.tgt.has nm = true ↔ ∃ L1 n z key x L2, L = L1 ++ (n, .assign z key x) :: L2 ∧ st.env[z]? = some v ∧ NameAt L1 st.env x nm

omit [Field K] [DecidableEq K] in
theorem Keys.start (objs : List (PObj K F)) : Keys [] ({ objs := objs } : St K F) := by
  intro v c val h
  cases h

omit [Field K] [DecidableEq K] in
theorem snoc_split {α : Type} {L L1 L2 : List α} {e a : α} (h : L ++ [e] = L1 ++ a :: L2) : (L1 = L ∧ a = e ∧ L2 = []) ∨ ∃ L2', L2 = L2' ++ [e] ∧ L = L1 ++ a :: L2' := by
  rcases List.eq_nil_or_concat L2 with rfl | ⟨L2', e', rfl⟩
  · obtain ⟨h1, h2⟩ := List.append_inj' h rfl
    exact Or.inl ⟨h1.symm, by simpa using h2.symm, rfl⟩
  · rw [List.concat_eq_append, ← List.cons_append, ← List.append_assoc] at h
    obtain ⟨h1, h2⟩ := List.append_inj' h rfl
    obtain rfl : e = e' := by simpa using h2
    exact Or.inr ⟨L2', by simp, h1⟩

/-- what a statement changes about the outputs that are assembled -/
theorem exec_concat {s : Stmt K F} (he : exec st s = .ok st') : st.env <+: st'.env ∧
    ((st'.concat = st.concat ∧ ∀ z key x, s ≠ .assign z key x) ∨ (∃ shape val, st'.concat = st.concat.set st.objs.length ({ shape := shape }, val) ∧ ∀ z key x, s ≠ .assign z key x) ∨
      ∃ z key x c c' val, s = .assign z key x ∧ z < st.env.length ∧ x < st.env.length ∧ st.concat.get? (st.env.getD z 0) = some (c, val) ∧
        setItem c key ⟨st.env.getD x 0, nameOf st.objs (st.env.getD x 0), Prog.shapeOf st.objs (st.env.getD x 0)⟩ = (c', none) ∧ st'.concat = st.concat.set (st.env.getD z 0) (c', val) ∧ st'.env = st.env) := by
  cases s with
  | input name shape =>
    simp only [exec] at he
    split at he
    · cases he
    · cases he; exact ⟨List.prefix_append _ _, Or.inl ⟨rfl, by simp⟩⟩
  | declare name shape e =>
    cases he; exact ⟨List.prefix_append _ _, Or.inl ⟨rfl, by simp⟩⟩
  | expr i =>
    simp only [exec] at he
    split at he
    · unfold execExpr at he
      split at he
      · cases he
      · cases he; exact ⟨List.prefix_append _ _, Or.inl ⟨rfl, by simp⟩⟩
      · unfold arithOp at he
        simp only at he
        split at he
        · cases he; exact ⟨List.prefix_append _ _, Or.inl ⟨rfl, by simp⟩⟩
        · cases he
    · cases he
  | call f args outs =>
    simp only [exec] at he
    split at he
    · cases he; exact ⟨List.prefix_append _ _, Or.inl ⟨rfl, by simp⟩⟩
    · cases he
  | index x key =>
    simp only [exec] at he
    split at he
    · unfold execIndex at he
      split at he
      · cases he
      · rename_i k hk
        have hw : ∀ v, (withDecomp st v).2.env = st.env ∧ (withDecomp st v).2.concat = st.concat := by
          intro v
          unfold withDecomp
          split <;> exact ⟨rfl, rfl⟩
        obtain ⟨w1, w2⟩ := hw (st.env.getD x 0)
        unfold execPart at he
        split at he
        · cases he
          exact ⟨by simp only [w1]; exact List.prefix_append _ _, Or.inl ⟨w2, by simp⟩⟩
        · split at he
          · cases he
          · cases he
            exact ⟨by simp only [w1]; exact List.prefix_append _ _, Or.inl ⟨w2, by simp⟩⟩
    · cases he
  | output name shape val =>
    simp only [exec, execOutput] at he
    split at he
    · cases he
    · split at he
      · cases he
      · cases he; exact ⟨List.prefix_append _ _, Or.inr (Or.inl ⟨shape, val, rfl, by simp⟩)⟩
  | assign z key x =>
    simp only [exec] at he
    split at he
    · rename_i hl
      unfold execAssign at he
      split at he
      · cases he
      · rename_i c val hc
        simp only at he
        split at he
        · cases he
        · rename_i c' hset
          cases he
          exact ⟨List.prefix_rfl, Or.inr (Or.inr ⟨z, key, x, c, c', val, rfl, hl.1, hl.2, hc, hset, rfl, rfl⟩)⟩
    · cases he
  | register name x =>
    simp only [exec] at he
    split at he
    · unfold execRegister at he
      repeat' split at he
      all_goals first | (cases he; done) | (cases he; exact ⟨List.prefix_rfl, Or.inl ⟨rfl, by simp⟩⟩)
    · cases he
  | connect a b =>
    simp only [exec] at he
    repeat' split at he
    all_goals first | (cases he; done) | (cases he; exact ⟨List.prefix_rfl, Or.inl ⟨rfl, by simp⟩⟩)

theorem Keys.exec (h : Inv objs0 L S st) (k : Keys L st) (s : Stmt K F) (he : Prog.exec st s = .ok st') : Keys (L ++ [(st.env.length, s)]) st' := by
  obtain ⟨hpre, hc⟩ := exec_concat he
  have henv : ∀ {x : Nat}, x < st.env.length → st'.env[x]? = st.env[x]? := by
    intro x hx
    rw [getElem?_prefix hpre (List.getElem?_eq_getElem hx), List.getElem?_eq_getElem hx]
  have hstep : ∀ {v : Nat} {nm : Name}, (∃ L1 n z key x L2, L = L1 ++ (n, Stmt.assign z key x) :: L2 ∧ st'.env[z]? = some v ∧ NameAt L1 st'.env x nm) ↔
      ∃ L1 n z key x L2, L = L1 ++ (n, Stmt.assign z key x) :: L2 ∧ st.env[z]? = some v ∧ NameAt L1 st.env x nm := by
    intro v nm
    constructor
    · rintro ⟨L1, n, z, key, x, L2, e, h1, h2⟩
      obtain ⟨l1, l2⟩ := h.assignLt (n := n) (z := z) (key := key) (x := x) (by rw [e]; simp)
      exact ⟨L1, n, z, key, x, L2, e, by rw [← henv l1]; exact h1, (NameAt.env_eq (henv l2) nm).1 h2⟩
    · rintro ⟨L1, n, z, key, x, L2, e, h1, h2⟩
      obtain ⟨l1, l2⟩ := h.assignLt (n := n) (z := z) (key := key) (x := x) (by rw [e]; simp)
      exact ⟨L1, n, z, key, x, L2, e, by rw [henv l1]; exact h1, (NameAt.env_eq (henv l2) nm).2 h2⟩
  have hother : (∀ z key x, s ≠ .assign z key x) → ∀ {v : Nat} {nm : Name}, (∃ L1 n z key x L2, L ++ [(st.env.length, s)] = L1 ++ (n, Stmt.assign z key x) :: L2 ∧ st'.env[z]? = some v ∧ NameAt L1 st'.env x nm) ↔
      ∃ L1 n z key x L2, L = L1 ++ (n, Stmt.assign z key x) :: L2 ∧ st.env[z]? = some v ∧ NameAt L1 st.env x nm := by
    intro hno v nm
    rw [← hstep]
    constructor
    · rintro ⟨L1, n, z, key, x, L2, e, h1, h2⟩
      rcases snoc_split e with ⟨_, e2, _⟩ | ⟨L2', _, e2⟩
      · exact absurd (congrArg Prod.snd e2).symm (hno z key x)
      · exact ⟨L1, n, z, key, x, L2', e2, h1, h2⟩
    · rintro ⟨L1, n, z, key, x, L2, e, h1, h2⟩
      exact ⟨L1, n, z, key, x, L2 ++ [(st.env.length, s)], by rw [e]; simp, h1, h2⟩
  rcases hc with ⟨e, hno⟩ | ⟨shape, val, e, hno⟩ | ⟨z, key, x, c, c', val, rfl, lz, lx, hcv, hset, e, e'⟩
  · intro v c val hv nm
    rw [e] at hv
    rw [hother hno]
    exact k v c val hv nm
  · intro v c val' hv nm
    rw [hother hno]
    rw [e, Dict.get?_set] at hv
    split at hv
    · rename_i hvv
      cases hv
      constructor
      · intro hh
        cases hh
      · rintro ⟨L1, n, z, key, x, L2, _, h1, _⟩
        have := h.lt v (List.mem_of_getElem? h1)
        omega
    · exact k v c val' hv nm
  · intro v c2 val2 hv nm
    have hz := getD_mem lz
    have hx := getD_mem lx
    have hsplit : (∃ L1 n z' key' x' L2, L ++ [(st.env.length, Stmt.assign z key x)] = L1 ++ (n, Stmt.assign z' key' x') :: L2 ∧ st'.env[z']? = some v ∧ NameAt L1 st'.env x' nm) ↔
        (∃ L1 n z key x L2, L = L1 ++ (n, Stmt.assign z key x) :: L2 ∧ st.env[z]? = some v ∧ NameAt L1 st.env x nm) ∨ (st.env[z]? = some v ∧ NameAt L st.env x nm) := by
      rw [e']
      constructor
      · rintro ⟨L1, n, z', key', x', L2, ee, h1, h2⟩
        rcases snoc_split ee with ⟨e1, e2, _⟩ | ⟨L2', _, e2⟩
        · cases e2
          rw [e1] at h2
          exact Or.inr ⟨h1, h2⟩
        · exact Or.inl ⟨L1, n, z', key', x', L2', e2, h1, h2⟩
      · rintro (⟨L1, n, z', key', x', L2, ee, h1, h2⟩ | ⟨h1, h2⟩)
        · exact ⟨L1, n, z', key', x', L2 ++ [(st.env.length, Stmt.assign z key x)], by rw [ee]; simp, h1, h2⟩
        · exact ⟨L, _, z, key, x, [], rfl, h1, h2⟩
    rw [hsplit]
    rw [e, Dict.get?_set] at hv
    split at hv
    · rename_i hvv
      cases hv
      obtain ⟨idx, _, _, _, _, _, ht, _⟩ := setItem_ok hset
      rw [ht, Dict.has_iff, Dict.keys_set, ← Dict.has_iff, k _ _ _ hcv nm, hvv]
      simp only at *
      rw [← h.nameAt hx nm]
      have : st.env[z]? = some v := by rw [← hvv]; exact hz
      simp only [this, true_and]
      constructor
      · rintro (h1 | h1)
        · exact Or.inl h1
        · exact Or.inr h1.symm
      · rintro (h1 | h1)
        · exact Or.inl h1
        · exact Or.inr h1.symm
    · rename_i hvv
      rw [k v c2 val2 hv nm]
      constructor
      · exact Or.inl
      · rintro (h1 | ⟨h1, _⟩)
        · exact h1
        · rw [hz] at h1
          cases h1
          exact absurd rfl hvv

/-- an assignment to a part succeeds exactly if the key selects elements, as many as there are in what is assigned, nothing of this name has been assigned, and nothing to these elements -/
theorem setItem_iff (c : Concat) (key : Key) (r : Rhs) : (∃ c', setItem c key r = (c', none)) ↔
    ∃ idx, tgtIndices c.shape key = .ok (idx, r.shape) ∧ (∀ i ∈ idx, i < (c.shape.size : Int)) ∧ c.tgt.has r.name = false ∧ ∀ i ∈ c.checked, i ∉ idx := by
  constructor
  · rintro ⟨c', h⟩
    obtain ⟨idx, h1, h2, h3, h4, _⟩ := setItem_ok h
    exact ⟨idx, h1, h2, h3, h4⟩
  · rintro ⟨idx, h1, h2, h3, h4⟩
    unfold setItem
    rw [h1]
    simp only [ne_eq, not_true_eq_false, if_false]
    rw [if_neg, h3]
    · simp only [Bool.false_eq_true, if_false]
      rw [if_neg]
      · exact ⟨_, rfl⟩
      · rw [not_not, List.filter_eq_nil_iff]
        intro i hi
        simpa using h4 i hi
    · simp only [List.any_eq_true, decide_eq_true_eq, not_exists, not_and, Int.not_le]
      exact h2

/-- two names are equal: both given, or both automatic -/
theorem Inv.sameName (h : Inv objs0 L S st) (hn : st.objs.length ≤ 63 ^ 4) (hu : ∀ y ∈ L, ∀ nm, y.2.defines = some nm → ¬ AutoLike nm) {L1 L2 : List (Nat × Stmt K F)} (hL : L = L1 ++ L2) {x x' o o' : Nat} (hx : st.env[x]? = some o)
    (hx' : st.env[x']? = some o') {nm : Name} (hnm : NameAt L st.env x nm) : NameAt L1 st.env x' nm ↔ SameNameIn L1 x' L x := by
  have hgiven : ∀ {M : List (Nat × Stmt K F)} {y : Nat} {nm : Name}, (∀ z ∈ M, z ∈ L) → NamedIn M y nm → ¬ AutoLike nm := by
    rintro M y nm hM ⟨z, _, hz⟩
    rcases hz with ⟨sh, hz | hz⟩ | hz
    · obtain ⟨⟨n, t⟩, h1, h2⟩ := List.mem_filterMap.1 hz
      cases t <;> simp [inputOf] at h2
      exact hu _ (hM _ h1) nm (by simp [Stmt.defines, h2.2.1])
    · obtain ⟨⟨n, t⟩, h1, h2⟩ := List.mem_filterMap.1 hz
      cases t <;> simp [declaredOf] at h2
      exact hu _ (hM _ h1) nm (by simp [Stmt.defines, h2.2.1])
    · obtain ⟨⟨n, t⟩, h1, h2⟩ := List.mem_filterMap.1 hz
      cases t <;> simp [outputOf] at h2
      all_goals exact hu _ (hM _ h1) nm (by simp [Stmt.defines, h2.2])
  have hL1 : ∀ z ∈ L1, z ∈ L := fun z hz => by rw [hL]; simp [hz]
  have lo := h.lt o (List.mem_of_getElem? hx)
  have lo' := h.lt o' (List.mem_of_getElem? hx')
  constructor
  · rintro (h1 | ⟨h1, o1, h2, rfl⟩)
    · rcases hnm with h3 | ⟨_, o2, h4, rfl⟩
      · exact Or.inl ⟨nm, h1, h3⟩
      · rw [hx] at h4
        cases h4
        exact absurd (auto_like (by omega)) (hgiven hL1 h1)
    · rw [hx'] at h2
      cases h2
      rcases hnm with h3 | ⟨h3, o2, h4, h5⟩
      · exact absurd (auto_like (by omega)) (hgiven (fun _ h => h) h3)
      · rw [hx] at h4
        cases h4
        have := auto_inj (by omega) (by omega) h5
        subst this
        exact Or.inr ⟨(h.alias_iff (lt_of_some hx')).2 (hx'.trans hx.symm), h1, h3⟩
  · rintro (⟨nm', h1, h2⟩ | ⟨h1, h2, h3⟩)
    · have e1 := (h.nameAt hx nm).2 hnm
      have e2 := (h.nameAt hx nm').2 (Or.inl h2)
      rw [e1] at e2
      subst e2
      exact Or.inl h1
    · have e := h.env_of_alias h1
      rw [hx, hx'] at e
      cases e
      rcases hnm with h4 | ⟨_, o2, h4, rfl⟩
      · exact absurd h4 (h3 nm)
      · rw [hx] at h4
        cases h4
        exact Or.inr ⟨h2, _, hx', rfl⟩

/-- An assignment runs exactly if it is fine. -/
theorem assign_ok_iff (h : Inv objs0 L S st) (o : OInv L st) (k : Keys L st) (hn : st.objs.length ≤ 63 ^ 4) (hu : ∀ y ∈ L, ∀ nm, y.2.defines = some nm → ¬ AutoLike nm) (z : Nat) (key : Key) (x : Nat) :
    (∃ st', exec st (.assign z key x) = .ok st') ↔ StmtOk L (.assign z key x) := by
  simp only [exec, StmtOk, o.num]
  by_cases hl : z < st.env.length ∧ x < st.env.length
  swap
  · rw [if_neg hl]
    constructor
    · rintro ⟨_, h⟩; cases h
    · rintro ⟨h1, h2, _⟩; exact absurd ⟨h1, h2⟩ hl
  rw [if_pos hl]
  simp only [hl.1, hl.2, true_and]
  have hz := getD_mem hl.1
  have hx := getD_mem hl.2
  have hxo := h.lt _ (List.mem_of_getElem? hx)
  have hshape : (shapesOf L).getD x [] = Prog.shapeOf st.objs (st.env.getD x 0) := by
    rw [h.shapeAt hl.2, shapeOf_obj _ _ hxo]
    first | rfl | (unfold Prog.shapeAt; rfl)
  cases hcv : st.concat.get? (st.env.getD z 0) with
  | none =>
    unfold execAssign
    rw [hcv]
    constructor
    · rintro ⟨_, h⟩; cases h
    · rintro ⟨y, name, shape, val, idx, hy, ha, _⟩
      obtain ⟨v, c, h1, h2, _⟩ := h.made y name shape val hy
      have := h.env_of_alias ha
      rw [hz, h1] at this
      cases this
      rw [hcv] at h2
      cases h2
  | some cv =>
    obtain ⟨c, val⟩ := cv
    obtain ⟨⟨y, name, hy, hyv⟩, p, es, a1, a2, a3, a4, a5, a6, a7, a8, a9⟩ := h.concat _ c val hcv
    have hzy : Alias L z y := (h.alias_iff hl.1).2 (hz.trans hyv.symm)
    have hset := setItem_iff c key ⟨st.env.getD x 0, nameOf st.objs (st.env.getD x 0), Prog.shapeOf st.objs (st.env.getD x 0)⟩
    have hrun : (∃ st', execAssign st (st.env.getD z 0) key (st.env.getD x 0) = .ok st') ↔
        ∃ c', setItem c key ⟨st.env.getD x 0, nameOf st.objs (st.env.getD x 0), Prog.shapeOf st.objs (st.env.getD x 0)⟩ = (c', none) := by
      unfold execAssign
      rw [hcv]
      simp only
      cases setItem c key ⟨st.env.getD x 0, nameOf st.objs (st.env.getD x 0), Prog.shapeOf st.objs (st.env.getD x 0)⟩ with
      | mk c' er =>
        cases er with
        | none => exact ⟨fun _ => ⟨c', rfl⟩, fun _ => ⟨_, rfl⟩⟩
        | some e =>
          constructor
          · rintro ⟨_, h⟩; cases h
          · rintro ⟨_, h⟩; cases h
    rw [hrun, hset]
    simp only
    have hname := (h.nameAt hx _).1 rfl
    constructor
    · rintro ⟨idx, h1, h2, h3, h4⟩
      refine ⟨y, name, c.shape, val, idx, hy, hzy, by rw [hshape]; exact h1, h2, ?_⟩
      intro L1 n z' key' x' L2 hL ha
      have hm : (n, Stmt.assign z' key' x') ∈ L := by rw [hL]; simp
      have hz' : st.env[z']? = some (st.env.getD z 0) := (h.env_of_alias ha).trans hyv
      obtain ⟨_, lx'⟩ := h.assignLt hm
      refine ⟨fun hs => ?_, fun idx' shp ht i hi hii => ?_⟩
      · have := (h.sameName hn hu hL hx (getD_mem lx') hname).2 hs
        have := (k _ _ _ hcv _).2 ⟨L1, n, z', key', x', L2, hL, hz', this⟩
        rw [h3] at this
        cases this
      · obtain ⟨e, he, _, h6, _⟩ := forall₂_mem_left a6 (assignsTo_mem (kx := (key', x')).2 ⟨n, z', hm, hz'⟩)
        simp only at h6
        rw [ht] at h6
        cases h6
        exact h4 i ((a8 i).2 ⟨e, he, hi⟩) hii
    · rintro ⟨y', name', shape', val', idx, hy', hzy', h1, h2, h3⟩
      obtain ⟨v', c', g1, g2, g3, _⟩ := h.made y' name' shape' val' hy'
      have e := h.env_of_alias hzy'
      rw [hz, g1] at e
      cases e
      rw [hcv] at g2
      cases g2
      subst g3
      rw [hshape] at h1
      refine ⟨idx, h1, h2, ?_, ?_⟩
      · cases hh : c.tgt.has (nameOf st.objs (st.env.getD x 0)) with
        | false => rfl
        | true =>
          obtain ⟨L1, n, z', key', x', L2, hL, hz', hnm⟩ := (k _ _ _ hcv _).1 hh
          have hm : (n, Stmt.assign z' key' x') ∈ L := by rw [hL]; simp
          obtain ⟨lz', lx'⟩ := h.assignLt hm
          exact absurd ((h.sameName hn hu hL hx (getD_mem lx') hname).1 hnm) (h3 L1 n z' key' x' L2 hL ((h.alias_iff lz').2 (hz'.trans g1.symm))).1
      · intro i hi hii
        obtain ⟨e, he, hie⟩ := (a8 i).1 hi
        obtain ⟨⟨key', x'⟩, hk, _, h6, _⟩ := forall₂_mem_right a6 he
        obtain ⟨n, z', hm, hz'⟩ := assignsTo_mem.1 hk
        obtain ⟨lz', lx'⟩ := h.assignLt hm
        obtain ⟨L1, L2, hL⟩ := List.append_of_mem hm
        exact (h3 L1 n z' key' x' L2 hL ((h.alias_iff lz').2 (hz'.trans g1.symm))).2 _ _ h6 i hie hii

end Csdl.Prog
