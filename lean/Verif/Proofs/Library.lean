import Verif.Spec.Library
import Verif.Proofs.ProgramFull
/-
Proofs for C83: a program that calls the standard library runs as the program written with plain operations does.
-/
namespace Csdl.Prog
open Csdl Csdl.Arith
variable {K G I : Type} [Field K] [DecidableEq K]

omit [DecidableEq K] in
theorem number_snd {F : Type} : ∀ (l : List (Stmt K F)) (n : Nat), (number n l).map (·.2) = l
  | [], _ => rfl
  | s :: l, n => by simp [number, number_snd l]

omit [DecidableEq K] in
theorem shapesOf_snd {F : Type} (L : List (Nat × Stmt K F)) : shapesOf L = (L.map (·.2)).foldl stepShapes [] := by
  simp [shapesOf, List.foldl_map]

omit [DecidableEq K] in
theorem shapesOf_low (P : List (Nat × XStmt K (LOp K) G I)) (n : Nat) (s : XStmt K (LOp K) G I) : shapesOf (lowAll (P ++ [(n, s)])) = (s.low n).foldl stepShapes (shapesOf (lowAll P)) := by
  rw [shapesOf_snd, shapesOf_snd]
  simp [lowAll, number_snd]

/-- the shapes in the state are those that follow from the text -/
theorem XInv.shapes {objs0 : Foreign K (Fun (LOp K) G I)} {P : List (Nat × XStmt K (LOp K) G I)} {S : List (Name × Option (List Name))} {xs : XSt K (LOp K) G I} (h : XInv objs0 P S xs) :
    xs.st.env.map (shapeOf xs.st.objs) = shapesOf (lowAll P) := by
  rw [← h.inv.shapes]
  apply List.map_congr_left
  intro o ho
  obtain ⟨_, p, hp, _⟩ := h.inv.env o ho
  simp [Prog.shapeOf, objects, hp]

/-- what the library functions read of the variables: shapes, and which are made by `create_output` -/
def attrs {F : Type} (st : St K F) : List (Shape × Bool) := st.env.map fun o => (Prog.shapeOf st.objs o, isAssembled st o)

omit [Field K] [DecidableEq K] in
theorem attrs_fst {F : Type} (st : St K F) : (attrs st).map (·.1) = st.env.map (Prog.shapeOf st.objs) := by simp [attrs]

omit [Field K] [DecidableEq K] in
theorem attrs_snd {F : Type} (st : St K F) : (attrs st).map (·.2) = st.env.map (isAssembled st) := by simp [attrs]

omit [DecidableEq K] in
theorem stepVars_fst {F : Type} (vs : List (Shape × Bool)) (s : Stmt K F) : (stepVars vs s).map (·.1) = stepShapes (vs.map (·.1)) s := by
  have hg : ∀ x : Nat, (vs.map (·.1)).getD x [] = (vs.getD x ([], false)).1 := by
    intro x
    rw [List.getD_eq_getElem?_getD, List.getD_eq_getElem?_getD, List.getElem?_map]
    cases vs[x]? <;> rfl
  cases s with
  | expr i => cases i <;> simp only [stepVars, stepShapes, List.map_append, List.map_cons, List.map_nil, hg, Instr.first]
  | call f args outs => simp [stepVars, stepShapes, Function.comp_def]
  | _ => simp only [stepVars, stepShapes, List.map_append, List.map_cons, List.map_nil, hg]

omit [DecidableEq K] in
theorem stepVars_length {F : Type} (vs : List (Shape × Bool)) (s : Stmt K F) : (stepVars vs s).length = vs.length + s.count := by
  have := congrArg List.length (stepVars_fst vs s)
  rw [List.length_map] at this
  rw [this]
  cases s <;> simp [stepShapes, Stmt.count]

omit [Field K] [DecidableEq K] in
theorem getD_attrs {F : Type} {st : St K F} {x o : Nat} (h : st.env[x]? = some o) : (attrs st).getD x ([], false) = (Prog.shapeOf st.objs o, isAssembled st o) := by
  rw [List.getD_eq_getElem?_getD, attrs, List.getElem?_map, h]; rfl

section
variable {F : Type} {objs0 : Foreign K F} {L : List (Nat × Stmt K F)} {S : List (Name × Option (List Name))} {st st' : St K F}

theorem Inv.shapesEq (h : Inv objs0 L S st) : st.env.map (Prog.shapeOf st.objs) = shapesOf L := by
  rw [← h.shapes]
  apply List.map_congr_left
  intro o ho
  obtain ⟨_, p, hp, _⟩ := h.env o ho
  simp [Prog.shapeOf, objects, hp]

/-- a result of an operation is not made by `create_output` -/
theorem Inv.result_not (h : Inv objs0 L S st) {n : Nat} {s : Stmt K F} {o j : Nat} (ho : OpOf st.objs st.env n s o) (hj : j < s.count) {v : Nat} (hv : st.env[n + j]? = some v) : isAssembled st v = false := by
  obtain ⟨p, k, as, m, base, h1, h2, h3, h4, h5, h6, h7, h8⟩ := ho
  have hm : m = s.count := by cases h3 <;> rfl
  obtain ⟨w, _, hw, q, hq, _, _, hd, _⟩ := h6 j (hm ▸ hj)
  obtain rfl : w = v := Option.some.inj (hw.symm.trans hv)
  unfold isAssembled
  cases hc : st.concat.get? w with
  | none => rfl
  | some cv =>
    obtain ⟨c, val⟩ := cv
    obtain ⟨_, p', es, g1, _, _, _, _, _, _, _, g2⟩ := h.concat w c val hc
    obtain rfl : q = p' := Option.some.inj (hq.symm.trans g1)
    rcases g2 with ⟨_, g3, _⟩ | ⟨_, _, o', q', g3, _, g4, _, _, g5, _⟩
    · rw [hd] at g3; cases g3
    · rw [hd] at g3
      obtain rfl : o = o' := (List.cons.inj g3).1
      obtain rfl : p = q' := Option.some.inj (h1.symm.trans g4)
      rw [h4] at g5
      cases h3 <;> cases g5

/-- a new variable that is not made by `create_output` -/
theorem Inv.given_not (h : Inv objs0 (L ++ [(st.env.length, s)]) S st') (hn : ∀ n t, (n, t) ∈ L → n + t.count ≤ st.env.length) (hs : ¬ s.IsAlias) (hc : s.count = 1) (ho : ∀ name sh val, s ≠ .output name sh val)
    {v : Nat} (hv : st'.env[st.env.length]? = some v) : isAssembled st' v = false := by
  unfold isAssembled
  cases hcv : st'.concat.get? v with
  | none => rfl
  | some cv =>
    obtain ⟨c, val⟩ := cv
    obtain ⟨⟨x, name, hx, hxv⟩, _⟩ := h.concat v c val hcv
    have hf := (h.fresh st.env.length s (by simp)).resolve_left hs
    rcases List.mem_append.1 hx with hx | hx
    · have := hn x _ hx
      simp only [Stmt.count] at this
      exact absurd hxv (hf st.env.length v le_rfl (by omega) hv x (by omega))
    · simp only [List.mem_singleton, Prod.mk.injEq] at hx
      exact absurd hx.2.symm (ho _ _ _)

theorem isAssembled_old (h : Inv objs0 L S st) {s : Stmt K F} (he : Prog.exec st s = .ok st') {v : Nat} (hv : v ∈ st.env) : isAssembled st' v = isAssembled st v := by
  have hlt : v < st.objs.length := by
    obtain ⟨_, p, hp, _⟩ := h.env v hv
    exact lt_of_some hp
  unfold isAssembled
  rcases (exec_concat he).2 with ⟨h1, _⟩ | ⟨sh, val, h1, _⟩ | ⟨z, key, x, c, c', val, _, _, _, h2, _, h1, _⟩
  · rw [h1]
  · rw [h1, Dict.get?_set, if_neg (by omega)]
  · rw [h1]
    by_cases hz : v = st.env.getD z 0
    · subst hz; rw [Dict.get?_set, if_pos rfl, h2]; rfl
    · rw [Dict.get?_set, if_neg (Ne.symm hz)]

/-- one statement: the attributes are those that follow from the text -/
theorem Inv.attrs_exec (h : Inv objs0 L S st) (s : Stmt K F) (he : Prog.exec st s = .ok st') : Prog.attrs st' = stepVars (Prog.attrs st) s := by
  obtain ⟨h', hl, _⟩ := h.exec s he
  obtain ⟨⟨new, hnew⟩, _⟩ := exec_concat he
  have hnl : new.length = s.count := by
    have := congrArg List.length hnew
    rw [List.length_append, hl] at this; omega
  have hlen : (Prog.attrs st).length = st.env.length := by simp [Prog.attrs]
  have hlen' : (Prog.attrs st').length = (stepVars (Prog.attrs st) s).length := by
    rw [stepVars_length, hlen]; simp [Prog.attrs, hl]
  -- shapes
  have hsh : (Prog.attrs st').map (·.1) = (stepVars (Prog.attrs st) s).map (·.1) := by
    rw [stepVars_fst, attrs_fst, attrs_fst, h.shapesEq, h'.shapesEq]
    simp [shapesOf]
  have hDone := h'.stmts st.env.length s (by simp)
  -- flags
  have hfl : (Prog.attrs st').map (·.2) = (stepVars (Prog.attrs st) s).map (·.2) := by
    have old : st.env.map (isAssembled st') = (Prog.attrs st).map (·.2) := by
      rw [attrs_snd]
      exact List.map_congr_left fun v hv => isAssembled_old h he hv
    have split : (Prog.attrs st').map (·.2) = (Prog.attrs st).map (·.2) ++ new.map (isAssembled st') := by
      rw [attrs_snd, ← hnew, List.map_append, old]
    rw [split]
    have at_ : ∀ j v, new[j]? = some v → st'.env[st.env.length + j]? = some v := by
      intro j v hj
      rw [← hnew, List.getElem?_append_right (by omega), Nat.add_sub_cancel_left, hj]
    have res : (∃ o, OpOf st'.objs st'.env st.env.length s o) → new.map (isAssembled st') = List.replicate s.count false := by
      rintro ⟨o, ho⟩
      rw [List.eq_replicate_iff]
      refine ⟨by rw [List.length_map, hnl], fun f hf => ?_⟩
      obtain ⟨v, hv, rfl⟩ := List.mem_map.1 hf
      obtain ⟨j, hj⟩ := List.getElem?_of_mem hv
      have hjl := lt_of_some hj
      exact h'.result_not ho (by omega) (at_ j v hj)
    cases s with
    | register name x => cases new with
      | nil => simp [stepVars]
      | cons => simp [Stmt.count] at hnl
    | connect a b => cases new with
      | nil => simp [stepVars]
      | cons => simp [Stmt.count] at hnl
    | assign z key x => cases new with
      | nil => simp [stepVars]
      | cons => simp [Stmt.count] at hnl
    | input name sh val =>
      obtain ⟨v, rfl⟩ : ∃ v, new = [v] := List.length_eq_one_iff.1 hnl
      have := h'.given_not h.nums (by simp [Stmt.IsAlias]) rfl (by simp) (at_ 0 v rfl)
      simp [stepVars, this]
    | declare name sh val =>
      obtain ⟨v, rfl⟩ : ∃ v, new = [v] := List.length_eq_one_iff.1 hnl
      have := h'.given_not h.nums (by simp [Stmt.IsAlias]) rfl (by simp) (at_ 0 v rfl)
      simp [stepVars, this]
    | output name sh val =>
      obtain ⟨v, rfl⟩ : ∃ v, new = [v] := List.length_eq_one_iff.1 hnl
      obtain ⟨w, c, hw, hc, _⟩ := h'.made st.env.length name sh val (by simp)
      obtain rfl : w = v := Option.some.inj (hw.symm.trans (at_ 0 v rfl))
      simp [stepVars, isAssembled, hc]
    | call f args outs =>
      cases hDone with
      | op o ho => rw [res ⟨o, ho⟩]; simp [stepVars, Stmt.count, Function.comp_def, List.map_const']
    | index x key =>
      cases hDone with
      | op o ho => rw [res ⟨o, ho⟩]; simp [stepVars, Stmt.count]
    | expr i =>
      cases hDone with
      | op o ho =>
        rw [res ⟨o, ho⟩]
        cases i with
        | pos x =>
          obtain ⟨_, _, _, _, _, _, _, h3, _⟩ := ho
          cases h3 with
          | expr h4 => cases h4
        | _ => simp [stepVars, Stmt.count]
      | «alias» h1 h2 h3 h4 =>
        rename_i o
        have hp : ∃ x, i = .pos x := by
          cases i with
          | pos x => exact ⟨x, rfl⟩
          | divc x c => simp only [lower] at h1; cases hr : recip c <;> rw [hr] at h1 <;> cases h1
          | _ => cases h1
        obtain ⟨x, rfl⟩ := hp
        obtain ⟨v, rfl⟩ : ∃ v, new = [v] := List.length_eq_one_iff.1 hnl
        obtain rfl : o = v := Option.some.inj (h4.symm.trans (at_ 0 v rfl))
        have hx : st.env[x]? = some o := by
          simp only [Instr.first] at h2 h3
          rw [← hnew, List.getElem?_append_left h2] at h3
          exact h3
        simp only [stepVars, getD_attrs hx, isAssembled_old h he (List.mem_of_getElem? hx), List.map_append, List.map_cons, List.map_nil]
  refine List.ext_getElem? fun i => ?_
  have e1 := congrArg (·[i]?) hsh
  have e2 := congrArg (·[i]?) hfl
  simp only [List.getElem?_map] at e1 e2
  cases ha : (Prog.attrs st')[i]? with
  | none => rw [ha] at e1; cases hb : (stepVars (Prog.attrs st) s)[i]? with
    | none => rfl
    | some b => rw [hb] at e1; cases e1
  | some a => rw [ha] at e1 e2; cases hb : (stepVars (Prog.attrs st) s)[i]? with
    | none => rw [hb] at e1; cases e1
    | some b =>
      rw [hb] at e1 e2
      exact congrArg some (Prod.ext (Option.some.inj e1) (Option.some.inj e2))

theorem Inv.attrs_runList : ∀ (l : List (Stmt K F)) {L : List (Nat × Stmt K F)} {S : List (Name × Option (List Name))} {st st' : St K F}, Inv objs0 L S st → Prog.runList st l = .ok st' →
    Prog.attrs st' = l.foldl stepVars (Prog.attrs st)
  | [], L, S, st, st', h, he => by cases he; rfl
  | s :: l, L, S, st, st', h, he => by
    unfold Prog.runList at he
    cases h1 : Prog.exec st s with
    | error e => rw [h1] at he; cases he
    | ok st1 =>
      rw [h1] at he
      simp only at he
      rw [Inv.attrs_runList l (h.exec s h1).1 he, h.attrs_exec s h1, List.foldl_cons]

end

theorem XInv.all {objs0 : Foreign K (Fun (LOp K) G I)} : ∀ (l : List (XStmt K (LOp K) G I)) {P : List (Nat × XStmt K (LOp K) G I)} {S : List (Name × Option (List Name))} {xs xs' : XSt K (LOp K) G I}, XInv objs0 P S xs →
    xexecAll xs l = .ok xs' → (∃ P', XInv objs0 P' S xs') ∧ attrs xs'.st = varsAfter (attrs xs.st) l
  | [], P, S, xs, xs', h, he => by
    cases he
    exact ⟨⟨P, h⟩, rfl⟩
  | s :: l, P, S, xs, xs', h, he => by
    unfold xexecAll at he
    cases h1 : xexec xs s with
    | error e => rw [h1] at he; cases he
    | ok xs1 =>
      rw [h1] at he
      simp only at he
      obtain ⟨a1, _⟩ := h.exec s h1
      obtain ⟨b1, b2⟩ := XInv.all l a1 he
      refine ⟨b1, ?_⟩
      obtain ⟨_, st, g1, rfl⟩ := (xexec_iff h.inv.listsLt s).1 h1
      have hst : (xs.declare st s).st = st := by cases s <;> rfl
      rw [b2, hst, varsAfter, Inv.attrs_runList _ h.inv g1]
      have : xs.st.env.length = (attrs xs.st).length := by simp [attrs]
      rw [this]

/-- the attributes of the variables do not change when other objects are created -/
theorem XInv.attrs_eq {objs0 objs1 : Foreign K (Fun (LOp K) G I)} {P : List (Nat × XStmt K (LOp K) G I)} {S S' : List (Name × Option (List Name))} {xs xs' : XSt K (LOp K) G I} (h : XInv objs0 P S xs) (h' : XInv objs1 P S' xs')
    (he : xs'.st.env = xs.st.env) (hc : xs'.st.concat = xs.st.concat) : attrs xs'.st = attrs xs.st := by
  have e := h'.shapes.trans h.shapes.symm
  rw [he] at e
  unfold attrs isAssembled
  rw [he, hc]
  refine List.map_congr_left fun v hv => ?_
  obtain ⟨i, hi⟩ := List.getElem?_of_mem hv
  have := congrArg (·[i]?) e
  simp only [List.getElem?_map, hi, Option.map_some, Option.some.injEq] at this
  rw [this]

theorem xrunOwn_prefix : ∀ (l : List (XStmt K (LOp K) G I)) (xs : XSt K (LOp K) G I) (b : XBody K (LOp K) G I), xrunOwn xs (b.prefix l) = match xexecAll xs l with
    | .error e => .error e
    | .ok xs => xrunOwn xs b
  | [], xs, b => rfl
  | s :: l, xs, b => by
    rw [XBody.prefix, xrunOwn, xexecAll]
    cases xexec xs s with
    | error e => rfl
    | ok xs1 => exact xrunOwn_prefix l xs1 b

theorem xrunSubs_prefix : ∀ (l : List (XStmt K (LOp K) G I)) (objs : List (PObj K (Fun (LOp K) G I))) (ids : List (Nat × Name × Option (List Name))) (inl : XInl K (LOp K) G I) (b : XBody K (LOp K) G I),
    xrunSubs objs ids inl (b.prefix l) = xrunSubs objs ids inl b
  | [], _, _, _, _ => rfl
  | _ :: l, objs, ids, inl, b => by rw [XBody.prefix, xrunSubs, xrunSubs_prefix l]

theorem execAdd_keeps {F : Type} {st st' : St K F} {name : Name} {p : Option (List Name)} (h : execAdd st name p = .ok st') : st'.env = st.env ∧ st'.concat = st.concat := by
  unfold execAdd at h
  split_ifs at h
  cases h
  exact ⟨rfl, rfl⟩

/-- adding a submodel does not change the attributes of the variables -/
theorem attrs_add {objs0 objs1 : Foreign K (Fun (LOp K) G I)} {P : List (Nat × XStmt K (LOp K) G I)} {S S' : List (Name × Option (List Name))} {xs xs' : XSt K (LOp K) G I} (h : XInv objs0 P S xs) (h' : XInv objs1 P S' xs')
    {objs : List (PObj K (Fun (LOp K) G I))} {name : Name} {p : Option (List Name)} (ha : execAdd { xs.st with objs := objs } name p = .ok xs'.st) : attrs xs'.st = attrs xs.st :=
  h.attrs_eq h' (execAdd_keeps ha).1 (execAdd_keeps ha).2

theorem lexec_ok {objs0 : Foreign K (Fun (LOp K) G I)} {P : List (Nat × XStmt K (LOp K) G I)} {S : List (Name × Option (List Name))} {xs : XSt K (LOp K) G I} (h : XInv objs0 P S xs) (s : LStmt K G I) :
    lexec xs s = match s.steps ((attrs xs.st).map (·.2)) ((attrs xs.st).map (·.1)) with
      | .error e => .error e
      | .ok l => xexecAll xs l := by
  rw [lexec, ← attrs_fst, ← attrs_snd]
  cases s.steps ((attrs xs.st).map (·.2)) ((attrs xs.st).map (·.1)) <;> rfl

omit [DecidableEq K] in
theorem map_ok {α β ε : Type} {f : α → β} {x : Except ε α} {b : β} : x.map f = .ok b ↔ ∃ a, x = .ok a ∧ f a = b := by
  cases x <;> simp [Except.map]

/-- Own statements run as those of the program with plain operations. -/
theorem lrunOwn_typed : ∀ (b : LBody K G I) (b' : XBody K (LOp K) G I) {f : Foreign K (Fun (LOp K) G I)} {P : List (Nat × XStmt K (LOp K) G I)} {S : List (Name × Option (List Name))} {xs : XSt K (LOp K) G I}, XInv f P S xs →
    b.typed (attrs xs.st) = .ok b' → lrunOwn xs b = xrunOwn xs b'
  | .done, b', f, P, S, xs, h, ht => by
    cases ht; rfl
  | .stmt s rest, b', f, P, S, xs, h, ht => by
    rw [LBody.typed] at ht
    rw [lrunOwn, lexec_ok h]
    cases hs : s.steps ((attrs xs.st).map (·.2)) ((attrs xs.st).map (·.1)) with
    | error e => rw [hs] at ht; cases ht
    | ok l =>
      rw [hs] at ht
      obtain ⟨r, hr, rfl⟩ := map_ok.1 ht
      simp only
      rw [xrunOwn_prefix]
      cases hx : xexecAll xs l with
      | error e => rfl
      | ok xs1 =>
        obtain ⟨⟨P', a1⟩, a2⟩ := XInv.all l h hx
        rw [← a2] at hr
        exact lrunOwn_typed rest r a1 hr
  | .add false name p sub rest, b', f, P, S, xs, h, ht => by
    rw [LBody.typed] at ht
    cases hs : sub.typed [] with
    | error e => rw [hs] at ht; cases ht
    | ok sub' =>
      rw [hs] at ht
      obtain ⟨r, hr, rfl⟩ := map_ok.1 ht
      rw [lrunOwn, xrunOwn]
      cases hx : execAdd xs.st name p with
      | error e => rfl
      | ok st =>
        simp only
        exact lrunOwn_typed rest r (h.add name p hx).1 (by rw [attrs_add h (h.add name p hx).1 hx]; exact hr)
  | .add true name p sub rest, b', f, P, S, xs, h, ht => by
    rw [LBody.typed] at ht
    cases hs : sub.typed [] with
    | error e => rw [hs] at ht; cases ht
    | ok sub' =>
      rw [hs] at ht
      obtain ⟨r, hr, rfl⟩ := map_ok.1 ht
      rw [lrunOwn, xrunOwn, lrunOwn_typed sub sub' (XInv.start xs.st.objs) hs]
      cases h0 : xrunOwn ({ st := { objs := xs.st.objs } } : XSt K (LOp K) G I) sub' with
      | error e => rfl
      | ok q =>
        obtain ⟨m, ms⟩ := q
        obtain ⟨_, hb⟩ := h.block (xrunOwn_start h0).1
        simp only
        cases hx : execAdd { xs.st with objs := m.st.objs } name p with
        | error e => rfl
        | ok st =>
          simp only
          rw [lrunOwn_typed rest r (hb.add name p hx).1 (by rw [attrs_add h (hb.add name p hx).1 hx]; exact hr)]
          cases xrunOwn { xs with st := st } r <;> rfl

theorem lrunSubs_typed : ∀ (b : LBody K G I) (b' : XBody K (LOp K) G I) (vs : List (Shape × Bool)) (objs : List (PObj K (Fun (LOp K) G I))) (ids : List (Nat × Name × Option (List Name))) (inl : XInl K (LOp K) G I),
    b.typed vs = .ok b' → lrunSubs objs ids inl b = xrunSubs objs ids inl b'
  | .done, b', vs, objs, ids, inl, ht => by
    cases ht; rw [lrunSubs, xrunSubs]
  | .stmt s rest, b', vs, objs, ids, inl, ht => by
    rw [LBody.typed] at ht
    cases hs : s.steps (vs.map (·.2)) (vs.map (·.1)) with
    | error e => rw [hs] at ht; cases ht
    | ok l =>
      rw [hs] at ht
      obtain ⟨r, hr, rfl⟩ := map_ok.1 ht
      rw [lrunSubs, xrunSubs_prefix]
      exact lrunSubs_typed rest r _ objs ids inl hr
  | .add fl name p sub rest, b', vs, objs, ids, inl, ht => by
    rw [LBody.typed] at ht
    cases hs : sub.typed [] with
    | error e => rw [hs] at ht; cases ht
    | ok sub' =>
      rw [hs] at ht
      obtain ⟨r, hr, rfl⟩ := map_ok.1 ht
      cases ids with
      | nil => rw [lrunSubs, xrunSubs]
      | cons i ids =>
        cases fl with
        | false =>
          rw [lrunSubs, xrunSubs, lrunOwn_typed sub sub' (XInv.start objs) hs]
          cases xrunOwn ({ st := { objs := objs } } : XSt K (LOp K) G I) sub' with
          | error e => rfl
          | ok q =>
            obtain ⟨xs, ms⟩ := q
            simp only
            rw [lrunSubs_typed sub sub' [] xs.st.objs xs.st.subs ms hs]
            cases xrunSubs xs.st.objs xs.st.subs ms sub' with
            | error e => rfl
            | ok q =>
              obtain ⟨objs1, ks⟩ := q
              simp only
              split_ifs
              · rfl
              · rw [lrunSubs_typed rest r _ objs1 ids inl hr]
                cases xrunSubs objs1 ids inl r <;> rfl
        | true =>
          cases inl with
          | nil => rw [lrunSubs, xrunSubs]
          | cons xs ms inl =>
            rw [lrunSubs, xrunSubs, lrunSubs_typed sub sub' [] objs xs.st.subs ms hs]
            cases xrunSubs objs xs.st.subs ms sub' with
            | error e => rfl
            | ok q =>
              obtain ⟨objs1, ks⟩ := q
              simp only
              split_ifs
              · rfl
              · rw [lrunSubs_typed rest r _ objs1 ids inl hr]
                cases xrunSubs objs1 ids inl r <;> rfl

/-- If every call accepts its arguments, the program does exactly what the program with plain operations does. -/
theorem lrunFrom_typed (pre : List (PObj K (Fun (LOp K) G I))) (b : LBody K G I) (b' : XBody K (LOp K) G I) (ht : b.typed [] = .ok b') : lrunFrom pre b = xrunFrom pre b' := by
  rw [lrunFrom, xrunFrom, lrunOwn_typed b b' (XInv.start pre) ht]
  cases xrunOwn ({ st := { objs := pre } } : XSt K (LOp K) G I) b' with
  | error e => rfl
  | ok q =>
    obtain ⟨xs, inl⟩ := q
    simp only
    rw [lrunSubs_typed b b' [] _ _ _ ht]
    cases xrunSubs xs.st.objs xs.st.subs inl b' <;> rfl

/-! ### a program that runs has accepted calls -/

/-- the calls of a method, and of the `with` blocks in it, accept their arguments -/
def OwnTyped : List (Shape × Bool) → LBody K G I → Prop
  | _, .done => True
  | vs, .stmt s rest => ∃ l, s.steps (vs.map (·.2)) (vs.map (·.1)) = .ok l ∧ OwnTyped (varsAfter vs l) rest
  | vs, .add false _ _ _ rest => OwnTyped vs rest
  | vs, .add true _ _ sub rest => OwnTyped [] sub ∧ OwnTyped vs rest

omit [DecidableEq K] in
theorem typed_iff : ∀ (b : LBody K G I) (vs : List (Shape × Bool)), (∃ b', b.typed vs = .ok b') ↔ OwnTyped vs b ∧ ∀ s ∈ b.subs, ∃ s', s.2.2.typed [] = .ok s'
  | .done, vs => by simp [LBody.typed, OwnTyped, LBody.subs]
  | .stmt s rest, vs => by
    rw [LBody.typed, OwnTyped, LBody.subs]
    cases hs : s.steps (vs.map (·.2)) (vs.map (·.1)) with
    | error e => simp
    | ok l =>
      have := typed_iff rest (varsAfter vs l)
      simp only [map_ok, Except.ok.injEq, exists_eq_left']
      rw [← this]
      constructor
      · rintro ⟨b', a, h1, _⟩; exact ⟨a, h1⟩
      · rintro ⟨a, h1⟩; exact ⟨_, a, h1, rfl⟩
  | .add fl name p sub rest, vs => by
    rw [LBody.typed, LBody.subs]
    have := typed_iff rest vs
    have hsub := typed_iff sub []
    cases hs : sub.typed [] with
    | error e =>
      constructor
      · rintro ⟨b', hb⟩; cases hb
      · rintro ⟨_, h2⟩
        obtain ⟨s', h3⟩ := h2 (name, p, sub) (by simp)
        rw [hs] at h3; cases h3
    | ok sub' =>
      have ho : OwnTyped vs (.add fl name p sub rest) ↔ OwnTyped vs rest := by
        cases fl with
        | false => rw [OwnTyped]
        | true =>
          rw [OwnTyped]
          exact ⟨fun h => h.2, fun h => ⟨(hsub.1 ⟨sub', hs⟩).1, h⟩⟩
      rw [ho]
      simp only [map_ok, List.forall_mem_cons]
      constructor
      · rintro ⟨b', a, h1, _⟩
        exact ⟨(this.1 ⟨a, h1⟩).1, ⟨sub', hs⟩, (this.1 ⟨a, h1⟩).2⟩
      · rintro ⟨h1, _, h3⟩
        obtain ⟨a, ha⟩ := this.2 ⟨h1, h3⟩
        exact ⟨_, a, ha, rfl⟩

/-- the method without the methods of the submodels that are defined later -/
def LBody.pruned : LBody K G I → LBody K G I
  | .done => .done
  | .stmt s rest => .stmt s rest.pruned
  | .add false n p _ rest => .add false n p .done rest.pruned
  | .add true n p sub rest => .add true n p sub.pruned rest.pruned

theorem lrunOwn_pruned : ∀ (b : LBody K G I) (xs : XSt K (LOp K) G I), lrunOwn xs b.pruned = lrunOwn xs b
  | .done, _ => rfl
  | .stmt s rest, xs => by
    rw [LBody.pruned, lrunOwn, lrunOwn]
    cases lexec xs s with
    | error e => rfl
    | ok xs1 => exact lrunOwn_pruned rest xs1
  | .add false n p _ rest, xs => by
    rw [LBody.pruned, lrunOwn, lrunOwn]
    cases execAdd xs.st n p with
    | error e => rfl
    | ok st => exact lrunOwn_pruned rest _
  | .add true n p sub rest, xs => by
    rw [LBody.pruned, lrunOwn, lrunOwn, lrunOwn_pruned sub]
    cases lrunOwn ({ st := { objs := xs.st.objs } } : XSt K (LOp K) G I) sub with
    | error e => rfl
    | ok q =>
      simp only
      cases execAdd { xs.st with objs := q.1.st.objs } n p with
      | error e => rfl
      | ok st =>
        simp only
        rw [lrunOwn_pruned rest]

omit [DecidableEq K] in
theorem pruned_typed : ∀ (b : LBody K G I) (vs : List (Shape × Bool)), OwnTyped vs b → ∃ b', b.pruned.typed vs = .ok b'
  | .done, vs, _ => ⟨_, rfl⟩
  | .stmt s rest, vs, h => by
    obtain ⟨l, h1, h2⟩ := h
    obtain ⟨r, hr⟩ := pruned_typed rest _ h2
    rw [LBody.pruned, LBody.typed, h1]
    exact ⟨_, map_ok.2 ⟨r, hr, rfl⟩⟩
  | .add false n p _ rest, vs, h => by
    obtain ⟨r, hr⟩ := pruned_typed rest vs h
    rw [LBody.pruned, LBody.typed]
    exact ⟨_, map_ok.2 ⟨r, hr, rfl⟩⟩
  | .add true n p sub rest, vs, h => by
    obtain ⟨s', hs⟩ := pruned_typed sub [] h.1
    obtain ⟨r, hr⟩ := pruned_typed rest vs h.2
    rw [LBody.pruned, LBody.typed, hs]
    exact ⟨_, map_ok.2 ⟨r, hr, rfl⟩⟩

/-- what is known of the models defined in `with` blocks -/
inductive LInlOk : LBody K G I → XInl K (LOp K) G I → Prop
  | done : LInlOk .done .nil
  | stmt {s : LStmt K G I} {rest : LBody K G I} {inl : XInl K (LOp K) G I} : LInlOk rest inl → LInlOk (.stmt s rest) inl
  | add {n : Name} {p : Option (List Name)} {sub rest : LBody K G I} {inl : XInl K (LOp K) G I} : LInlOk rest inl → LInlOk (.add false n p sub rest) inl
  | inline {n : Name} {p : Option (List Name)} {sub rest : LBody K G I} {xs : XSt K (LOp K) G I} {ms inl : XInl K (LOp K) G I} : OwnTyped [] sub → xs.st.subs.length = sub.subs.length → LInlOk sub ms → LInlOk rest inl →
      LInlOk (.add true n p sub rest) (.cons xs ms inl)

theorem lrunOwn_ownTyped : ∀ (b : LBody K G I) {f : Foreign K (Fun (LOp K) G I)} {P : List (Nat × XStmt K (LOp K) G I)} {S : List (Name × Option (List Name))} {xs xs' : XSt K (LOp K) G I} {inl : XInl K (LOp K) G I}, XInv f P S xs →
    lrunOwn xs b = .ok (xs', inl) → (OwnTyped (attrs xs.st) b ∧ LInlOk b inl) ∧ xs'.st.subs.length = xs.st.subs.length + b.subs.length
  | .done, f, P, S, xs, xs', inl, h, he => by
    cases he
    exact ⟨⟨trivial, .done⟩, rfl⟩
  | .stmt s rest, f, P, S, xs, xs', inl, h, he => by
    rw [lrunOwn, lexec_ok h] at he
    cases hs : s.steps ((attrs xs.st).map (·.2)) ((attrs xs.st).map (·.1)) with
    | error e => rw [hs] at he; cases he
    | ok l =>
      rw [hs] at he
      simp only at he
      cases hx : xexecAll xs l with
      | error e => rw [hx] at he; cases he
      | ok xs1 =>
        rw [hx] at he
        simp only at he
        obtain ⟨⟨P', a1⟩, a2⟩ := XInv.all l h hx
        obtain ⟨⟨b1, b0⟩, b2⟩ := lrunOwn_ownTyped rest a1 he
        refine ⟨⟨⟨l, hs, a2 ▸ b1⟩, .stmt b0⟩, ?_⟩
        rw [b2, LBody.subs]
        have e1 := a1.inv.subs.length_eq
        have e2 := h.inv.subs.length_eq
        omega
  | .add false name p sub rest, f, P, S, xs, xs', inl, h, he => by
    rw [lrunOwn] at he
    cases hx : execAdd xs.st name p with
    | error e => rw [hx] at he; cases he
    | ok st =>
      rw [hx] at he
      simp only at he
      obtain ⟨a1, _⟩ := h.add name p hx
      obtain ⟨⟨b1, b0⟩, b2⟩ := lrunOwn_ownTyped rest a1 he
      rw [attrs_add h a1 hx] at b1
      refine ⟨⟨b1, .add b0⟩, ?_⟩
      rw [b2, LBody.subs]
      have e1 := a1.inv.subs.length_eq
      have e2 := h.inv.subs.length_eq
      simp only [List.length_append, List.length_cons, List.length_nil] at e1 e2 ⊢
      omega
  | .add true name p sub rest, f, P, S, xs, xs', inl, h, he => by
    rw [lrunOwn] at he
    cases h0 : lrunOwn ({ st := { objs := xs.st.objs } } : XSt K (LOp K) G I) sub with
    | error e => rw [h0] at he; cases he
    | ok q =>
      obtain ⟨m, ms⟩ := q
      rw [h0] at he
      simp only at he
      obtain ⟨⟨c1, c0⟩, c2⟩ := lrunOwn_ownTyped sub (XInv.start xs.st.objs) h0
      obtain ⟨s', hs'⟩ := pruned_typed sub [] c1
      rw [← lrunOwn_pruned, lrunOwn_typed sub.pruned s' (XInv.start xs.st.objs) hs'] at h0
      obtain ⟨_, hb⟩ := h.block (xrunOwn_start h0).1
      cases hx : execAdd { xs.st with objs := m.st.objs } name p with
      | error e => rw [hx] at he; cases he
      | ok st =>
        rw [hx] at he
        simp only at he
        cases h2 : lrunOwn { xs with st := st } rest with
        | error e => rw [h2] at he; cases he
        | ok q =>
          obtain ⟨xs2, r⟩ := q
          rw [h2] at he
          cases he
          obtain ⟨a1, _⟩ := hb.add name p hx
          obtain ⟨⟨b1, b0⟩, b2⟩ := lrunOwn_ownTyped rest a1 h2
          rw [attrs_add h a1 hx] at b1
          refine ⟨⟨⟨c1, b1⟩, .inline c1 (by simpa using c2) c0 b0⟩, ?_⟩
          rw [b2, LBody.subs]
          have e1 := a1.inv.subs.length_eq
          have e2 := h.inv.subs.length_eq
          simp only [List.length_append, List.length_cons, List.length_nil] at e1 e2 ⊢
          omega

theorem lrunSubs_subsTyped : ∀ (b : LBody K G I) (objs : List (PObj K (Fun (LOp K) G I))) (ids : List (Nat × Name × Option (List Name))) (inl : XInl K (LOp K) G I) (r : List (PObj K (Fun (LOp K) G I)) × OSubs), ids.length = b.subs.length →
    LInlOk b inl → lrunSubs objs ids inl b = .ok r → ∀ s ∈ b.subs, ∃ s', s.2.2.typed [] = .ok s'
  | .done, _, _, _, _, _, _, _ => by simp [LBody.subs]
  | .stmt s rest, objs, ids, inl, r, hl, hio, he => by
    rw [lrunSubs] at he
    cases hio with
    | stmt hio => exact lrunSubs_subsTyped rest objs ids inl r hl hio he
  | .add false name p sub rest, objs, ids, inl, r, hl, hio, he => by
    cases ids with
    | nil => simp [LBody.subs] at hl
    | cons i ids =>
      cases hio with
      | add hio =>
      rw [lrunSubs] at he
      cases h1 : lrunOwn ({ st := { objs := objs } } : XSt K (LOp K) G I) sub with
      | error e => rw [h1] at he; cases he
      | ok q =>
        obtain ⟨xs, ms⟩ := q
        rw [h1] at he
        simp only at he
        obtain ⟨⟨o1, o0⟩, o2⟩ := lrunOwn_ownTyped sub (XInv.start objs) h1
        cases h2 : lrunSubs xs.st.objs xs.st.subs ms sub with
        | error e => rw [h2] at he; cases he
        | ok q =>
          rw [h2] at he
          simp only at he
          have hsub := lrunSubs_subsTyped sub _ _ _ _ (by simpa using o2) o0 h2
          split_ifs at he
          cases h3 : lrunSubs q.1 ids inl rest with
          | error e => rw [h3] at he; cases he
          | ok q2 =>
            have hrest := lrunSubs_subsTyped rest _ _ _ _ (by simpa [LBody.subs] using hl) hio h3
            rw [LBody.subs]
            intro s hs
            rcases List.mem_cons.1 hs with rfl | hs
            · exact (typed_iff sub []).2 ⟨o1, hsub⟩
            · exact hrest s hs
  | .add true name p sub rest, objs, ids, inl, r, hl, hio, he => by
    cases ids with
    | nil => simp [LBody.subs] at hl
    | cons i ids =>
      cases hio with
      | @inline _ _ _ _ xs ms inl o1 o2 o0 hio =>
      rw [lrunSubs] at he
      cases h2 : lrunSubs objs xs.st.subs ms sub with
      | error e => rw [h2] at he; cases he
      | ok q =>
        rw [h2] at he
        simp only at he
        have hsub := lrunSubs_subsTyped sub _ _ _ _ o2 o0 h2
        split_ifs at he
        cases h3 : lrunSubs q.1 ids inl rest with
        | error e => rw [h3] at he; cases he
        | ok q2 =>
          have hrest := lrunSubs_subsTyped rest _ _ _ _ (by simpa [LBody.subs] using hl) hio h3
          rw [LBody.subs]
          intro s hs
          rcases List.mem_cons.1 hs with rfl | hs
          · exact (typed_iff sub []).2 ⟨o1, hsub⟩
          · exact hrest s hs

theorem lrunFrom_isTyped {pre : List (PObj K (Fun (LOp K) G I))} {b : LBody K G I} {r : List (PObj K (Fun (LOp K) G I)) × OModel} (h : lrunFrom pre b = .ok r) : ∃ b', b.typed [] = .ok b' := by
  rw [lrunFrom] at h
  cases h1 : lrunOwn ({ st := { objs := pre } } : XSt K (LOp K) G I) b with
  | error e => rw [h1] at h; cases h
  | ok q =>
    obtain ⟨xs, inl⟩ := q
    rw [h1] at h
    simp only at h
    obtain ⟨⟨o1, o0⟩, o2⟩ := lrunOwn_ownTyped b (XInv.start pre) h1
    cases h2 : lrunSubs xs.st.objs xs.st.subs inl b with
    | error e => rw [h2] at h; cases h
    | ok q => exact (typed_iff b []).2 ⟨o1, lrunSubs_subsTyped b _ _ _ _ (by simpa using o2) o0 h2⟩

end Csdl.Prog
