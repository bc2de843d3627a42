import Verif.Spec.ProgramFull
import Verif.Proofs.Program12
import Verif.Props.Accepts
/-
Programs with custom and implicit operations run as the programs with calls and registrations do.
-/
namespace Csdl.Prog
open Csdl Csdl.Arith
variable {K F G I : Type} [Field K] [DecidableEq K]

theorem dedup_nodup {F : Type} : ∀ (args : List Nat) (objs : List (PObj K F)) (seen : List Nat), args.Nodup → (∀ a ∈ args, a ∉ seen) → dedup objs seen args = (objs, args)
  | [], _, _, _, _ => rfl
  | a :: as, objs, seen, h, hs => by
    rw [List.nodup_cons] at h
    have := dedup_nodup as objs (a :: seen) h.2 fun x hx => by
      simp only [List.mem_cons, not_or]
      exact ⟨fun e => h.1 (e ▸ hx), hs x (by simp [hx])⟩
    simp only [dedup, if_neg (hs a (by simp)), this]

/-- the statements one after the other -/
def runList {F : Type} : St K F → List (Stmt K F) → Except Err (St K F)
  | st, [] => .ok st
  | st, s :: l =>
    match exec st s with
    | .error e => .error e
    | .ok st => runList st l

theorem runOwn_prefix {F : Type} : ∀ (l : List (Stmt K F)) (st : St K F) (b : Body K F), runOwn st (b.prefix l) = match runList st l with
    | .error e => .error e
    | .ok st' => runOwn st' b
  | [], _, _ => rfl
  | s :: l, st, b => by
    show runOwn st (.stmt s (b.prefix l)) = _
    rw [runOwn, runList]
    cases h : exec st s with
    | error e => rfl
    | ok st1 => exact runOwn_prefix l st1 b

/-- two lists of objects that differ at most in the names of the objects in `D` -/
structure SameBut {F : Type} (D : List Nat) (A B : List (PObj K F)) : Prop where
  out : ∀ o, o ∉ D → A[o]? = B[o]?
  in_ : ∀ o ∈ D, (A[o]?.map fun p => p.named []) = B[o]?.map fun p => p.named []

omit [Field K] [DecidableEq K] in
theorem SameBut.isOutput {F : Type} {D : List Nat} {A B : List (PObj K F)} (h : SameBut D A B) (o : Nat) : isOutput A o = isOutput B o := by
  unfold Prog.isOutput
  by_cases ho : o ∈ D
  · have := h.in_ o ho
    cases hA : A[o]? <;> cases hB : B[o]? <;> rw [hA, hB] at this <;> simp only [Option.map_some, Option.map_none, reduceCtorEq, Option.some.injEq] at this ⊢
    have e := congrArg (fun p : PObj K F => (p.obj.kind, p.obj.role)) this
    simp only [PObj.named, Prod.mk.injEq] at e
    rw [e.1, e.2]
  · rw [h.out o ho]

theorem registerAll_congr : ∀ (l : List (Name × Nat)) (st : St K (Fun F G I)) (A B : List (PObj K (Fun F G I))), SameBut (l.map (·.2)) A B → (l.map (·.2)).Nodup →
    (∀ o ∈ l.map (·.2), o ∉ st.inputs ∧ o ∉ st.outputs ∧ o ∉ st.declared) → registerAll { st with objs := A } l = registerAll { st with objs := B } l
  | [], st, A, B, h, _, _ => by
    have : A = B := List.ext_getElem? fun i => h.out i (by simp)
    rw [this]
  | (name, o) :: l, st, A, B, h, hn, hd => by
    rw [List.map_cons, List.nodup_cons] at hn
    have hu : userNames { st with objs := A } = userNames { st with objs := B } := by
      unfold userNames
      refine List.map_congr_left fun x hx => ?_
      have : x ∉ ((name, o) :: l).map (·.2) := by
        intro hm
        obtain ⟨h1, h2, h3⟩ := hd x hm
        simp only [List.mem_append] at hx
        tauto
      rw [h.out x this]
    simp only [registerAll, execRegister, h.isOutput o, hu]
    split_ifs
    · rfl
    · rfl
    · rfl
    · rfl
    · refine registerAll_congr l { st with outputs := st.outputs ++ [o] } _ _ ⟨?_, ?_⟩ hn.2 ?_
      · intro x hx
        simp only [rename, List.getElem?_modify]
        by_cases hxo : o = x
        · subst hxo
          have := h.in_ o (by simp)
          cases hA : A[o]? <;> cases hB : B[o]? <;> rw [hA, hB] at this <;> simp only [Option.map_some, Option.map_none, reduceCtorEq, Option.some.injEq, if_true] at this ⊢
          rename_i a b
          have e := congrArg (fun p : PObj K (Fun F G I) => p.named name) this
          simpa [PObj.named] using e
        · simp only [if_neg hxo]
          rw [h.out x (by simp only [List.map_cons, List.mem_cons, not_or]; exact ⟨fun e => hxo e.symm, hx⟩)]
      · intro x hx
        have hxo : ¬ o = x := fun e => hn.1 (e ▸ hx)
        simp only [rename, List.getElem?_modify, if_neg hxo]
        simpa using h.in_ x (by simp only [List.map_cons, List.mem_cons]; exact Or.inr hx)
      · intro x hx
        obtain ⟨h1, h2, h3⟩ := hd x (by simp only [List.map_cons, List.mem_cons]; exact Or.inr hx)
        refine ⟨h1, ?_, h3⟩
        simp only [List.mem_append, List.mem_singleton, not_or]
        exact ⟨h2, fun e => hn.1 (e ▸ hx)⟩

theorem runList_registers : ∀ (names : List Name) (m : Nat) (os : List Nat) (st : St K (Fun F G I)), names.length = os.length → (∀ j, j < os.length → st.env[m + j]? = os[j]?) →
    runList st (names.mapIdx fun j name => .register name (m + j)) = registerAll st (names.zip os)
  | [], _, _, _, _, _ => rfl
  | name :: names, m, [], _, h, _ => by simp at h
  | name :: names, m, o :: os, st, h, he => by
    have h0 := he 0 (by simp)
    simp only [Nat.add_zero, List.getElem?_cons_zero] at h0
    have hlt := lt_of_some h0
    have hg : st.env.getD m 0 = o := by rw [List.getD_eq_getElem?_getD, h0]; rfl
    simp only [List.mapIdx_cons, runList, exec, Nat.add_zero, if_pos hlt, hg, List.zip_cons_cons, registerAll]
    cases h1 : execRegister st name o with
    | error e => rfl
    | ok st1 =>
      have henv : st1.env = st.env := by
        unfold execRegister at h1
        split_ifs at h1
        cases h1
        rfl
      have := runList_registers names (m + 1) os st1 (by simpa using h) (fun j hj => by
        rw [henv, show m + 1 + j = m + (j + 1) by omega, he (j + 1) (by simpa using hj), List.getElem?_cons_succ])
      show runList st1 _ = registerAll st1 _
      rw [← this]
      congr 2
      funext j name
      rw [show m + (j + 1) = m + 1 + j by omega]

theorem newOp_same (objs : List (PObj K (Fun F G I))) (k : Kind K (Fun F G I)) (deps : List Nat) (outs : List (Name × Shape)) :
    SameBut (List.range' (objs.length + 1) outs.length) (newOpNamed objs k deps outs) (newOp objs k deps (outs.map (·.2))) := by
  unfold newOpNamed newOp
  rw [List.length_map]
  constructor
  · intro o ho
    by_cases h1 : o < objs.length
    · rw [List.getElem?_append_left h1, List.getElem?_append_left h1]
    · rw [List.getElem?_append_right (by omega), List.getElem?_append_right (by omega)]
      cases h2 : o - objs.length with
      | zero => rfl
      | succ j =>
        have : outs.length ≤ j := by
          by_contra hc
          exact ho (List.mem_range'_1.2 ⟨by omega, by omega⟩)
        rw [List.getElem?_cons_succ, List.getElem?_cons_succ, List.getElem?_eq_none (by simpa using this), List.getElem?_eq_none (by simpa using this)]
  · intro o ho
    obtain ⟨h1, h2⟩ := List.mem_range'_1.1 ho
    rw [List.getElem?_append_right (by omega), List.getElem?_append_right (by omega)]
    obtain ⟨j, h3⟩ : ∃ j, o - objs.length = j + 1 := ⟨o - objs.length - 1, by omega⟩
    rw [h3, List.getElem?_cons_succ, List.getElem?_cons_succ, List.getElem?_mapIdx, List.getElem?_mapIdx, List.getElem?_map]
    cases outs[j]? with
    | none => rfl
    | some a => rfl

/-- a named operation runs as a call followed by registrations -/
theorem execNamed_eq (st : St K (Fun F G I)) (k : Fun F G I) (args : List Nat) (outs : List (Name × Shape)) (names : List Name) (ha : ∀ a ∈ args, a < st.env.length)
    (hnd : (args.map (st.env.getD · 0)).Nodup) (hl : names.length = outs.length) (hf : ∀ o, o ∈ st.inputs ∨ o ∈ st.outputs ∨ o ∈ st.declared → o < st.objs.length) :
    execNamed st k args outs names = runList st (.call k args (outs.map (·.2)) :: registers st.env.length names) := by
  have h1 : args.all (· < st.env.length) = true := by simpa using ha
  simp only [runList, exec, h1, if_true, execCall, dedup_nodup _ st.objs [] hnd (by simp), registers]
  rw [runList_registers names st.env.length (List.range' (st.objs.length + 1) outs.length) _ (by simpa using hl)]
  · unfold execNamed
    rw [List.length_map]
    have hz : (names.zip (List.range' (st.objs.length + 1) outs.length)).map (·.2) = List.range' (st.objs.length + 1) outs.length := List.map_snd_zip (by simp [hl])
    refine registerAll_congr (K := K) (names.zip (List.range' (st.objs.length + 1) outs.length)) { st with env := st.env ++ List.range' (st.objs.length + 1) outs.length } _ _ ?_ ?_ ?_
    · rw [hz]; exact newOp_same st.objs _ _ outs
    · rw [hz]; exact List.nodup_range'
    · rw [hz]
      intro o ho
      have := (List.mem_range'_1.1 ho).1
      refine ⟨fun h => ?_, fun h => ?_, fun h => ?_⟩
      · have := hf o (Or.inl h); omega
      · have := hf o (Or.inr (Or.inl h)); omega
      · have := hf o (Or.inr (Or.inr h)); omega
  · intro j hj
    rw [List.length_range'] at hj
    simp only [List.length_map]
    rw [List.getElem?_append_right (by omega), Nat.add_sub_cancel_left]

/-! ### one statement -/

theorem loopErr_run (limit : Nat) : ∀ (cs : List (Custom.CCall K Nat)) (o o' : Custom.Op Nat), Custom.loopErr (Custom.step limit) o cs = (o', none) → Custom.run limit o cs = o'
  | [], o, o', h => by cases h; rfl
  | c :: cs, o, o', h => by
    rw [Custom.loopErr_cons] at h
    unfold Custom.andThen at h
    show Custom.run limit (Custom.step limit o c).1 cs = o'
    cases h1 : Custom.step limit o c with
    | mk o1 e =>
      rw [h1] at h
      cases e with
      | none => exact loopErr_run limit cs o1 o' h
      | some e => cases h

/-- an accepted custom operation -/
theorem custom_ok_iff (calls : List (Custom.CCall K Nat)) (args outs : List (Name × Shape)) : (Custom.custom 1000 ({} : Custom.Op Nat) calls args).2 = .ok outs ↔
    ∃ o, Custom.loopErr (Custom.step 1000) ({} : Custom.Op Nat) calls = (o, none) ∧ o.inputs = args.map (fun a => (a.1, some a.2)) ∧ o.outputs = outs.map (fun a => (a.1, some a.2)) := by
  constructor
  · intro h
    cases hc : Custom.loopErr (Custom.step 1000) ({} : Custom.Op Nat) calls with
    | mk o e =>
      cases e with
      | some e => simp only [Custom.custom, hc] at h; cases h
      | none =>
        obtain ⟨h1, h2, _⟩ := Custom.C54_arguments_match 1000 (Custom.custom 1000 ({} : Custom.Op Nat) calls args).1 calls args outs (by rw [← h])
        rw [loopErr_run 1000 calls _ o hc] at h1 h2
        exact ⟨o, rfl, h1, h2⟩
  · rintro ⟨o, h1, h2, h3⟩
    exact Custom.C54_accepts 1000 o calls args outs h1 h2 h3

theorem results_custom (g : G) (calls : List (Custom.CCall K Nat)) (args : List Nat) (names : List Name) (o : Custom.Op Nat) (outs : List (Name × Shape))
    (h : Custom.loopErr (Custom.step 1000) ({} : Custom.Op Nat) calls = (o, none)) (ho : o.outputs = outs.map (fun a => (a.1, some a.2))) :
    (XStmt.custom g calls args names : XStmt K F G I).results = outs := by
  simp only [XStmt.results, loopErr_run 1000 calls _ o h, ho, List.filterMap_map]
  show outs.filterMap (fun a => some (a.1, a.2)) = outs
  simp

/-- what a statement that is not one of Verif/Model/Program.lean requires, apart from what calls and registrations do -/
def Side (xs : XSt K F G I) : XStmt K F G I → Prop
  | .plain _ => True
  | .custom _ calls args names => ∃ (o : Custom.Op Nat) (outs : List (Name × Shape)), Custom.loopErr (Custom.step 1000) ({} : Custom.Op Nat) calls = (o, none) ∧
      o.inputs = (argInfo xs.st args).map (fun a => (a.1, some a.2)) ∧ o.outputs = outs.map (fun a => (a.1, some a.2)) ∧ names.length = outs.length
  | .implicit _ M fuel fac expose args => ∃ maps so, genMaps M fuel (argInfo xs.st args) (fac.states.map (·.1)) fac.residuals expose = .ok maps ∧ stateOuts M fac.states = .ok so ∧ so ++ exposedOuts M expose ≠ []
  | .designVar name _ => name ∈ xs.st.inputs.map (nameOf xs.st.objs) ∧ xs.designVars.has name = false
  | .constraint name _ => xs.constraints.has name = false
  | .objective _ _ => xs.objective = none

/-- the optimisation declarations after a statement -/
def XSt.declare (xs : XSt K F G I) (st : St K (Fun F G I)) : XStmt K F G I → XSt K F G I
  | .designVar name d => { xs with st := st, designVars := xs.designVars.set name d }
  | .constraint name d => { xs with st := st, constraints := xs.constraints.set name d }
  | .objective name d => { xs with st := st, objective := some (name, d) }
  | _ => { xs with st := st }

theorem after_ok {xs xs' : XSt K F G I} {r : Except Err (St K (Fun F G I))} : xs.after r = .ok xs' ↔ ∃ st, r = .ok st ∧ xs' = { xs with st := st } := by
  cases r with
  | error e => simp [XSt.after]
  | ok st => simp [XSt.after, eq_comm]

theorem args_nodup {st : St K (Fun F G I)} {args : List Nat} (h : ((argInfo st args).map (·.1)).Nodup) : (args.map (st.env.getD · 0)).Nodup := by
  unfold argInfo at h
  rw [List.map_map] at h
  have : (args.map (st.env.getD · 0)).map (nameOf st.objs) = args.map ((fun a : Name × Shape => a.1) ∘ fun x => (nameOf st.objs (st.env.getD x 0), shapeOf st.objs (st.env.getD x 0))) := by
    rw [List.map_map]; rfl
  rw [← this] at h
  exact h.of_map _

theorem genMaps_nodup {M : IModel} {fuel : Nat} {args : List (Name × Shape)} {states residuals expose : List Name} {maps : IMaps} (h : genMaps M fuel args states residuals expose = .ok maps) : (args.map (·.1)).Nodup := by
  unfold genMaps at h
  split_ifs at h with h1 h2
  exact h2

/-- one statement -/
theorem xexec_iff {xs xs' : XSt K F G I} (hf : ∀ o, o ∈ xs.st.inputs ∨ o ∈ xs.st.outputs ∨ o ∈ xs.st.declared → o < xs.st.objs.length) (s : XStmt K F G I) :
    xexec xs s = .ok xs' ↔ Side xs s ∧ ∃ st, runList xs.st (s.low xs.st.env.length) = .ok st ∧ xs' = xs.declare st s := by
  have hcall : ∀ (k : Fun F G I) (args : List Nat) (outs : List Shape) (l : List (Stmt K (Fun F G I))), ¬ (args.all (· < xs.st.env.length) = true) → ∀ st, runList xs.st (.call k args outs :: l) ≠ .ok st := by
    intro k args outs l hc st h
    simp only [runList, exec, if_neg hc] at h
    cases h
  cases s with
  | plain s =>
    simp only [xexec, after_ok, Side, true_and, XStmt.low, runList, XSt.declare]
    cases exec xs.st s.lift with
    | error e => simp
    | ok st => simp
  | custom g calls args names =>
    simp only [xexec, Side, XStmt.low, XSt.declare]
    by_cases ha : args.all (· < xs.st.env.length) = true
    · have ha' : ∀ a ∈ args, a < xs.st.env.length := by simpa using ha
      rw [if_pos ha, after_ok]
      constructor
      · rintro ⟨st, h, rfl⟩
        unfold execCustom at h
        cases hc : (Custom.custom 1000 ({} : Custom.Op Nat) calls (argInfo xs.st args)).2 with
        | error e => rw [hc] at h; cases h
        | ok outs =>
          rw [hc] at h
          simp only at h
          split_ifs at h with hl
          have hl : names.length = outs.length := by simpa using hl
          obtain ⟨o, h1, h2, h3⟩ := (custom_ok_iff calls _ outs).1 hc
          have hnd : ((argInfo xs.st args).map (·.1)).Nodup := by
            have := (Custom.C38_declared_once_partial 1000 calls).1
            rw [loopErr_run 1000 calls _ o h1, h2, Dict.keys, List.map_map] at this
            exact this
          refine ⟨⟨o, outs, h1, h2, h3, hl⟩, st, ?_, rfl⟩
          rw [results_custom g calls args names o outs h1 h3, ← execNamed_eq xs.st _ args outs names ha' (args_nodup hnd) hl hf]
          exact h
      · rintro ⟨⟨o, outs, h1, h2, h3, hl⟩, st, h, rfl⟩
        have hnd : ((argInfo xs.st args).map (·.1)).Nodup := by
          have := (Custom.C38_declared_once_partial 1000 calls).1
          rw [loopErr_run 1000 calls _ o h1, h2, Dict.keys, List.map_map] at this
          exact this
        rw [results_custom g calls args names o outs h1 h3, ← execNamed_eq xs.st _ args outs names ha' (args_nodup hnd) hl hf] at h
        refine ⟨st, ?_, rfl⟩
        unfold execCustom
        rw [(custom_ok_iff calls _ outs).2 ⟨o, h1, h2, h3⟩]
        simp only [hl, ne_eq, not_true_eq_false, if_false]
        exact h
    · rw [if_neg ha]
      constructor
      · rintro h; cases h
      · rintro ⟨_, st, h, _⟩
        exact absurd h (hcall _ _ _ _ ha st)
  | implicit i M fuel fac expose args =>
    simp only [xexec, Side, XStmt.low, XSt.declare, XStmt.results]
    by_cases ha : args.all (· < xs.st.env.length) = true
    · have ha' : ∀ a ∈ args, a < xs.st.env.length := by simpa using ha
      rw [if_pos ha, after_ok]
      unfold execImplicit
      cases hg : genMaps M fuel (argInfo xs.st args) (fac.states.map (·.1)) fac.residuals expose with
      | error e => simp
      | ok maps =>
        have hnd := args_nodup (genMaps_nodup hg)
        cases hs : stateOuts M fac.states with
        | error e => simp
        | ok so =>
          simp only [Except.ok.injEq, exists_and_left, exists_eq_left', exists_const]
          by_cases hne : so ++ exposedOuts M expose = []
          · simp [hne]
          · rw [if_neg hne, execNamed_eq xs.st _ args _ _ ha' hnd (by simp) hf]
            simp [hne]
    · rw [if_neg ha]
      constructor
      · rintro h; cases h
      · rintro ⟨_, st, h, _⟩
        exact absurd h (hcall _ _ _ _ ha st)
  | designVar name d =>
    simp only [xexec, Side, XStmt.low, runList, XSt.declare, Except.ok.injEq, exists_eq_left']
    by_cases h1 : name ∈ xs.st.inputs.map (nameOf xs.st.objs)
    · cases h2 : xs.designVars.has name <;> simp [h1, eq_comm]
    · simp [h1]
  | constraint name d =>
    simp only [xexec, Side, XStmt.low, runList, XSt.declare, Except.ok.injEq, exists_eq_left']
    cases h2 : xs.constraints.has name <;> simp [eq_comm]
  | objective name d =>
    simp only [xexec, Side, XStmt.low, runList, XSt.declare, Except.ok.injEq, exists_eq_left']
    cases h2 : xs.objective <;> simp [eq_comm]

/-! ### a method -/

/-- the number of variables created -/
def total {F : Type} (l : List (Stmt K F)) : Nat := (l.map Stmt.count).sum

omit [Field K] [DecidableEq K] in
theorem stmts_prefix {F : Type} : ∀ (l : List (Stmt K F)) (n : Nat) (b : Body K F), (b.prefix l).stmts n = number n l ++ b.stmts (n + total l)
  | [], n, b => by simp [Body.prefix, number, total]
  | s :: l, n, b => by
    show (Body.stmt s (b.prefix l)).stmts n = _
    rw [Body.stmts, stmts_prefix l]
    simp [number, total, Nat.add_assoc]

omit [DecidableEq K] in
theorem total_low (s : XStmt K F G I) (n : Nat) : total (s.low n) = s.count := by
  have hr : ∀ (m : Nat) (names : List Name), total (registers m names : List (Stmt K (Fun F G I))) = 0 := by
    intro m names
    unfold total registers
    refine List.sum_eq_zero ?_
    intro x hx
    obtain ⟨s, hs, rfl⟩ := List.mem_map.1 hx
    obtain ⟨i, h1, rfl⟩ := List.mem_mapIdx.1 hs
    rfl
  cases s with
  | plain s => cases s <;> simp [XStmt.low, total, XStmt.count, Stmt.lift, Stmt.count]
  | custom g calls args names =>
    have := hr n names
    simp only [total] at this
    simp [XStmt.low, total, XStmt.count, Stmt.count, this]
  | implicit i M fuel fac expose args =>
    have := hr n ((XStmt.implicit i M fuel fac expose args : XStmt K F G I).results.map (·.1))
    simp only [total] at this
    simp [XStmt.low, total, XStmt.count, Stmt.count, this]
  | designVar => rfl
  | constraint => rfl
  | objective => rfl

omit [DecidableEq K] in
theorem low_stmts : ∀ (b : XBody K F G I) (n : Nat), (b.low n).stmts n = lowAll (b.stmts n)
  | .done, n => rfl
  | .stmt s rest, n => by
    rw [XBody.low, stmts_prefix, total_low, low_stmts rest, XBody.stmts]
    simp [lowAll]
  | .add _ _ _ _ rest, n => low_stmts rest n

omit [Field K] [DecidableEq K] in
theorem subs_prefix {F : Type} : ∀ (l : List (Stmt K F)) (b : Body K F), (b.prefix l).subs = b.subs
  | [], _ => rfl
  | _ :: l, b => subs_prefix l b

omit [DecidableEq K] in
theorem low_subs : ∀ (b : XBody K F G I) (n : Nat), (b.low n).subs = b.subs.map fun t => (t.1, t.2.1, t.2.2.low 0)
  | .done, n => rfl
  | .stmt s rest, n => by rw [XBody.low, subs_prefix, low_subs rest, XBody.subs]
  | .add _ _ _ _ rest, n => by
    rw [XBody.low, Body.subs, low_subs rest, XBody.subs]; rfl

theorem Inv.runList {F : Type} {objs0 : Foreign K F} : ∀ (l : List (Stmt K F)) {L : List (Nat × Stmt K F)} {S : List (Name × Option (List Name))} {st st' : St K F}, Inv objs0 L S st → Prog.runList st l = .ok st' →
    Inv objs0 (L ++ number st.env.length l) S st' ∧ st'.env.length = st.env.length + total l ∧ st'.subs = st.subs
  | [], L, S, st, st', h, he => by
    cases he
    simpa [number, total] using h
  | s :: l, L, S, st, st', h, he => by
    unfold Prog.runList at he
    cases h1 : Prog.exec st s with
    | error e => rw [h1] at he; cases he
    | ok st1 =>
      rw [h1] at he
      obtain ⟨a1, a2, a3⟩ := h.exec s h1
      obtain ⟨b1, b2, b3⟩ := Inv.runList l a1 he
      rw [a2] at b1
      refine ⟨by simpa [number] using b1, ?_, b3.trans a3⟩
      rw [b2, a2]
      simp [total, Nat.add_assoc]

/-- the state after the statements `P` -/
structure XInv (objs0 : Foreign K (Fun F G I)) (P : List (Nat × XStmt K F G I)) (S : List (Name × Option (List Name))) (xs : XSt K F G I) : Prop where
  inv : Inv objs0 (lowAll P) S xs.st
  designVars : xs.designVars = P.filterMap fun y => y.2.designVar?
  constraints : xs.constraints = P.filterMap fun y => y.2.constraint?
  objective : xs.objective = (P.filterMap fun y => y.2.objective?).head?

theorem XInv.start (objs : List (PObj K (Fun F G I))) : XInv (Foreign.of objs) [] [] ({ st := { objs := objs } } : XSt K F G I) := ⟨Inv.start objs, rfl, rfl, rfl⟩

theorem Inv.listsLt {F : Type} {objs0 : Foreign K F} {L : List (Nat × Stmt K F)} {S : List (Name × Option (List Name))} {st : St K F} (h : Inv objs0 L S st) :
    ∀ o, o ∈ st.inputs ∨ o ∈ st.outputs ∨ o ∈ st.declared → o < st.objs.length := by
  rintro o (ho | ho | ho)
  · obtain ⟨_, p, hp, _⟩ := h.inputRole o ho; exact lt_of_some hp
  · obtain ⟨_, p, hp, _⟩ := h.outputRole o ho; exact lt_of_some hp
  · obtain ⟨_, p, hp, _⟩ := h.declaredRole o ho; exact lt_of_some hp

omit [Field K] [DecidableEq K] in
theorem not_has_iff (d : Dict Name Nat) (name : Name) : d.has name = false ↔ ∀ x, (name, x) ∉ d := by
  rw [← Bool.not_eq_true, Dict.has_iff]
  simp [Dict.keys]

theorem XInv.exec {objs0 : Foreign K (Fun F G I)} {P : List (Nat × XStmt K F G I)} {S : List (Name × Option (List Name))} {xs xs' : XSt K F G I} (h : XInv objs0 P S xs) (s : XStmt K F G I) (he : xexec xs s = .ok xs') :
    XInv objs0 (P ++ [(xs.st.env.length, s)]) S xs' ∧ xs'.st.env.length = xs.st.env.length + s.count := by
  obtain ⟨hs, st, h1, rfl⟩ := (xexec_iff h.inv.listsLt s).1 he
  obtain ⟨a1, a2, a3⟩ := h.inv.runList _ h1
  have hst : (xs.declare st s).st = st := by cases s <;> rfl
  rw [total_low] at a2
  refine ⟨⟨?_, ?_, ?_, ?_⟩, by rw [hst, a2]⟩
  · rw [hst]
    simpa [lowAll] using a1
  · rw [List.filterMap_append]
    cases s with
    | designVar name d =>
      have : name ∉ Dict.keys xs.designVars := fun hc => by
        have := Dict.has_iff.2 hc
        rw [hs.2] at this; cases this
      show xs.designVars.set name d = _
      rw [Dict.set_append_of_notin this, h.designVars]; rfl
    | _ => simpa [XSt.declare, XStmt.designVar?] using h.designVars
  · rw [List.filterMap_append]
    cases s with
    | constraint name d =>
      have : name ∉ Dict.keys xs.constraints := fun hc => by
        have := Dict.has_iff.2 hc
        rw [show xs.constraints.has name = false from hs] at this; cases this
      show xs.constraints.set name d = _
      rw [Dict.set_append_of_notin this, h.constraints]; rfl
    | _ => simpa [XSt.declare, XStmt.constraint?] using h.constraints
  · rw [List.filterMap_append]
    cases s with
    | objective name d =>
      have h0 : xs.objective = none := hs
      rw [h.objective, List.head?_eq_none_iff] at h0
      rw [h0]; rfl
    | _ => simpa [XSt.declare, XStmt.objective?] using h.objective

theorem XInv.add {objs0 : Foreign K (Fun F G I)} {P : List (Nat × XStmt K F G I)} {S : List (Name × Option (List Name))} {xs : XSt K F G I} {st : St K (Fun F G I)} (h : XInv objs0 P S xs) (name : Name)
    (pr : Option (List Name)) (he : execAdd xs.st name pr = .ok st) : XInv objs0 P (S ++ [(name, pr)]) { xs with st := st } ∧ st.env = xs.st.env := by
  unfold execAdd at he
  split_ifs at he with h1 h2
  cases he
  exact ⟨⟨h.inv.add name pr (by simpa using h1) h2, h.designVars, h.constraints, h.objective⟩, rfl⟩

/-- the models defined in `with` blocks, without the optimisation declarations -/
def XInl.low : XInl K F G I → Inl K (Fun F G I)
  | .nil => .nil
  | .cons xs ms inl => .cons xs.st ms.low inl.low

/-- what is known of the models defined in `with` blocks: the declarations, and the number of submodels -/
inductive XInlOk : XBody K F G I → XInl K F G I → Prop
  | done : XInlOk .done .nil
  | stmt {s : XStmt K F G I} {rest : XBody K F G I} {inl : XInl K F G I} : XInlOk rest inl → XInlOk (.stmt s rest) inl
  | add {n : Name} {p : Option (List Name)} {sub rest : XBody K F G I} {inl : XInl K F G I} : XInlOk rest inl → XInlOk (.add false n p sub rest) inl
  | inline {n : Name} {p : Option (List Name)} {sub rest : XBody K F G I} {xs : XSt K F G I} {ms inl : XInl K F G I} : xs.designVars = sub.locals.designVars → xs.constraints = sub.locals.constraints →
      xs.objective = sub.locals.objective → xs.st.subs.length = sub.subs.length → XInlOk sub ms → XInlOk rest inl → XInlOk (.add true n p sub rest) (.cons xs ms inl)

/-- after a `with` block -/
theorem XInv.block {f : Foreign K (Fun F G I)} {P : List (Nat × XStmt K F G I)} {S : List (Name × Option (List Name))} {xs : XSt K F G I} (h : XInv f P S xs) {sub : Body K (Fun F G I)} {m : St K (Fun F G I)}
    {ms : Inl K (Fun F G I)} (h1 : Prog.runOwn { objs := xs.st.objs } sub = .ok (m, ms)) : ∃ f', XInv f' P S { xs with st := { xs.st with objs := m.objs } } := by
  obtain ⟨f', hb⟩ := h.inv.block h1
  exact ⟨f', hb, h.designVars, h.constraints, h.objective⟩

/-- A method that runs, runs as the method with calls and registrations does. -/
theorem XInv.runOwn : ∀ (b : XBody K F G I) {f : Foreign K (Fun F G I)} {P : List (Nat × XStmt K F G I)} {S : List (Name × Option (List Name))} {xs xs' : XSt K F G I} {inl : XInl K F G I}, XInv f P S xs →
    xrunOwn xs b = .ok (xs', inl) → Prog.runOwn xs.st (b.low xs.st.env.length) = .ok (xs'.st, inl.low) ∧ XInlOk b inl ∧ ∃ f' S', XInv f' (P ++ b.stmts xs.st.env.length) S' xs'
  | .done, f, P, S, xs, xs', inl, h, he => by
    cases he
    exact ⟨rfl, .done, f, S, by simpa [XBody.stmts] using h⟩
  | .stmt s rest, f, P, S, xs, xs', inl, h, he => by
    rw [xrunOwn] at he
    cases h1 : xexec xs s with
    | error e => rw [h1] at he; cases he
    | ok xs1 =>
      rw [h1] at he
      simp only at he
      obtain ⟨a1, a2⟩ := h.exec s h1
      obtain ⟨b1, b0, f', S', b2⟩ := XInv.runOwn rest a1 he
      obtain ⟨_, st, c1, c2⟩ := (xexec_iff h.inv.listsLt s).1 h1
      have hst : xs1.st = st := by rw [c2]; cases s <;> rfl
      rw [a2] at b1 b2
      refine ⟨?_, .stmt b0, f', S', by simpa [XBody.stmts] using b2⟩
      rw [XBody.low, runOwn_prefix, c1]
      simp only
      rw [← hst]
      exact b1
  | .add false name pr sub rest, f, P, S, xs, xs', inl, h, he => by
    rw [xrunOwn] at he
    cases h1 : execAdd xs.st name pr with
    | error e => rw [h1] at he; cases he
    | ok st =>
      rw [h1] at he
      simp only at he
      obtain ⟨a1, a2⟩ := h.add name pr h1
      obtain ⟨b1, b0, f', S', b2⟩ := XInv.runOwn rest a1 he
      simp only [a2] at b1 b2
      refine ⟨?_, .add b0, f', S', b2⟩
      rw [XBody.low, Prog.runOwn, h1]
      exact b1
  | .add true name pr sub rest, f, P, S, xs, xs', inl, h, he => by
    rw [xrunOwn] at he
    cases h0 : xrunOwn { st := { objs := xs.st.objs } } sub with
    | error e => rw [h0] at he; cases he
    | ok q =>
      obtain ⟨m, ms⟩ := q
      rw [h0] at he
      simp only at he
      obtain ⟨c1, c2, _, _, c3⟩ := XInv.runOwn sub (XInv.start xs.st.objs) h0
      simp only [List.length_nil, List.nil_append] at c1 c3
      cases h1 : execAdd { xs.st with objs := m.st.objs } name pr with
      | error e => rw [h1] at he; cases he
      | ok st =>
        rw [h1] at he
        simp only at he
        cases h2 : xrunOwn { xs with st := st } rest with
        | error e => rw [h2] at he; cases he
        | ok q =>
          obtain ⟨xs2, r⟩ := q
          rw [h2] at he
          cases he
          obtain ⟨_, hb⟩ := h.block c1
          obtain ⟨a1, a2⟩ := hb.add name pr h1
          obtain ⟨b1, b0, f', S', b2⟩ := XInv.runOwn rest a1 h2
          simp only [a2] at b1 b2
          obtain ⟨_, _, _, _, g⟩ := runOwn_inv c1
          refine ⟨?_, .inline c3.designVars c3.constraints c3.objective ?_ c2 b0, f', S', b2⟩
          · rw [XBody.low, Prog.runOwn, c1]
            simp only
            rw [h1]
            simp only
            rw [b1]
            rfl
          · rw [g.subs.length_eq]
            simp [Body.added, low_subs]

/-! ### which methods run -/

theorem XInv.argsAre {objs0 : Foreign K (Fun F G I)} {P : List (Nat × XStmt K F G I)} {S : List (Name × Option (List Name))} {xs : XSt K F G I} (h : XInv objs0 P S xs) (hn : xs.st.objs.length ≤ 63 ^ 4) :
    ∀ (args : List Nat) (ins : List (Name × Shape)), (∀ a ∈ args, a < xs.st.env.length) → (∀ a ∈ ins, ¬ AutoLike a.1) → (ArgsAre P args ins ↔ argInfo xs.st args = ins)
  | [], ins, _, _ => by
    constructor
    · intro h1; cases h1; rfl
    · rintro rfl; exact .nil
  | x :: args, [], _, _ => by
    constructor
    · intro h1; cases h1
    · intro h1; cases h1
  | x :: args, a :: ins, hx, ha => by
    have ih := XInv.argsAre h hn args ins (fun y hy => hx y (by simp [hy])) (fun y hy => ha y (by simp [hy]))
    have hl := hx x (by simp)
    have he : xs.st.env[x]? = some (xs.st.env.getD x 0) := by
      rw [List.getD_eq_getElem?_getD, List.getElem?_eq_getElem hl]; rfl
    have hsh := h.inv.shapeOf hl
    have hnm : NamedIn (lowAll P) x a.1 ↔ nameOf xs.st.objs (xs.st.env.getD x 0) = a.1 := by
      rw [h.inv.namedIn he]
      refine ⟨fun h => h.2, fun h1 => ⟨?_, h1⟩⟩
      by_contra hc
      have hb := h.inv.env _ (List.mem_of_getElem? he)
      obtain ⟨hb1, p, hp, hk⟩ := hb
      refine ha a (by simp) ?_
      rw [← h1, nameOf, hp]
      show AutoLike p.obj.name
      rcases h.inv.names _ p hp hb1 with h2 | h2 | h2 | h2 | h2
      · exact absurd (Or.inl h2) hc
      · exact absurd (Or.inr (Or.inl h2)) hc
      · exact absurd (Or.inr (Or.inr h2)) hc
      · obtain ⟨i, hi, hi2⟩ := List.mem_map.1 h2
        have := (h.inv.subLt i hi).2.2.2
        rw [hi2, objects_eq hp, hk] at this
        cases this
      · rw [h2, h.inv.autos _ p hp hb1]
        exact auto_like (by have := lt_of_some hp; omega)
    unfold ArgsAre at ih ⊢
    rw [List.forall₂_cons, ih, hnm, hsh]
    unfold argInfo
    rw [List.map_cons, List.cons.injEq]
    constructor
    · rintro ⟨⟨h1, h2⟩, h3⟩
      exact ⟨by rw [h1, h2], h3⟩
    · rintro ⟨h1, h3⟩
      exact ⟨⟨congrArg Prod.fst h1, congrArg Prod.snd h1⟩, h3⟩

theorem call_args {F : Type} {st st' : St K F} {f : F} {args : List Nat} {outs : List Shape} {l : List (Stmt K F)} (h : runList st (.call f args outs :: l) = .ok st') : ∀ a ∈ args, a < st.env.length := by
  by_contra hc
  have : ¬ (args.all (· < st.env.length) = true) := by simpa using hc
  simp only [runList, exec, if_neg this] at h
  cases h

theorem genMaps_args {M : IModel} {fuel : Nat} {args : List (Name × Shape)} {states residuals expose : List Name} {maps : IMaps} (h : genMaps M fuel args states residuals expose = .ok maps) :
    ∀ a ∈ args, ∃ v ∈ M.declared, (M.h v).name = a.1 := by
  unfold genMaps at h
  split_ifs at h
  cases hc : checkArgs M args with
  | error e => rw [hc] at h; cases h
  | ok u =>
    intro a ha
    obtain ⟨v, h1, h2, _⟩ := checkArgs_ok hc a ha
    exact ⟨v, h1, h2⟩

theorem XInv.side {objs0 : Foreign K (Fun F G I)} {P : List (Nat × XStmt K F G I)} {S : List (Name × Option (List Name))} {xs : XSt K F G I} (h : XInv objs0 P S xs) (hn : xs.st.objs.length ≤ 63 ^ 4)
    (s : XStmt K F G I) (n : Nat) (hs : ∀ name ∈ s.names n, ¬ AutoLike name) {st : St K (Fun F G I)} (hr : runList xs.st (s.low xs.st.env.length) = .ok st) : Side xs s ↔ XStmtOk P s := by
  cases s with
  | plain s => exact Iff.rfl
  | custom g calls args names =>
    have ha := call_args hr
    have hin : ∀ (o : Custom.Op Nat) (ins : List (Name × Shape)), Custom.loopErr (Custom.step 1000) ({} : Custom.Op Nat) calls = (o, none) → o.inputs = ins.map (fun a => (a.1, some a.2)) → ∀ a ∈ ins, ¬ AutoLike a.1 := by
      intro o ins h1 h2 a ha
      refine hs a.1 ?_
      simp only [XStmt.names, List.mem_append]
      right
      rw [loopErr_run 1000 calls _ o h1, h2, List.map_map]
      exact List.mem_map.2 ⟨a, ha, rfl⟩
    constructor
    · rintro ⟨o, outs, h1, h2, h3, h4⟩
      exact ⟨o, _, outs, h1, h2, h3, h4, (h.argsAre hn args _ ha (hin o _ h1 h2)).2 rfl⟩
    · rintro ⟨o, ins, outs, h1, h2, h3, h4, h5⟩
      rw [h.argsAre hn args _ ha (hin o _ h1 h2)] at h5
      exact ⟨o, outs, h1, by rw [h5]; exact h2, h3, h4⟩
  | implicit i M fuel fac expose args =>
    have ha := call_args hr
    have hin : ∀ (ins : List (Name × Shape)) maps, genMaps M fuel ins (fac.states.map (·.1)) fac.residuals expose = .ok maps → ∀ a ∈ ins, ¬ AutoLike a.1 := by
      intro ins maps h1 a ha
      refine hs a.1 ?_
      simp only [XStmt.names, List.mem_append]
      right
      obtain ⟨v, h2, h3⟩ := genMaps_args h1 a ha
      exact List.mem_map.2 ⟨v, h2, h3⟩
    constructor
    · rintro ⟨maps, so, h1, h2, h3⟩
      exact ⟨_, maps, so, (h.argsAre hn args _ ha (hin _ _ h1)).2 rfl, h1, h2, h3⟩
    · rintro ⟨ins, maps, so, h5, h1, h2, h3⟩
      rw [h.argsAre hn args _ ha (hin _ _ h1)] at h5
      exact ⟨maps, so, by rw [h5]; exact h1, h2, h3⟩
  | designVar name d =>
    simp only [Side, XStmtOk, not_has_iff, h.designVars]
    refine and_congr_left fun _ => ?_
    rw [List.mem_map]
    constructor
    · rintro ⟨o, ho, rfl⟩
      obtain ⟨⟨x, nm, sh⟩, hx, h1, h2, _⟩ := forall₂_mem_left h.inv.inputs ho
      rw [nameOf_info, h2]
      exact ⟨x, sh, hx⟩
    · rintro ⟨i, sh, hx⟩
      obtain ⟨o, ho, h1, h2, _⟩ := forall₂_mem_right h.inv.inputs hx
      exact ⟨o, ho, by rw [nameOf_info, h2]⟩
  | constraint name d => simp only [Side, XStmtOk, not_has_iff, h.constraints]
  | objective name d => simp only [Side, XStmtOk, h.objective, List.head?_eq_none_iff]

theorem runList_length {F : Type} : ∀ (l : List (Stmt K F)) {st st' : St K F}, runList st l = .ok st' → st'.objs.length ≤ st.objs.length + (l.map Stmt.maxObjects).sum
  | [], st, st', h => by cases h; simp
  | s :: l, st, st', h => by
    unfold runList at h
    cases h1 : exec st s with
    | error e => rw [h1] at h; cases h
    | ok st1 =>
      rw [h1] at h
      have a := exec_length h1
      have b := runList_length l h
      simp only [List.map_cons, List.sum_cons]
      omega

omit [Field K] [DecidableEq K] in
theorem ownMax_prefix {F : Type} : ∀ (l : List (Stmt K F)) (b : Body K F), (b.prefix l).ownMax = (l.map Stmt.maxObjects).sum + b.ownMax
  | [], b => by simp [Body.prefix]
  | s :: l, b => by
    show (Body.stmt s (b.prefix l)).ownMax = _
    rw [Body.ownMax, ownMax_prefix l]
    simp [Nat.add_assoc]

theorem split_cons {α : Type} {Q : List α → α → Prop} (a : α) (l : List α) : (∀ P1 y P2, a :: l = P1 ++ y :: P2 → Q P1 y) ↔ Q [] a ∧ ∀ P1 y P2, l = P1 ++ y :: P2 → Q (a :: P1) y := by
  constructor
  · intro h
    exact ⟨h [] a l rfl, fun P1 y P2 he => h (a :: P1) y P2 (by rw [he]; rfl)⟩
  · rintro ⟨h1, h2⟩ P1 y P2 he
    cases P1 with
    | nil =>
      simp only [List.nil_append, List.cons.injEq] at he
      rw [← he.1]; exact h1
    | cons b P1 =>
      simp only [List.cons_append, List.cons.injEq] at he
      rw [← he.1]; exact h2 P1 y P2 he.2

/-- the statements of a method, and of the methods below it, are fine -/
def XAllOk (b : XBody K F G I) : Prop := ∀ path b', XAt b path b' → ∀ P y P', b'.stmts 0 = P ++ y :: P' → XStmtOk P y.2

theorem xallOk_iff (b : XBody K F G I) : XAllOk b ↔ (∀ P y P', b.stmts 0 = P ++ y :: P' → XStmtOk P y.2) ∧ ∀ s ∈ b.subs, XAllOk s.2.2 := by
  constructor
  · intro h
    exact ⟨h [] b (.here b), fun s hs path b' hb => h (s.1 :: path) b' (.down hs hb)⟩
  · rintro ⟨h1, h2⟩ path b' hb
    cases hb with
    | here => exact h1
    | down hs hb => exact h2 _ hs _ _ hb

/-- no name looks automatic -/
def NoAuto (b : XBody K F G I) : Prop := ∀ path b' n s, XAt b path b' → (n, s) ∈ b'.stmts 0 → ∀ name ∈ s.names n, ¬ AutoLike name

theorem NoAuto.sub {b : XBody K F G I} (h : NoAuto b) {s : Name × Option (List Name) × XBody K F G I} (hs : s ∈ b.subs) : NoAuto s.2.2 :=
  fun _ b' n t hb => h _ b' n t (.down hs hb)

/-- the statements of the `with` blocks in a method are fine -/
def XInlRuns : XBody K F G I → Prop
  | .done => True
  | .stmt _ rest => XInlRuns rest
  | .add false _ _ _ rest => XInlRuns rest
  | .add true _ _ sub rest => ((∀ P y P', sub.stmts 0 = P ++ y :: P' → XStmtOk P y.2) ∧ XInlRuns sub) ∧ XInlRuns rest

theorem xinlRuns_of : ∀ b : XBody K F G I, (∀ s ∈ b.subs, XAllOk s.2.2) → XInlRuns b
  | .done, _ => trivial
  | .stmt _ rest, h => xinlRuns_of rest h
  | .add false _ _ sub rest, h => xinlRuns_of rest fun s hs => h s (by simp [XBody.subs, hs])
  | .add true n p sub rest, h => by
    have h1 := (xallOk_iff sub).1 (h (n, p, sub) (by simp [XBody.subs]))
    exact ⟨⟨h1.1, xinlRuns_of sub h1.2⟩, xinlRuns_of rest fun s hs => h s (by simp [XBody.subs, hs])⟩

/-- A method runs exactly if the method with calls and registrations does, and its other statements are fine, also in `with` blocks. -/
theorem XInv.runOwn_iff : ∀ (b : XBody K F G I) {f : Foreign K (Fun F G I)} {P : List (Nat × XStmt K F G I)} {S : List (Name × Option (List Name))} {xs : XSt K F G I}, XInv f P S xs → (∀ s ∈ b.subs, NoAuto s.2.2) →
    xs.st.objs.length + (b.low xs.st.env.length).ownMax ≤ 63 ^ 4 → (∀ y ∈ b.stmts xs.st.env.length, ∀ name ∈ y.2.names y.1, ¬ AutoLike name) →
    ((∃ q, xrunOwn xs b = .ok q) ↔ ((∃ q, Prog.runOwn xs.st (b.low xs.st.env.length) = .ok q) ∧ ∀ P1 y P2, b.stmts xs.st.env.length = P1 ++ y :: P2 → XStmtOk (P ++ P1) y.2) ∧ XInlRuns b)
  | .done, f, P, S, xs, h, hp, hn, hu => by
    simp [xrunOwn, XBody.low, Prog.runOwn, XBody.stmts, XInlRuns]
  | .stmt s rest, f, P, S, xs, h, hp, hn, hu => by
    rw [XBody.low, ownMax_prefix] at hn
    rw [XBody.stmts] at hu
    rw [XBody.low, runOwn_prefix, XBody.stmts, split_cons (Q := fun (P1 : List (Nat × XStmt K F G I)) (y : Nat × XStmt K F G I) => XStmtOk (P ++ P1) y.2), List.append_nil, XInlRuns]
    have key := fun xs' => xexec_iff (xs' := xs') h.inv.listsLt s
    rw [xrunOwn]
    cases h1 : xexec xs s with
    | error e =>
      simp only [reduceCtorEq, exists_false, false_iff]
      rintro ⟨⟨h2, h3, _⟩, _⟩
      cases hr : runList xs.st (s.low xs.st.env.length) with
      | error e => rw [hr] at h2; obtain ⟨_, h2⟩ := h2; cases h2
      | ok st =>
        have := (key _).2 ⟨(h.side (by omega) s xs.st.env.length (hu (xs.st.env.length, s) List.mem_cons_self) hr).2 h3, st, hr, rfl⟩
        rw [h1] at this; cases this
    | ok xs1 =>
      obtain ⟨c1, st, c2, c3⟩ := (key xs1).1 h1
      have hst : xs1.st = st := by rw [c3]; cases s <;> rfl
      obtain ⟨a1, a2⟩ := h.exec s h1
      have hlen := runList_length _ c2
      rw [← hst] at hlen
      have ih := XInv.runOwn_iff rest a1 hp (by rw [a2]; omega) (by rw [a2]; exact fun y hy => hu y (by simp [hy]))
      rw [a2] at ih
      rw [c2]
      simp only
      rw [ih, ← hst]
      have hok := (h.side (by omega) s xs.st.env.length (hu (xs.st.env.length, s) List.mem_cons_self) c2).1 c1
      simp only [hok, true_and]
      simp
  | .add false name pr sub rest, f, P, S, xs, h, hp, hn, hu => by
    rw [xrunOwn]
    rw [XBody.low, Prog.runOwn, XBody.stmts, XInlRuns]
    cases h1 : execAdd xs.st name pr with
    | error e => simp
    | ok st =>
      obtain ⟨a1, a2⟩ := h.add name pr h1
      have hl := add_length h1
      have ih := XInv.runOwn_iff rest a1 (fun s hs => hp s (by simp [XBody.subs, hs])) (by rw [XBody.low, Body.ownMax] at hn; simp only [a2, hl]; omega) (by simp only [a2]; exact hu)
      simp only [a2] at ih
      exact ih
  | .add true name pr sub rest, f, P, S, xs, h, hp, hn, hu => by
    have hps : NoAuto sub := hp (name, pr, sub) (by simp [XBody.subs])
    rw [XBody.low, Body.ownMax] at hn
    have hsub := XInv.runOwn_iff sub (XInv.start xs.st.objs) (fun s hs => hps.sub hs) (by simp only [List.length_nil]; omega) (fun y hy => hps [] sub y.1 y.2 (.here sub) hy)
    simp only [List.length_nil, List.nil_append] at hsub
    rw [xrunOwn]
    rw [XBody.low, Prog.runOwn, XBody.stmts, XInlRuns]
    cases h0 : xrunOwn { st := { objs := xs.st.objs } } sub with
    | error e =>
      rw [h0] at hsub
      simp only [reduceCtorEq, exists_false, false_iff] at hsub ⊢
      rintro ⟨⟨⟨q, h2⟩, _⟩, ⟨h3, h4⟩, _⟩
      refine hsub ⟨⟨?_, h3⟩, h4⟩
      cases h5 : Prog.runOwn { objs := xs.st.objs } (sub.low 0) with
      | error e => rw [h5] at h2; cases h2
      | ok q => exact ⟨q, rfl⟩
    | ok q =>
      obtain ⟨m, ms⟩ := q
      obtain ⟨c1, c2, _, _, c3⟩ := (XInv.start xs.st.objs).runOwn sub h0
      simp only [List.length_nil, List.nil_append] at c1 c3
      have hok := hsub.1 ⟨_, h0⟩
      rw [c1]
      simp only
      obtain ⟨_, hb⟩ := h.block c1
      have l0 := runOwn_length _ c1
      simp only at l0
      cases h1 : execAdd { xs.st with objs := m.st.objs } name pr with
      | error e => simp
      | ok st =>
        obtain ⟨a1, a2⟩ := hb.add name pr h1
        have hl := add_length h1
        simp only at hl a2
        have ih := XInv.runOwn_iff rest a1 (fun s hs => hp s (by simp [XBody.subs, hs])) (by simp only [a2, hl]; omega) (by simp only [a2]; exact hu)
        simp only [a2] at ih
        refine Iff.trans (b := ∃ q, xrunOwn { xs with st := st } rest = .ok q) ?_ (ih.trans (and_congr (and_congr_left fun _ => ?_) ?_))
        · simp only
          cases xrunOwn { xs with st := st } rest with
          | error e => simp
          | ok q => simp
        · simp only
          cases Prog.runOwn st (rest.low xs.st.env.length) with
          | error e => simp
          | ok q => simp
        exact ⟨fun h => ⟨⟨hok.1.2, hok.2⟩, h⟩, fun h => h.2⟩

/-! ### the submodels -/

mutual
/-- the model without optimisation declarations -/
def OModel.strip : OModel → OModel
  | .mk i o d c _ _ _ subs => .mk i o d c [] [] none (OSubs.strip subs)
def OSubs.strip : OSubs → OSubs
  | .nil => .nil
  | .cons i p m rest => .cons i p (OModel.strip m) (OSubs.strip rest)
end

/-- the submodels have the declarations of their methods -/
def DeclSubs : XBody K F G I → OSubs → Prop
  | .done, _ => True
  | .stmt _ rest, ks => DeclSubs rest ks
  | .add _ _ _ sub rest, .cons _ _ m ks => (∃ i o d c subs, m = .mk i o d c sub.locals.designVars sub.locals.constraints sub.locals.objective subs ∧ DeclSubs sub subs) ∧ DeclSubs rest ks
  | .add _ _ _ _ _, .nil => False

theorem runSubs_prefix {F : Type} : ∀ (l : List (Stmt K F)) (b : Body K F) (objs : List (PObj K F)) (ids : List (Nat × Name × Option (List Name))) (inl : Inl K F), runSubs objs ids inl (b.prefix l) = runSubs objs ids inl b
  | [], _, _, _, _ => rfl
  | s :: l, b, objs, ids, inl => by
    show runSubs objs ids inl (.stmt s (b.prefix l)) = _
    rw [runSubs, runSubs_prefix l]

/-- a method from the start -/
theorem xrunOwn_start {b : XBody K F G I} {objs : List (PObj K (Fun F G I))} {xs : XSt K F G I} {inl : XInl K F G I} (h : xrunOwn { st := { objs := objs } } b = .ok (xs, inl)) :
    runOwn { objs := objs } (b.low 0) = .ok (xs.st, inl.low) ∧ XInlOk b inl ∧ xs.st.subs.length = b.subs.length ∧
      xs.designVars = b.locals.designVars ∧ xs.constraints = b.locals.constraints ∧ xs.objective = b.locals.objective := by
  obtain ⟨h1, h0, f', S', h2⟩ := (XInv.start objs).runOwn b h
  simp only [List.length_nil, List.nil_append] at h1 h2
  obtain ⟨_, _, _, _, g⟩ := runOwn_inv h1
  exact ⟨h1, h0, by rw [g.subs.length_eq]; simp [Body.added, low_subs], h2.designVars, h2.constraints, h2.objective⟩

theorem strip_model (xs : XSt K F G I) (ks : OSubs) : OModel.strip (xs.model ks) = xs.st.model (OSubs.strip ks) := by
  simp [XSt.model, St.model, OModel.strip]

theorem xrunSubs_low : ∀ (b : XBody K F G I) (n : Nat) (objs : List (PObj K (Fun F G I))) (ids : List (Nat × Name × Option (List Name))) (inl : XInl K F G I) (objs' : List (PObj K (Fun F G I))) (ks : OSubs),
    ids.length = b.subs.length → XInlOk b inl → xrunSubs objs ids inl b = .ok (objs', ks) → runSubs objs ids inl.low (b.low n) = .ok (objs', OSubs.strip ks) ∧ DeclSubs b ks
  | .done, n, objs, ids, inl, objs', ks, hl, hio, h => by
    rw [xrunSubs] at h
    cases h
    rw [XBody.low, runSubs]
    exact ⟨rfl, trivial⟩
  | .stmt s rest, n, objs, ids, inl, objs', ks, hl, hio, h => by
    rw [xrunSubs] at h
    rw [XBody.low, runSubs_prefix]
    cases hio with
    | stmt hio => exact xrunSubs_low rest _ objs ids inl objs' ks hl hio h
  | .add _ _ _ _ _, n, objs, [], inl, objs', ks, hl, hio, h => by simp [XBody.subs] at hl
  | .add false name pr sub rest, n, objs, i :: ids, inl, objs', ks, hl, hio, h => by
    cases hio with
    | add hio =>
    rw [xrunSubs] at h
    rw [XBody.low, runSubs]
    cases h1 : xrunOwn { st := { objs := objs } } sub with
    | error e => rw [h1] at h; cases h
    | ok q =>
      obtain ⟨xs, ms⟩ := q
      rw [h1] at h
      obtain ⟨a1, a0, hlen, a2, a3, a4⟩ := xrunOwn_start h1
      rw [a1]
      simp only at h ⊢
      cases h2 : xrunSubs xs.st.objs xs.st.subs ms sub with
      | error e => rw [h2] at h; cases h
      | ok q =>
        obtain ⟨objs1, ks1⟩ := q
        rw [h2] at h
        obtain ⟨b1, b2⟩ := xrunSubs_low sub 0 _ _ _ _ _ hlen a0 h2
        rw [b1]
        simp only at h ⊢
        by_cases he : (xs.st.empty || xs.st.undefined) = true
        · rw [if_pos he] at h; cases h
        · rw [if_neg he] at h ⊢
          cases h3 : xrunSubs objs1 ids inl rest with
          | error e => rw [h3] at h; cases h
          | ok q =>
            obtain ⟨objs2, r⟩ := q
            rw [h3] at h
            cases h
            obtain ⟨c1, c2⟩ := xrunSubs_low rest n _ _ _ _ _ (by simpa [XBody.subs] using hl) hio h3
            rw [c1]
            simp only [OSubs.strip, strip_model]
            refine ⟨trivial, ⟨xs.st.inputs, xs.st.outputs, xs.st.declared, xs.st.connections, ks1, ?_, b2⟩, c2⟩
            unfold XSt.model
            rw [a2, a3, a4]
  | .add true name pr sub rest, n, objs, i :: ids, inl, objs', ks, hl, hio, h => by
    cases hio with
    | @inline _ _ _ _ xs ms inl a2 a3 a4 hlen a0 hio =>
    rw [xrunSubs] at h
    rw [XBody.low, XInl.low, runSubs]
    cases h2 : xrunSubs objs xs.st.subs ms sub with
    | error e => rw [h2] at h; cases h
    | ok q =>
      obtain ⟨objs1, ks1⟩ := q
      rw [h2] at h
      obtain ⟨b1, b2⟩ := xrunSubs_low sub 0 _ _ _ _ _ hlen a0 h2
      rw [b1]
      simp only at h ⊢
      by_cases he : (xs.st.empty || xs.st.undefined) = true
      · rw [if_pos he] at h; cases h
      · rw [if_neg he] at h ⊢
        cases h3 : xrunSubs objs1 ids inl rest with
        | error e => rw [h3] at h; cases h
        | ok q =>
          obtain ⟨objs2, r⟩ := q
          rw [h3] at h
          cases h
          obtain ⟨c1, c2⟩ := xrunSubs_low rest n _ _ _ _ _ (by simpa [XBody.subs] using hl) hio h3
          rw [c1]
          simp only [OSubs.strip, strip_model]
          refine ⟨trivial, ⟨xs.st.inputs, xs.st.outputs, xs.st.declared, xs.st.connections, ks1, ?_, b2⟩, c2⟩
          unfold XSt.model
          rw [a2, a3, a4]

/-- A program that runs, runs as the program with calls and registrations does: the same objects, and the same models, without the optimisation declarations. -/
theorem xrunFrom_low {pre : List (PObj K (Fun F G I))} {b : XBody K F G I} {objs : List (PObj K (Fun F G I))} {root : OModel} (h : xrunFrom pre b = .ok (objs, root)) : runFrom pre (b.low 0) = .ok (objs, OModel.strip root) ∧
    ∃ i o d c subs, root = .mk i o d c b.locals.designVars b.locals.constraints b.locals.objective subs ∧ DeclSubs b subs := by
  unfold xrunFrom at h
  unfold runFrom
  cases h1 : xrunOwn { st := { objs := pre } } b with
  | error e => rw [h1] at h; cases h
  | ok q =>
    obtain ⟨xs, inl⟩ := q
    rw [h1] at h
    obtain ⟨a1, a0, hlen, a2, a3, a4⟩ := xrunOwn_start h1
    rw [a1]
    simp only at h ⊢
    cases h2 : xrunSubs xs.st.objs xs.st.subs inl b with
    | error e => rw [h2] at h; cases h
    | ok q =>
      obtain ⟨objs1, ks1⟩ := q
      rw [h2] at h
      obtain ⟨b1, b2⟩ := xrunSubs_low b 0 _ _ _ _ _ hlen a0 h2
      rw [b1]
      simp only at h ⊢
      by_cases he : (xs.st.empty || xs.st.undefined) = true
      · rw [if_pos he] at h; cases h
      · rw [if_neg he] at h ⊢
        cases h
        refine ⟨by rw [strip_model], xs.st.inputs, xs.st.outputs, xs.st.declared, xs.st.connections, ks1, ?_, b2⟩
        unfold XSt.model
        rw [a2, a3, a4]

/-! ### which programs run -/

theorem xmethod_iff (b : XBody K F G I) (objs : List (PObj K (Fun F G I))) (hp : NoAuto b) (hn : objs.length + (b.low 0).ownMax ≤ 63 ^ 4) :
    (∃ q, xrunOwn { st := { objs := objs } } b = .ok q) ↔ ((∃ q, runOwn { objs := objs } (b.low 0) = .ok q) ∧ ∀ P y P', b.stmts 0 = P ++ y :: P' → XStmtOk P y.2) ∧ XInlRuns b := by
  have := (XInv.start objs).runOwn_iff b (fun s hs => hp.sub hs) hn (fun y hy => hp [] b y.1 y.2 (.here b) hy)
  simpa using this

omit [Field K] [DecidableEq K] in
theorem subMax_prefix {F : Type} : ∀ (l : List (Stmt K F)) (b : Body K F), (b.prefix l).subMax = b.subMax
  | [], _ => rfl
  | _ :: l, b => subMax_prefix l b

theorem xrunSubs_iff : ∀ (b : XBody K F G I) (n : Nat) (objs : List (PObj K (Fun F G I))) (ids : List (Nat × Name × Option (List Name))) (inl : XInl K F G I), ids.length = b.subs.length → XInlOk b inl → XInlRuns b →
    (∀ s ∈ b.subs, NoAuto s.2.2) → objs.length + (b.low n).subMax ≤ 63 ^ 4 →
    ((∃ q, xrunSubs objs ids inl b = .ok q) ↔ (∃ q, runSubs objs ids inl.low (b.low n) = .ok q) ∧ ∀ s ∈ b.subs, XAllOk s.2.2)
  | .done, n, objs, ids, inl, _, _, _, _, _ => by rw [xrunSubs, XBody.low, runSubs]; simp [XBody.subs]
  | .stmt s rest, n, objs, ids, inl, hl, hio, hr, hp, hn => by
    rw [XBody.low, subMax_prefix] at hn
    rw [XBody.low, runSubs_prefix, xrunSubs]
    cases hio with
    | stmt hio => exact xrunSubs_iff rest _ objs ids inl hl hio hr hp hn
  | .add _ _ _ _ _, n, objs, [], inl, hl, _, _, _, _ => by simp [XBody.subs] at hl
  | .add false name pr sub rest, n, objs, i :: ids, inl, hl, hio, hr, hp, hn => by
    rw [XBody.low, Body.subMax, maxObjects_eq] at hn
    have hps : NoAuto sub := hp (name, pr, sub) (by simp [XBody.subs])
    have hm := xmethod_iff sub objs hps (by omega)
    cases hio with
    | add hio =>
    rw [XBody.low, runSubs, xrunSubs]
    simp only [XBody.subs, List.forall_mem_cons]
    rw [xallOk_iff sub]
    cases h1 : xrunOwn { st := { objs := objs } } sub with
    | error e =>
      rw [h1] at hm
      simp only [reduceCtorEq, exists_false, false_iff] at hm ⊢
      rintro ⟨⟨q, h2⟩, ⟨h3, h3'⟩, _⟩
      refine hm ⟨⟨?_, h3⟩, xinlRuns_of sub h3'⟩
      cases h4 : runOwn { objs := objs } (sub.low 0) with
      | error e => rw [h4] at h2; cases h2
      | ok st => exact ⟨st, rfl⟩
    | ok q =>
      obtain ⟨xs, ms⟩ := q
      obtain ⟨a1, a0, hlen, _⟩ := xrunOwn_start h1
      obtain ⟨⟨_, hs0⟩, hs2⟩ := hm.1 ⟨_, h1⟩
      rw [a1]
      simp only
      have l1 := runOwn_length _ a1
      simp only at l1
      have is := xrunSubs_iff sub 0 xs.st.objs xs.st.subs ms hlen a0 hs2 (fun s hs => hps.sub hs) (by omega)
      cases h2 : xrunSubs xs.st.objs xs.st.subs ms sub with
      | error e =>
        rw [h2] at is
        simp only [reduceCtorEq, exists_false, false_iff] at is ⊢
        rintro ⟨⟨q, h3⟩, ⟨_, h4⟩, _⟩
        refine is ⟨?_, h4⟩
        cases h5 : runSubs xs.st.objs xs.st.subs ms.low (sub.low 0) with
        | error e => rw [h5] at h3; cases h3
        | ok q => exact ⟨q, rfl⟩
      | ok q =>
        obtain ⟨objs1, ks1⟩ := q
        obtain ⟨b1, _⟩ := xrunSubs_low sub 0 _ _ _ _ _ hlen a0 h2
        have hs1 := (is.1 ⟨_, h2⟩).2
        rw [b1]
        simp only
        by_cases he : (xs.st.empty || xs.st.undefined) = true
        · simp only [he, if_true]
          simp
        · rw [if_neg he, if_neg he]
          have l2 := runSubs_length _ b1
          have ir := xrunSubs_iff rest n objs1 ids inl (by simpa [XBody.subs] using hl) hio hr (fun s hs => hp s (by simp [XBody.subs, hs])) (by omega)
          cases h3 : xrunSubs objs1 ids inl rest with
          | error e =>
            rw [h3] at ir
            simp only [reduceCtorEq, exists_false, false_iff] at ir ⊢
            rintro ⟨⟨q, h4⟩, _, h5⟩
            refine ir ⟨?_, h5⟩
            cases h6 : runSubs objs1 ids inl.low (rest.low n) with
            | error e => rw [h6] at h4; cases h4
            | ok q => exact ⟨q, rfl⟩
          | ok q =>
            obtain ⟨objs2, r⟩ := q
            obtain ⟨c1, c2⟩ := ir.1 ⟨_, h3⟩
            obtain ⟨q, c1⟩ := c1
            rw [c1]
            exact ⟨fun _ => ⟨⟨_, rfl⟩, ⟨hs0, hs1⟩, c2⟩, fun _ => ⟨_, rfl⟩⟩
  | .add true name pr sub rest, n, objs, i :: ids, inl, hl, hio, hr, hp, hn => by
    rw [XBody.low, Body.subMax] at hn
    have hps : NoAuto sub := hp (name, pr, sub) (by simp [XBody.subs])
    obtain ⟨⟨hs0, hs2⟩, hr⟩ := hr
    cases hio with
    | @inline _ _ _ _ xs ms inl a2 a3 a4 hlen a0 hio =>
    rw [XBody.low, XInl.low, runSubs, xrunSubs]
    simp only [XBody.subs, List.forall_mem_cons]
    rw [xallOk_iff sub]
    have is := xrunSubs_iff sub 0 objs xs.st.subs ms hlen a0 hs2 (fun s hs => hps.sub hs) (by omega)
    cases h2 : xrunSubs objs xs.st.subs ms sub with
    | error e =>
      rw [h2] at is
      simp only [reduceCtorEq, exists_false, false_iff] at is ⊢
      rintro ⟨⟨q, h3⟩, ⟨_, h4⟩, _⟩
      refine is ⟨?_, h4⟩
      cases h5 : runSubs objs xs.st.subs ms.low (sub.low 0) with
      | error e => rw [h5] at h3; cases h3
      | ok q => exact ⟨q, rfl⟩
    | ok q =>
      obtain ⟨objs1, ks1⟩ := q
      obtain ⟨b1, _⟩ := xrunSubs_low sub 0 _ _ _ _ _ hlen a0 h2
      have hs1 := (is.1 ⟨_, h2⟩).2
      rw [b1]
      simp only
      by_cases he : (xs.st.empty || xs.st.undefined) = true
      · simp only [he, if_true]
        simp
      · rw [if_neg he, if_neg he]
        have l2 := runSubs_length _ b1
        have ir := xrunSubs_iff rest n objs1 ids inl (by simpa [XBody.subs] using hl) hio hr (fun s hs => hp s (by simp [XBody.subs, hs])) (by omega)
        cases h3 : xrunSubs objs1 ids inl rest with
        | error e =>
          rw [h3] at ir
          simp only [reduceCtorEq, exists_false, false_iff] at ir ⊢
          rintro ⟨⟨q, h4⟩, _, h5⟩
          refine ir ⟨?_, h5⟩
          cases h6 : runSubs objs1 ids inl.low (rest.low n) with
          | error e => rw [h6] at h4; cases h4
          | ok q => exact ⟨q, rfl⟩
        | ok q =>
          obtain ⟨objs2, r⟩ := q
          obtain ⟨c1, c2⟩ := ir.1 ⟨_, h3⟩
          obtain ⟨q, c1⟩ := c1
          rw [c1]
          exact ⟨fun _ => ⟨⟨_, rfl⟩, ⟨hs0, hs1⟩, c2⟩, fun _ => ⟨_, rfl⟩⟩

theorem xrunFrom_iff (pre : List (PObj K (Fun F G I))) (b : XBody K F G I) (hp : XPlainAfter pre.length b) : (∃ objs root, xrunFrom pre b = .ok (objs, root)) ↔ (∃ objs root, runFrom pre (b.low 0) = .ok (objs, root)) ∧ XAllOk b := by
  have hN : NoAuto b := hp.names
  have hsz := hp.size
  rw [maxObjects_eq] at hsz
  have hm := xmethod_iff b pre hN (by omega)
  unfold xrunFrom runFrom
  rw [xallOk_iff b]
  cases h1 : xrunOwn { st := { objs := pre } } b with
  | error e =>
    rw [h1] at hm
    simp only [reduceCtorEq, exists_false, false_iff] at hm ⊢
    rintro ⟨⟨objs, root, h2⟩, h3, h3'⟩
    refine hm ⟨⟨?_, h3⟩, xinlRuns_of b h3'⟩
    cases h4 : runOwn { objs := pre } (b.low 0) with
    | error e => rw [h4] at h2; cases h2
    | ok st => exact ⟨st, rfl⟩
  | ok q =>
    obtain ⟨xs, inl⟩ := q
    obtain ⟨a1, a0, hlen, _⟩ := xrunOwn_start h1
    obtain ⟨⟨_, hs0⟩, hs2⟩ := hm.1 ⟨_, h1⟩
    rw [a1]
    simp only
    have l1 := runOwn_length _ a1
    simp only at l1
    have is := xrunSubs_iff b 0 xs.st.objs xs.st.subs inl hlen a0 hs2 (fun s hs => hN.sub hs) (by omega)
    cases h2 : xrunSubs xs.st.objs xs.st.subs inl b with
    | error e =>
      rw [h2] at is
      simp only [reduceCtorEq, exists_false, false_iff] at is ⊢
      rintro ⟨⟨objs, root, h3⟩, _, h4⟩
      refine is ⟨?_, h4⟩
      cases h5 : runSubs xs.st.objs xs.st.subs inl.low (b.low 0) with
      | error e => rw [h5] at h3; cases h3
      | ok q => exact ⟨q, rfl⟩
    | ok q =>
      obtain ⟨objs1, ks1⟩ := q
      obtain ⟨b1, _⟩ := xrunSubs_low b 0 _ _ _ _ _ hlen a0 h2
      have hs1 := (is.1 ⟨_, h2⟩).2
      rw [b1]
      simp only
      by_cases he : (xs.st.empty || xs.st.undefined) = true
      · simp only [he, if_true]
        simp
      · rw [if_neg he, if_neg he]
        exact ⟨fun _ => ⟨⟨_, _, rfl⟩, hs0, hs1⟩, fun _ => ⟨_, _, rfl⟩⟩

end Csdl.Prog
