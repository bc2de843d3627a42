import Verif.Proofs.Numbers
/-
Proofs for C116: programs with custom operations, implicit operations and optimisation declarations.
-/
namespace Csdl.Prog
open Csdl Csdl.Arith
variable {K F G I F' G' I' : Type}

/-- what is kept of a function: whether it is a standard, custom or implicit operation -/
def tagFun : Fun F G I → Fun Unit Unit Unit
  | .std _ => .std ()
  | .custom _ => .custom ()
  | .implicit _ => .implicit ()

local instance tagFunInst : Tag (Fun F G I) (Fun Unit Unit Unit) := ⟨tagFun⟩

theorem en_tag_of_sort (f : Fun F G I) (g : Fun F' G' I') (h : SameSort f g) : Tag.tag f = Tag.tag g := by
  cases f <;> cases g <;> simp_all [SameSort, Tag.tag, tagFun]

theorem en_lift_same [Field K] {s : Stmt K F} {s' : Stmt K F'} (h : SameStmt (fun _ _ => True) s s') : SameStmt SameSort (s.lift : Stmt K (Fun F G I)) (s'.lift : Stmt K (Fun F' G' I')) := by
  cases h with
  | input => exact .input _ _ _ _
  | declare => exact .declare _ _
  | declareVal => exact .declareVal _ _ _ _
  | expr h => exact .expr h
  | call => exact .call _ _ _ _ trivial
  | index => exact .index _ _
  | output => exact .output _ _ _ _
  | assign => exact .assign _ _ _
  | register => exact .register _ _
  | connect => exact .connect _ _

theorem e_newOpNamed (objs : List (PObj K (Fun F G I))) (k : Kind K (Fun F G I)) (deps : List Nat) (outs : List (Name × Shape)) :
    (newOpNamed objs k deps outs).map ePObj = (objs.map ePObj) ++ ePObj (opObj objs.length k deps outs.length) :: outs.mapIdx fun j o => ePObj (namedResult (K := K) (F := F) (G := G) (I := I) objs.length j o) := by
  have h : (outs.mapIdx (namedResult (K := K) (F := F) (G := G) (I := I) objs.length)).map ePObj = outs.mapIdx fun j o => ePObj (namedResult (K := K) (F := F) (G := G) (I := I) objs.length j o) := by
    apply List.ext_getElem?
    intro i
    simp only [List.getElem?_map, List.getElem?_mapIdx, Option.map_map]
    rfl
  simp only [newOpNamed, List.map_append, List.map_cons, h]

theorem en_register_eq {st : St K (Fun F G I)} {st' : St K (Fun F' G' I')} (hst : eSt st = eSt st') (name : Name) (o : Nat) : (execRegister st name o).map eSt = (execRegister st' name o).map eSt := by
  rw [e_execRegister, e_execRegister, hst]

theorem en_registerAll_eq : ∀ (l : List (Name × Nat)) {st : St K (Fun F G I)} {st' : St K (Fun F' G' I')}, eSt st = eSt st' → (registerAll st l).map eSt = (registerAll st' l).map eSt
  | [], st, st', h => by simp [registerAll, Except.map, h]
  | (name, o) :: l, st, st', h => by
    simp only [registerAll]
    rcases except_cases (en_register_eq h name o) with ⟨e, e1, e2⟩ | ⟨x, y, e1, e2, e3⟩
    · rw [e1, e2]; rfl
    · rw [e1, e2]; exact en_registerAll_eq l e3

theorem en_execNamed_eq {st : St K (Fun F G I)} {st' : St K (Fun F' G' I')} (hst : eSt st = eSt st') {f : Fun F G I} {g : Fun F' G' I'} (hf : SameSort f g) (args : List Nat) (outs : List (Name × Shape)) (names : List Name) :
    (execNamed st f args outs names).map eSt = (execNamed st' g args outs names).map eSt := by
  have henv : st.env = st'.env := congrArg St.env hst
  have hobjs : st.objs.map ePObj = st'.objs.map ePObj := congrArg St.objs hst
  have hlen : st.objs.length = st'.objs.length := by simpa using congrArg List.length hobjs
  unfold execNamed
  rw [hlen]
  refine en_registerAll_eq _ ?_
  simp only [eSt, St.mk.injEq] at hst ⊢
  refine ⟨?_, by rw [henv], hst.2.2⟩
  rw [e_newOpNamed, e_newOpNamed, hobjs, henv, hlen]
  congr 2
  simp only [ePObj, opObj, Option.map_some, eKind, en_tag_of_sort _ _ hf]

theorem en_argInfo_eq {st : St K (Fun F G I)} {st' : St K (Fun F' G' I')} (hst : eSt st = eSt st') (args : List Nat) : argInfo st args = argInfo st' args := by
  have henv : st.env = st'.env := congrArg St.env hst
  have hobjs : st.objs.map ePObj = st'.objs.map ePObj := congrArg St.objs hst
  unfold argInfo
  refine List.map_congr_left fun x _ => ?_
  rw [← e_nameOf, ← e_shapeOf, hobjs, henv, e_nameOf, e_shapeOf]

/-- the state without numbers and functions -/
def eX (xs : XSt K F G I) : St Unit (Fun Unit Unit Unit) × Dict Name Nat × Dict Name Nat × Option (Name × Nat) := (eSt xs.st, xs.designVars, xs.constraints, xs.objective)

theorem eX_iff {xs : XSt K F G I} {ys : XSt K F' G' I'} : eX xs = eX ys ↔ eSt xs.st = eSt ys.st ∧ xs.designVars = ys.designVars ∧ xs.constraints = ys.constraints ∧ xs.objective = ys.objective := by
  simp [eX]

theorem en_after_eq {xs : XSt K F G I} {ys : XSt K F' G' I'} (h : eX xs = eX ys) {r : Except Err (St K (Fun F G I))} {r' : Except Err (St K (Fun F' G' I'))} (hr : r.map eSt = r'.map eSt) : (xs.after r).map eX = (ys.after r').map eX := by
  rcases except_cases hr with ⟨e, rfl, rfl⟩ | ⟨x, y, rfl, rfl, e3⟩
  · rfl
  · rw [eX_iff] at h
    simp [XSt.after, Except.map, eX, e3, h.2]

theorem en_names_eq {st : St K (Fun F G I)} {st' : St K (Fun F' G' I')} (hst : eSt st = eSt st') : st.inputs.map (nameOf st.objs) = st'.inputs.map (nameOf st'.objs) := by
  have hi : st.inputs = st'.inputs := congrArg St.inputs hst
  have hobjs : st.objs.map ePObj = st'.objs.map ePObj := congrArg St.objs hst
  rw [hi]
  refine List.map_congr_left fun x _ => ?_
  rw [← e_nameOf, hobjs, e_nameOf]

variable [Field K] [DecidableEq K]

theorem SameXStmt.exec_eq {s : XStmt K F G I} {s' : XStmt K F' G' I'} (h : SameXStmt s s') {xs : XSt K F G I} {ys : XSt K F' G' I'} (hx : eX xs = eX ys) : (xexec xs s).map eX = (xexec ys s').map eX := by
  have hx' := eX_iff.1 hx
  obtain ⟨hst, hd, hc, ho⟩ := hx'
  have henv : xs.st.env = ys.st.env := congrArg St.env hst
  cases h with
  | plain h => exact en_after_eq hx ((en_lift_same h).exec_eq en_tag_of_sort hst)
  | custom g g' calls args names =>
    simp only [xexec, henv]
    split
    · refine en_after_eq hx ?_
      unfold execCustom
      rw [en_argInfo_eq hst]
      split
      · rfl
      · split
        · rfl
        · exact en_execNamed_eq hst (by trivial) _ _ _
    · rfl
  | implicit i i' M fuel fac expose args =>
    simp only [xexec, henv]
    split
    · refine en_after_eq hx ?_
      unfold execImplicit
      rw [en_argInfo_eq hst]
      split
      · rfl
      · split
        · rfl
        · split
          · rfl
          · exact en_execNamed_eq hst (by trivial) _ _ _
    · rfl
  | designVar name d =>
    simp only [xexec, en_names_eq hst, hd]
    split
    · rfl
    · split
      · rfl
      · simp [Except.map, eX, hst, hc, ho]
  | constraint name d =>
    simp only [xexec, hc]
    split
    · rfl
    · simp [Except.map, eX, hst, hd, ho]
  | objective name d =>
    simp only [xexec, ho]
    split
    · rfl
    · simp [Except.map, eX, hst, hd, hc]

/-- a tree of models without numbers and functions -/
inductive EInl where
  | nil
  | cons (x : St Unit (Fun Unit Unit Unit) × Dict Name Nat × Dict Name Nat × Option (Name × Nat)) (subs rest : EInl)

omit [Field K] [DecidableEq K] in
/-- leaving out numbers and functions -/
def eXInl : XInl K F G I → EInl
  | .nil => .nil
  | .cons st a b => .cons (eX st) (eXInl a) (eXInl b)

theorem XSameButNumbers.runOwn_eq {b : XBody K F G I} {b' : XBody K F' G' I'} (h : XSameButNumbers b b') : ∀ {xs : XSt K F G I} {ys : XSt K F' G' I'}, eX xs = eX ys →
    (xrunOwn xs b).map (fun q => (eX q.1, eXInl q.2)) = (xrunOwn ys b').map (fun q => (eX q.1, eXInl q.2)) := by
  induction h with
  | done => intro xs ys hst; simp [xrunOwn, Except.map, hst, eXInl]
  | stmt hs _ ih =>
    intro xs ys hst
    simp only [xrunOwn]
    rcases except_cases (hs.exec_eq hst) with ⟨e, e1, e2⟩ | ⟨x, y, e1, e2, e3⟩
    · rw [e1, e2]; rfl
    · rw [e1, e2]; exact ih e3
  | add inline name promotes _ _ ih1 ih2 =>
    intro xs ys hst
    obtain ⟨hs, ht⟩ := eX_iff.1 hst
    cases inline with
    | false =>
      simp only [xrunOwn]
      rcases except_cases (execAdd_eq hs name promotes) with ⟨e, e1, e2⟩ | ⟨x, y, e1, e2, e3⟩
      · rw [e1, e2]; rfl
      · rw [e1, e2]; exact ih2 (eX_iff.2 ⟨e3, ht⟩)
    | true =>
      simp only [xrunOwn]
      have hobjs : xs.st.objs.map ePObj = ys.st.objs.map ePObj := congrArg St.objs hs
      have h0 : eX ({ st := { objs := xs.st.objs } } : XSt K F G I) = eX ({ st := { objs := ys.st.objs } } : XSt K F' G' I') := by simp only [eX, eSt, hobjs, eConcat, List.map_nil]
      rcases except_cases (ih1 h0) with ⟨e, e1, e2⟩ | ⟨⟨m, ms⟩, ⟨m', ms'⟩, e1, e2, e3⟩
      · rw [e1, e2]; rfl
      · rw [e1, e2]
        simp only [Prod.mk.injEq] at e3
        have hm : m.st.objs.map ePObj = m'.st.objs.map ePObj := congrArg St.objs (eX_iff.1 e3.1).1
        have h1 : eSt { xs.st with objs := m.st.objs } = eSt { ys.st with objs := m'.st.objs } := by
          simp only [eSt, St.mk.injEq] at hs ⊢
          exact ⟨hm, hs.2⟩
        dsimp only
        rcases except_cases (execAdd_eq h1 name promotes) with ⟨e, e1, e2⟩ | ⟨x, y, e1, e2, e4⟩
        · rw [e1, e2]; rfl
        · rw [e1, e2]
          dsimp only
          rcases except_cases (ih2 (xs := { xs with st := x }) (ys := { ys with st := y }) (eX_iff.2 ⟨e4, ht⟩)) with ⟨e, e1, e2⟩ | ⟨⟨x1, x2⟩, ⟨y1, y2⟩, e1, e2, e5⟩
          · rw [e1, e2]; rfl
          · rw [e1, e2]
            simp only [Prod.mk.injEq] at e5
            simp [Except.map, eXInl, e3.1, e3.2, e5.1, e5.2]

omit [Field K] [DecidableEq K] in
theorem eX_model {xs : XSt K F G I} {ys : XSt K F' G' I'} (h : eX xs = eX ys) (ks : OSubs) : xs.model ks = ys.model ks := by
  obtain ⟨h, hd, hc, ho⟩ := eX_iff.1 h
  simp only [eSt, St.mk.injEq] at h
  obtain ⟨_, _, h1, h2, h3, h4, _⟩ := h
  simp only [XSt.model, h1, h2, h3, h4, hd, hc, ho]

theorem XSameButNumbers.runSubs_eq {b : XBody K F G I} {b' : XBody K F' G' I'} (h : XSameButNumbers b b') : ∀ {objs : List (PObj K (Fun F G I))} {objs' : List (PObj K (Fun F' G' I'))} (ids : List (Nat × Name × Option (List Name))) {inl : XInl K F G I} {inl' : XInl K F' G' I'},
    objs.map ePObj = objs'.map ePObj → eXInl inl = eXInl inl' →
    (xrunSubs objs ids inl b).map (fun q => (q.1.map ePObj, q.2)) = (xrunSubs objs' ids inl' b').map (fun q => (q.1.map ePObj, q.2)) := by
  induction h with
  | done => intro objs objs' ids inl inl' ho hi; simp [xrunSubs, Except.map, ho]
  | stmt _ _ ih => intro objs objs' ids inl inl' ho hi; simp only [xrunSubs]; exact ih ids ho hi
  | add inline name promotes hsub _ ih1 ih2 =>
    intro objs objs' ids inl inl' ho hi
    cases ids with
    | nil => cases inline <;> simp [xrunSubs, Except.map, ho]
    | cons i ids =>
      cases inline with
      | false =>
        simp only [xrunSubs]
        have h0 : eX ({ st := { objs := objs } } : XSt K F G I) = eX ({ st := { objs := objs' } } : XSt K F' G' I') := by simp only [eX, eSt, ho, eConcat, List.map_nil]
        rcases except_cases (hsub.runOwn_eq h0) with ⟨e, e1, e2⟩ | ⟨⟨m, ms⟩, ⟨m', ms'⟩, e1, e2, e3⟩
        · rw [e1, e2]; rfl
        · rw [e1, e2]
          simp only [Prod.mk.injEq] at e3
          dsimp only
          have e3' := (eX_iff.1 e3.1).1
          have hm : m.st.objs.map ePObj = m'.st.objs.map ePObj := congrArg St.objs e3'
          have hs : m.st.subs = m'.st.subs := congrArg St.subs e3'
          rw [hs]
          rcases except_cases (ih1 m'.st.subs hm e3.2) with ⟨e, e1, e2⟩ | ⟨⟨x1, x2⟩, ⟨y1, y2⟩, e1, e2, e4⟩
          · rw [e1, e2]; rfl
          · rw [e1, e2]
            simp only [Prod.mk.injEq] at e4
            obtain ⟨e4, rfl⟩ := e4
            simp only [e_empty e3', e_undefined e3']
            split
            · rfl
            · rcases except_cases (ih2 ids e4 hi) with ⟨e, e1, e2⟩ | ⟨⟨x1, x2⟩, ⟨y1, y2⟩, e1, e2, e5⟩
              · rw [e1, e2]; rfl
              · rw [e1, e2]
                simp only [Prod.mk.injEq] at e5
                simp [Except.map, e5.1, e5.2, eX_model e3.1]
      | true =>
        cases inl with
        | nil =>
          cases inl' with
          | nil => simp [xrunSubs, Except.map, ho]
          | cons _ _ _ => simp [eXInl] at hi
        | cons st ms inl =>
          cases inl' with
          | nil => simp [eXInl] at hi
          | cons st' ms' inl' =>
            simp only [eXInl, EInl.cons.injEq] at hi
            obtain ⟨e3, hi1, hi2⟩ := hi
            have e3' := (eX_iff.1 e3).1
            simp only [xrunSubs]
            have hs : st.st.subs = st'.st.subs := congrArg St.subs e3'
            rw [hs]
            rcases except_cases (ih1 st'.st.subs ho hi1) with ⟨e, e1, e2⟩ | ⟨⟨x1, x2⟩, ⟨y1, y2⟩, e1, e2, e4⟩
            · rw [e1, e2]; rfl
            · rw [e1, e2]
              simp only [Prod.mk.injEq] at e4
              obtain ⟨e4, rfl⟩ := e4
              simp only [e_empty e3', e_undefined e3']
              split
              · rfl
              · rcases except_cases (ih2 ids e4 hi2) with ⟨e, e1, e2⟩ | ⟨⟨x1, x2⟩, ⟨y1, y2⟩, e1, e2, e5⟩
                · rw [e1, e2]; rfl
                · rw [e1, e2]
                  simp only [Prod.mk.injEq] at e5
                  simp [Except.map, e5.1, e5.2, eX_model e3]

theorem XSameButNumbers.runFrom_eq {b : XBody K F G I} {b' : XBody K F' G' I'} (h : XSameButNumbers b b') {pre : List (PObj K (Fun F G I))} {pre' : List (PObj K (Fun F' G' I'))} (hp : pre.map ePObj = pre'.map ePObj) :
    (xrunFrom pre b).map (fun q => (q.1.map ePObj, q.2)) = (xrunFrom pre' b').map (fun q => (q.1.map ePObj, q.2)) := by
  unfold xrunFrom
  have h0 : eX ({ st := { objs := pre } } : XSt K F G I) = eX ({ st := { objs := pre' } } : XSt K F' G' I') := by simp only [eX, eSt, hp, eConcat, List.map_nil]
  rcases except_cases (h.runOwn_eq h0) with ⟨e, e1, e2⟩ | ⟨⟨m, ms⟩, ⟨m', ms'⟩, e1, e2, e3⟩
  · rw [e1, e2]; rfl
  · rw [e1, e2]
    simp only [Prod.mk.injEq] at e3
    dsimp only
    have e3' := (eX_iff.1 e3.1).1
    have hm : m.st.objs.map ePObj = m'.st.objs.map ePObj := congrArg St.objs e3'
    have hs : m.st.subs = m'.st.subs := congrArg St.subs e3'
    rw [hs]
    rcases except_cases (h.runSubs_eq m'.st.subs hm e3.2) with ⟨e, e1, e2⟩ | ⟨⟨x1, x2⟩, ⟨y1, y2⟩, e1, e2, e4⟩
    · rw [e1, e2]; rfl
    · rw [e1, e2]
      simp only [Prod.mk.injEq] at e4
      obtain ⟨e4, rfl⟩ := e4
      simp only [e_empty e3', e_undefined e3']
      split
      · rfl
      · simp [Except.map, e4, eX_model e3.1]

omit [Field K] [DecidableEq K] in
theorem xobjects_erase {objs : List (PObj K (Fun F G I))} {objs' : List (PObj K (Fun F' G' I'))} (h : objs.map ePObj = objs'.map ePObj) : xobjects objs = xobjects objs' := by
  funext i
  have h' : (objs.map ePObj)[i]? = (objs'.map ePObj)[i]? := by rw [h]
  simp only [xobjects, objects_erase h]
  congr 1
  simp only [kindOf]
  simp only [List.getElem?_map] at h'
  have h3 : (objs[i]?.bind PObj.op).map (eKind (Φ := Fun Unit Unit Unit)) = (objs'[i]?.bind PObj.op).map eKind := by
    cases h1 : objs[i]? <;> cases h2 : objs'[i]? <;> rw [h1, h2] at h' <;> simp [ePObj] at h' ⊢
    exact h'.2.1
  cases h4 : objs[i]?.bind PObj.op with
  | none =>
    cases h5 : objs'[i]?.bind PObj.op with
    | none => rfl
    | some k' => rw [h4, h5] at h3; simp at h3
  | some k =>
    cases h5 : objs'[i]?.bind PObj.op with
    | none => rw [h4, h5] at h3; simp at h3
    | some k' =>
      rw [h4, h5] at h3
      simp only [Option.map_some, Option.some.injEq] at h3
      rcases k with _ | (_ | _ | _) | _ | _ <;> rcases k' with _ | (_ | _ | _) | _ | _ <;> simp_all [eKind, isCustom, Tag.tag, tagFun]

end Csdl.Prog
