import Verif.Spec.Numbers
/-
Proofs for C116: running a program commutes with leaving out numbers and functions.
-/
namespace Csdl.Prog
open Csdl Csdl.Arith
/-- (only used to leave out functions) what is kept of a function -/
class Tag (F : Type) (Φ : outParam Type) where
  tag : F → Φ

variable {K F L G Φ : Type} [Tag F Φ] [Tag G Φ]

/-- (only used for the values that have been left out) -/
local instance unitOne : One Unit := ⟨()⟩

def eLit : Lit K → Lit Unit
  | .one _ => .one fun _ => ()
  | .list l => .list (l.map fun _ _ => ())

def eOp : OpKind K → OpKind Unit
  | .lin _ l => .lin (fun _ => ()) (eLit l)
  | .pow _ l => .pow (fun _ => ()) (eLit l)

def eKind : Kind K F → Kind Unit Φ
  | .arith k => .arith (eOp k)
  | .fn f => .fn (Tag.tag f)
  | .part s es => .part s es
  | .assemble s _ es => .assemble s (fun _ => ()) es

def eVal (_ : Val K) : Val Unit := fun _ => ()

theorem eVal_eq (v : Val K) : eVal v = fun _ => () := rfl

def ePObj (p : PObj K F) : PObj Unit Φ := ⟨p.obj, p.op.map eKind, p.val.map eVal⟩

def eConcat (d : Dict Nat (Concat × Val K)) : Dict Nat (Concat × Val Unit) := d.map fun e => (e.1, e.2.1, eVal e.2.2)

def eSt (st : St K F) : St Unit Φ :=
  ⟨st.objs.map ePObj, st.env, st.inputs, st.outputs, st.declared, st.connections, st.subs, st.decomp, eConcat st.concat⟩

theorem e_shapeOf (objs : List (PObj K F)) (v : Nat) : shapeOf (objs.map ePObj) v = shapeOf objs v := by
  simp [shapeOf, ePObj, Function.comp_def]

theorem e_outsOf (objs : List (PObj K F)) (v : Nat) : outsOf (objs.map ePObj) v = outsOf objs v := by
  simp [outsOf, ePObj, Function.comp_def]

theorem e_nameOf (objs : List (PObj K F)) (v : Nat) : nameOf (objs.map ePObj) v = nameOf objs v := by
  simp [nameOf, ePObj, Function.comp_def]

theorem e_isOutput (objs : List (PObj K F)) (v : Nat) : isOutput (objs.map ePObj) v = isOutput objs v := by
  simp only [isOutput, List.getElem?_map, Option.map_map]
  rfl

theorem e_partsOf (objs : List (PObj K F)) (o : Nat) : partsOf (objs.map ePObj) o = partsOf objs o := by
  simp only [partsOf, List.getElem?_map]
  cases objs[o]? with
  | none => rfl
  | some p =>
    obtain ⟨obj, op, val⟩ := p
    cases op with
    | none => rfl
    | some k => cases k <;> rfl

theorem e_userNames (st : St K F) : userNames (eSt st) = userNames st := by
  simp [userNames, eSt, ePObj, Function.comp_def]

theorem e_newOp (objs : List (PObj K F)) (k : Kind K F) (deps : List Nat) (shapes : List Shape) : (newOp objs k deps shapes).map ePObj = newOp (objs.map ePObj) (eKind k) deps shapes := by
  have h : (shapes.mapIdx (resultObj (K := K) (F := F) objs.length)).map ePObj = shapes.mapIdx (resultObj objs.length) := by
    apply List.ext_getElem?
    intro i
    simp only [List.getElem?_map, List.getElem?_mapIdx, Option.map_map]
    rfl
  simp only [newOp, List.map_append, List.map_cons, h, List.length_map]
  rfl

theorem e_dedup [One K] : ∀ (args : List Nat) (objs : List (PObj K F)) (seen : List Nat), (dedup (objs.map ePObj) seen args) = ((dedup objs seen args).1.map ePObj, (dedup objs seen args).2)
  | [], objs, seen => rfl
  | a :: as, objs, seen => by
    unfold dedup
    split
    · have e : (newOp (objs.map ePObj) (copyKind : Kind Unit Φ) [a] [shapeOf (objs.map ePObj) a]) = (newOp objs copyKind [a] [shapeOf objs a]).map ePObj := by
        rw [e_newOp, e_shapeOf]; rfl
      simp only [e, e_dedup as, List.length_map]
    · simp only [e_dedup as]

theorem e_get_concat (d : Dict Nat (Concat × Val K)) (n : Nat) : (eConcat d).get? n = (d.get? n).map fun e => (e.1, eVal e.2) := by
  induction d with
  | nil => rfl
  | cons e d ih =>
    obtain ⟨k, v⟩ := e
    simp only [Dict.get?, eConcat, List.map_cons] at ih ⊢
    split
    · rfl
    · exact ih

theorem e_set_concat (d : Dict Nat (Concat × Val K)) (n : Nat) (c : Concat) (v : Val K) : eConcat (d.set n (c, v)) = (eConcat d).set n (c, eVal v) := by
  induction d with
  | nil => rfl
  | cons e d ih =>
    obtain ⟨k, w⟩ := e
    simp only [Dict.set, eConcat, List.map_cons] at ih ⊢
    split
    · rfl
    · rw [List.map_cons, ih]

theorem e_arithOp [One K] (st : St K F) (k : OpKind K) (args : List Nat) : (arithOp st k args).map eSt = arithOp (eSt st) (eOp k) args := by
  unfold arithOp
  have e : (eSt st).objs = st.objs.map ePObj := rfl
  simp only [e, e_dedup, e_shapeOf]
  split
  · simp [Except.map, eSt, e_newOp, eKind]
  · rfl

theorem e_execCall [One K] (st : St K F) (f : F) (args : List Nat) (outs : List Shape) : eSt (execCall st f args outs) = execCall (eSt st) (Tag.tag f) args outs := by
  have e : (eSt st).objs = st.objs.map ePObj := rfl
  have e' : (eSt st).env = st.env := rfl
  unfold execCall
  simp only [e, e', e_dedup, List.length_map]
  simp [eSt, e_newOp, eKind]

theorem e_withDecomp (st : St K F) (v : Nat) : withDecomp (eSt st) v = ((withDecomp st v).1, eSt (withDecomp st v).2) := by
  unfold withDecomp
  have e : (eSt st).decomp = st.decomp := rfl
  rw [e]
  cases st.decomp.get? v with
  | some o => rfl
  | none => simp [eSt, ePObj, opObj, eKind, e_shapeOf]

theorem e_modify (objs : List (PObj K F)) (o : Nat) (f : PObj K F → PObj K F) (g : PObj Unit Φ → PObj Unit Φ) (h : ∀ p, ePObj (f p) = g (ePObj p)) : (objs.modify o f).map ePObj = (objs.map ePObj).modify o g := by
  induction objs generalizing o with
  | nil => simp
  | cons p objs ih =>
    cases o with
    | zero => simp [h]
    | succ o => simp [ih]

theorem e_addPart (objs : List (PObj K F)) (o : Nat) (shape : Shape) (e : NKey × List Nat) (v : Nat) : (addPart objs o shape e v).map ePObj = addPart (objs.map ePObj) o shape e v := by
  unfold addPart
  rw [e_partsOf]
  exact e_modify _ _ _ _ fun p => rfl

theorem e_execPart (st : St K F) (v o : Nat) (k : NKey) : (execPart st v o k).map eSt = execPart (eSt st) v o k := by
  unfold execPart
  have e : (eSt st).objs = st.objs.map ePObj := rfl
  simp only [e, e_partsOf, e_outsOf, e_shapeOf]
  cases (partsOf st.objs o).findIdx? (fun e => decide (e.1 = k)) with
  | some j => rfl
  | none =>
    cases srcIndices (shapeOf st.objs v) k with
    | error e => rfl
    | ok src => simp [Except.map, eSt, e_addPart, partObj, ePObj]

theorem e_execIndex (st : St K F) (v : Nat) (key : Key) : (execIndex st v key).map eSt = execIndex (eSt st) v key := by
  unfold execIndex
  have e : shapeOf (eSt st).objs v = shapeOf st.objs v := e_shapeOf _ _
  rw [e]
  cases normalizeKey (shapeOf st.objs v) key with
  | error e => rfl
  | ok k => simp only [e_withDecomp]; exact e_execPart _ _ _ _

theorem e_rename (objs : List (PObj K F)) (o : Nat) (name : Name) : (rename objs o name).map ePObj = rename (objs.map ePObj) o name := e_modify _ _ _ _ fun p => rfl

theorem e_execRegister (st : St K F) (name : Name) (o : Nat) : (execRegister st name o).map eSt = execRegister (eSt st) name o := by
  unfold execRegister
  have e : isOutput (eSt st).objs o = isOutput st.objs o := e_isOutput _ _
  rw [e, e_userNames]
  split
  · rfl
  · split
    · rfl
    · by_cases h : o ∈ st.outputs
      · rw [if_pos h, if_pos (show o ∈ (eSt st).outputs from h)]; rfl
      · rw [if_neg h, if_neg (show o ∉ (eSt st).outputs from h)]
        split
        · rfl
        · simp [Except.map, eSt, e_rename]

theorem e_execOutput (st : St K F) (name : Name) (shape : Shape) (val : Val K) : (execOutput st name shape val).map eSt = execOutput (eSt st) name shape (eVal val) := by
  unfold execOutput
  rw [e_userNames]
  split
  · rfl
  · split
    · rfl
    · simp [Except.map, eSt, e_set_concat, newVarObj, ePObj]

theorem e_newAsm (objs : List (PObj K F)) (v x : Nat) (k : Kind K F) : (newAsm objs v x k).map ePObj = newAsm (objs.map ePObj) v x (eKind k) := by
  unfold newAsm
  rw [List.map_append, e_modify _ _ _ (fun p => { p with obj := { p.obj with deps := [objs.length] } }) (fun p => rfl)]
  simp [ePObj]

theorem e_growAsm (objs : List (PObj K F)) (v x : Nat) (e : Shape × List Int) : (growAsm objs v x e).map ePObj = growAsm (objs.map ePObj) v x e := by
  unfold growAsm
  rw [e_modify _ _ _ (fun p => addArg p x e) (fun p => ?_)]
  · simp [ePObj, Function.comp_def]
  · obtain ⟨obj, op, val⟩ := p
    cases op with
    | none => rfl
    | some k => cases k <;> rfl


theorem e_execAssign (st : St K F) (v : Nat) (key : Key) (x : Nat) : (execAssign st v key x).map eSt = execAssign (eSt st) v key x := by
  unfold execAssign
  have e1 : (eSt st).objs = st.objs.map ePObj := rfl
  have e2 : (eSt st).concat = eConcat st.concat := rfl
  rw [e2, e_get_concat]
  cases st.concat.get? v with
  | none => rfl
  | some cv =>
    obtain ⟨c, val⟩ := cv
    simp only [Option.map_some, e1, e_nameOf, e_shapeOf]
    rcases setItem c key ⟨x, nameOf st.objs x, shapeOf st.objs x⟩ with ⟨c', _ | e⟩
    · simp only [Except.map, eSt, e_set_concat]
      by_cases h : c.deps.isNone = true
      · simp only [h, if_true, e_newAsm, eKind]
      · simp only [h]
        simp
        exact e_growAsm _ _ _ _
    · rfl

theorem e_execAdd (st : St K F) (name : Name) (promotes : Option (List Name)) : (execAdd st name promotes).map eSt = execAdd (eSt st) name promotes := by
  unfold execAdd
  have e : (eSt st).subs = st.subs := rfl
  rw [e]
  split
  · rfl
  · split
    · rfl
    · simp [Except.map, eSt, ePObj]

/-- the operation of an operator, without its numbers -/
def eLower : Except AErr (Option (OpKind K × List Nat)) → Except AErr (Option (OpKind Unit × List Nat)) := Except.map (Option.map fun q => (eOp q.1, q.2))

/-- `execExpr` without numbers -/
def execExprU {Φ : Type} (st : St Unit Φ) (x : Nat) : Except AErr (Option (OpKind Unit × List Nat)) → Except Err (St Unit Φ)
  | .error e => .error (.arith e)
  | .ok none => .ok { st with env := st.env ++ [st.env.getD x 0] }
  | .ok (some (k, args)) => arithOp st k (args.map (st.env.getD · 0))

theorem e_execExpr [Field K] [DecidableEq K] (st : St K F) (x : Nat) (q : Except AErr (Option (OpKind K × List Nat))) : (execExpr st x q).map eSt = execExprU (eSt st) x (eLower q) := by
  rcases q with e | _ | ⟨k, args⟩
  · rfl
  · rfl
  · exact e_arithOp _ _ _

variable [Field K] [DecidableEq K] [Field L] [DecidableEq L]

theorem SameOperator.lower_eq {i : Instr K} {j : Instr L} (h : SameOperator i j) : eLower (lower i) = eLower (lower j) := by
  cases h with
  | divc x c d h =>
    cases c <;> cases d <;> simp only [BothZero] at h <;> simp only [lower, recip]
    · rename_i c d
      by_cases h0 : c = 0
      · rw [if_pos h0, if_pos (h.1 h0)]; rfl
      · rw [if_neg h0, if_neg (fun k => h0 (h.2 k))]; rfl
    · rw [if_neg h]; rfl
    · rw [if_neg h]; rfl
    · rfl
  | _ => rfl

theorem SameOperator.operands_eq {i : Instr K} {j : Instr L} (h : SameOperator i j) : operands i = operands j := by
  cases h <;> rfl

theorem SameStmt.exec_eq {R : F → G → Prop} (hR : ∀ f g, R f g → Tag.tag f = Tag.tag g) {s : Stmt K F} {s' : Stmt L G} (h : SameStmt R s s') {st : St K F} {st' : St L G} (hst : eSt st = eSt st') : (exec st s).map eSt = (exec st' s').map eSt := by
  have henv : st.env = st'.env := congrArg St.env hst
  have hobjs : st.objs.map ePObj = st'.objs.map ePObj := congrArg St.objs hst
  have hlen : st.objs.length = st'.objs.length := by simpa using congrArg List.length hobjs
  obtain ⟨objs, env, inputs, outputs, declared, connections, subs, decomp, concat⟩ := st
  obtain ⟨objs', env', inputs', outputs', declared', connections', subs', decomp', concat'⟩ := st'
  dsimp only at henv hobjs hlen
  subst henv
  simp only [eSt, St.mk.injEq] at hst
  obtain ⟨_, _, rfl, rfl, rfl, rfl, rfl, rfl, hc⟩ := hst
  cases h with
  | input name shape v w =>
    simp only [exec]
    split
    · rfl
    · simp [Except.map, eSt, newVarObj, ePObj, hobjs, hlen, hc, eVal_eq]
  | declare name shape => simp [exec, Except.map, eSt, newVarObj, ePObj, hobjs, hlen, hc]
  | declareVal name shape v w => simp [exec, Except.map, eSt, newVarObj, ePObj, hobjs, hlen, hc, eVal_eq]
  | expr h =>
    simp only [exec, h.operands_eq]
    split
    · rw [e_execExpr, e_execExpr, h.lower_eq]
      simp only [eSt, hobjs, hc]
    · rfl
  | call f g args outs hfg =>
    simp only [exec]
    split
    · simp only [Except.map, e_execCall, hR _ _ hfg]
      simp only [eSt, hobjs, hc]
    · rfl
  | index x key =>
    simp only [exec]
    split
    · rw [e_execIndex, e_execIndex]
      simp only [eSt, hobjs, hc]
    · rfl
  | output name shape v w =>
    simp only [exec]
    rw [e_execOutput, e_execOutput]
    simp only [eSt, hobjs, hc, eVal_eq]
  | assign y key x =>
    simp only [exec]
    split
    · rw [e_execAssign, e_execAssign]
      simp only [eSt, hobjs, hc]
    · rfl
  | register name x =>
    simp only [exec]
    split
    · rw [e_execRegister, e_execRegister]
      simp only [eSt, hobjs, hc]
    · rfl
  | connect a b =>
    simp only [exec]
    split
    · rfl
    · split
      · simp only [Except.map, eSt, hobjs, hc]
      · simp only [Except.map, eSt, hobjs, hc]

def eInl : Inl K F → Inl Unit Φ
  | .nil => .nil
  | .cons st a b => .cons (eSt st) (eInl a) (eInl b)

theorem execAdd_eq {st : St K F} {st' : St L G} (hst : eSt st = eSt st') (name : Name) (promotes : Option (List Name)) : (execAdd st name promotes).map eSt = (execAdd st' name promotes).map eSt := by
  rw [e_execAdd, e_execAdd, hst]

/-- two results that are the same after erasing -/
theorem except_cases {α β γ ε : Type} {a : Except ε α} {b : Except ε β} {f : α → γ} {g : β → γ} (h : a.map f = b.map g) : (∃ e, a = .error e ∧ b = .error e) ∨ ∃ x y, a = .ok x ∧ b = .ok y ∧ f x = g y := by
  cases a <;> cases b <;> simp [Except.map] at h
  · exact Or.inl ⟨_, by rw [h], rfl⟩
  · exact Or.inr ⟨_, _, rfl, rfl, h⟩

theorem SameButNumbers.runOwn_eq {R : F → G → Prop} (hR : ∀ f g, R f g → Tag.tag f = Tag.tag g) {b : Body K F} {b' : Body L G} (h : SameButNumbers R b b') : ∀ {st : St K F} {st' : St L G}, eSt st = eSt st' →
    (runOwn st b).map (fun q => (eSt q.1, eInl q.2)) = (runOwn st' b').map (fun q => (eSt q.1, eInl q.2)) := by
  induction h with
  | done => intro st st' hst; simp [runOwn, Except.map, hst, eInl]
  | stmt hs _ ih =>
    intro st st' hst
    simp only [runOwn]
    rcases except_cases (hs.exec_eq hR hst) with ⟨e, e1, e2⟩ | ⟨x, y, e1, e2, e3⟩
    · rw [e1, e2]; rfl
    · rw [e1, e2]; exact ih e3
  | add inline name promotes _ _ ih1 ih2 =>
    intro st st' hst
    cases inline with
    | false =>
      simp only [runOwn]
      rcases except_cases (execAdd_eq hst name promotes) with ⟨e, e1, e2⟩ | ⟨x, y, e1, e2, e3⟩
      · rw [e1, e2]; rfl
      · rw [e1, e2]; exact ih2 e3
    | true =>
      simp only [runOwn]
      have hobjs : st.objs.map ePObj = st'.objs.map ePObj := congrArg St.objs hst
      have h0 : eSt ({ objs := st.objs } : St K F) = eSt ({ objs := st'.objs } : St L G) := by simp only [eSt, hobjs, eConcat, List.map_nil]
      rcases except_cases (ih1 h0) with ⟨e, e1, e2⟩ | ⟨⟨m, ms⟩, ⟨m', ms'⟩, e1, e2, e3⟩
      · rw [e1, e2]; rfl
      · rw [e1, e2]
        simp only [Prod.mk.injEq] at e3
        have hm : m.objs.map ePObj = m'.objs.map ePObj := congrArg St.objs e3.1
        have h1 : eSt { st with objs := m.objs } = eSt { st' with objs := m'.objs } := by
          simp only [eSt, St.mk.injEq] at hst ⊢
          exact ⟨hm, hst.2⟩
        dsimp only
        rcases except_cases (execAdd_eq h1 name promotes) with ⟨e, e1, e2⟩ | ⟨x, y, e1, e2, e4⟩
        · rw [e1, e2]; rfl
        · rw [e1, e2]
          dsimp only
          rcases except_cases (ih2 e4) with ⟨e, e1, e2⟩ | ⟨⟨x1, x2⟩, ⟨y1, y2⟩, e1, e2, e5⟩
          · rw [e1, e2]; rfl
          · rw [e1, e2]
            simp only [Prod.mk.injEq] at e5
            simp [Except.map, eInl, e3.1, e3.2, e5.1, e5.2]

theorem e_model {st : St K F} {st' : St L G} (h : eSt st = eSt st') (ks : OSubs) : st.model ks = st'.model ks := by
  simp only [eSt, St.mk.injEq] at h
  obtain ⟨_, _, h1, h2, h3, h4, _⟩ := h
  simp only [St.model, h1, h2, h3, h4]

theorem e_empty {st : St K F} {st' : St L G} (h : eSt st = eSt st') : st.empty = st'.empty := by
  simp only [eSt, St.mk.injEq] at h
  obtain ⟨_, _, h1, h2, _, _, h3, _⟩ := h
  simp only [St.empty, h1, h2, h3]

omit [Field K] [DecidableEq K] in
theorem e_undefined1 (st : St K F) : (eSt st).undefined = st.undefined := by
  unfold St.undefined
  refine congrArg (fun f => st.outputs.any f) (funext fun v => ?_)
  have e : (eSt st).concat = eConcat st.concat := rfl
  rw [e, e_get_concat]
  cases st.concat.get? v <;> rfl

theorem e_undefined {st : St K F} {st' : St L G} (h : eSt st = eSt st') : st.undefined = st'.undefined := by
  rw [← e_undefined1 st, h, e_undefined1]

theorem SameButNumbers.runSubs_eq {R : F → G → Prop} (hR : ∀ f g, R f g → Tag.tag f = Tag.tag g) {b : Body K F} {b' : Body L G} (h : SameButNumbers R b b') : ∀ {objs : List (PObj K F)} {objs' : List (PObj L G)} (ids : List (Nat × Name × Option (List Name))) {inl : Inl K F} {inl' : Inl L G},
    objs.map ePObj = objs'.map ePObj → eInl inl = eInl inl' →
    (runSubs objs ids inl b).map (fun q => (q.1.map ePObj, q.2)) = (runSubs objs' ids inl' b').map (fun q => (q.1.map ePObj, q.2)) := by
  induction h with
  | done => intro objs objs' ids inl inl' ho hi; simp [runSubs, Except.map, ho]
  | stmt _ _ ih => intro objs objs' ids inl inl' ho hi; simp only [runSubs]; exact ih ids ho hi
  | add inline name promotes hsub _ ih1 ih2 =>
    intro objs objs' ids inl inl' ho hi
    cases ids with
    | nil => cases inline <;> simp [runSubs, Except.map, ho]
    | cons i ids =>
      cases inline with
      | false =>
        simp only [runSubs]
        have h0 : eSt ({ objs := objs } : St K F) = eSt ({ objs := objs' } : St L G) := by simp only [eSt, ho, eConcat, List.map_nil]
        rcases except_cases (hsub.runOwn_eq hR h0) with ⟨e, e1, e2⟩ | ⟨⟨m, ms⟩, ⟨m', ms'⟩, e1, e2, e3⟩
        · rw [e1, e2]; rfl
        · rw [e1, e2]
          simp only [Prod.mk.injEq] at e3
          dsimp only
          have hm : m.objs.map ePObj = m'.objs.map ePObj := congrArg St.objs e3.1
          have hs : m.subs = m'.subs := congrArg St.subs e3.1
          rw [hs]
          rcases except_cases (ih1 m'.subs hm e3.2) with ⟨e, e1, e2⟩ | ⟨⟨x1, x2⟩, ⟨y1, y2⟩, e1, e2, e4⟩
          · rw [e1, e2]; rfl
          · rw [e1, e2]
            simp only [Prod.mk.injEq] at e4
            obtain ⟨e4, rfl⟩ := e4
            simp only [e_empty e3.1, e_undefined e3.1]
            split
            · rfl
            · rcases except_cases (ih2 ids e4 hi) with ⟨e, e1, e2⟩ | ⟨⟨x1, x2⟩, ⟨y1, y2⟩, e1, e2, e5⟩
              · rw [e1, e2]; rfl
              · rw [e1, e2]
                simp only [Prod.mk.injEq] at e5
                simp [Except.map, e5.1, e5.2, e_model e3.1]
      | true =>
        cases inl with
        | nil =>
          cases inl' with
          | nil => simp [runSubs, Except.map, ho]
          | cons _ _ _ => simp [eInl] at hi
        | cons st ms inl =>
          cases inl' with
          | nil => simp [eInl] at hi
          | cons st' ms' inl' =>
            simp only [eInl, Inl.cons.injEq] at hi
            obtain ⟨e3, hi1, hi2⟩ := hi
            simp only [runSubs]
            have hs : st.subs = st'.subs := congrArg St.subs e3
            rw [hs]
            rcases except_cases (ih1 st'.subs ho hi1) with ⟨e, e1, e2⟩ | ⟨⟨x1, x2⟩, ⟨y1, y2⟩, e1, e2, e4⟩
            · rw [e1, e2]; rfl
            · rw [e1, e2]
              simp only [Prod.mk.injEq] at e4
              obtain ⟨e4, rfl⟩ := e4
              simp only [e_empty e3, e_undefined e3]
              split
              · rfl
              · rcases except_cases (ih2 ids e4 hi2) with ⟨e, e1, e2⟩ | ⟨⟨x1, x2⟩, ⟨y1, y2⟩, e1, e2, e5⟩
                · rw [e1, e2]; rfl
                · rw [e1, e2]
                  simp only [Prod.mk.injEq] at e5
                  simp [Except.map, e5.1, e5.2, e_model e3]

theorem SameButNumbers.runFrom_eq {R : F → G → Prop} (hR : ∀ f g, R f g → Tag.tag f = Tag.tag g) {b : Body K F} {b' : Body L G} (h : SameButNumbers R b b') {pre : List (PObj K F)} {pre' : List (PObj L G)} (hp : pre.map ePObj = pre'.map ePObj) :
    (runFrom pre b).map (fun q => (q.1.map ePObj, q.2)) = (runFrom pre' b').map (fun q => (q.1.map ePObj, q.2)) := by
  unfold runFrom
  have h0 : eSt ({ objs := pre } : St K F) = eSt ({ objs := pre' } : St L G) := by simp only [eSt, hp, eConcat, List.map_nil]
  rcases except_cases (h.runOwn_eq hR h0) with ⟨e, e1, e2⟩ | ⟨⟨m, ms⟩, ⟨m', ms'⟩, e1, e2, e3⟩
  · rw [e1, e2]; rfl
  · rw [e1, e2]
    simp only [Prod.mk.injEq] at e3
    dsimp only
    have hm : m.objs.map ePObj = m'.objs.map ePObj := congrArg St.objs e3.1
    have hs : m.subs = m'.subs := congrArg St.subs e3.1
    rw [hs]
    rcases except_cases (h.runSubs_eq hR m'.subs hm e3.2) with ⟨e, e1, e2⟩ | ⟨⟨x1, x2⟩, ⟨y1, y2⟩, e1, e2, e4⟩
    · rw [e1, e2]; rfl
    · rw [e1, e2]
      simp only [Prod.mk.injEq] at e4
      obtain ⟨e4, rfl⟩ := e4
      simp only [e_empty e3.1, e_undefined e3.1]
      split
      · rfl
      · simp [Except.map, e4, e_model e3.1]

omit [Field K] [DecidableEq K] [Field L] [DecidableEq L] in
theorem objects_erase {objs : List (PObj K F)} {objs' : List (PObj L G)} (h : objs.map ePObj = objs'.map ePObj) : objects objs = objects objs' := by
  funext i
  have h' : (objs.map ePObj)[i]? = (objs'.map ePObj)[i]? := by rw [h]
  simp only [List.getElem?_map] at h'
  simp only [objects]
  cases h1 : objs[i]? <;> cases h2 : objs'[i]? <;> rw [h1, h2] at h' <;> simp [ePObj] at h' ⊢
  exact h'.1

end Csdl.Prog
