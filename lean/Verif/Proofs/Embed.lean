import Verif.Spec.Embed
import Verif.Proofs.Numbers
import Mathlib.Algebra.GroupWithZero.Units.Lemmas
import Mathlib.Algebra.BigOperators.Group.List.Basic
import Mathlib.Algebra.BigOperators.Ring.List
/-
Proofs for C117: running a program commutes with mapping all numbers.
-/
namespace Csdl.Prog
open Csdl Csdl.Arith
variable {K L F : Type} [Field K] [Field L] (φ : K →+* L)

/-- literals, mapped -/
def mLit : Lit K → Lit L
  | .one c => .one (alongVal φ c)
  | .list l => .list (l.map (alongVal φ))

/-- an operation of an operator, its numbers mapped -/
def mOp : OpKind K → OpKind L
  | .lin c l => .lin (alongVal φ c) (mLit φ l)
  | .pow c l => .pow (alongVal φ c) (mLit φ l)

/-- an operation, its numbers mapped -/
def mKind : Kind K F → Kind L F
  | .arith k => .arith (mOp φ k)
  | .fn f => .fn f
  | .part s es => .part s es
  | .assemble s v es => .assemble s (alongVal φ v) es

/-- an object, its numbers mapped -/
def mPObj (p : PObj K F) : PObj L F := ⟨p.obj, p.op.map (mKind φ), p.val.map (alongVal φ)⟩

def mConcat (d : Dict Nat (Concat × Val K)) : Dict Nat (Concat × Val L) := d.map fun e => (e.1, e.2.1, alongVal φ e.2.2)

/-- a state, its numbers mapped -/
def mSt (st : St K F) : St L F :=
  ⟨st.objs.map (mPObj φ), st.env, st.inputs, st.outputs, st.declared, st.connections, st.subs, st.decomp, mConcat φ st.concat⟩

theorem mKind_copy : mKind φ (copyKind : Kind K F) = copyKind := by
  have h : alongVal φ (fun _ => 1) = fun _ => 1 := funext fun i => map_one φ
  simp [mKind, copyKind, mOp, mLit, h]

theorem m_shapeOf (objs : List (PObj K F)) (v : Nat) : shapeOf (objs.map (mPObj φ)) v = shapeOf objs v := by
  simp [shapeOf, mPObj, Function.comp_def]

theorem m_outsOf (objs : List (PObj K F)) (v : Nat) : outsOf (objs.map (mPObj φ)) v = outsOf objs v := by
  simp [outsOf, mPObj, Function.comp_def]

theorem m_nameOf (objs : List (PObj K F)) (v : Nat) : nameOf (objs.map (mPObj φ)) v = nameOf objs v := by
  simp [nameOf, mPObj, Function.comp_def]

theorem m_isOutput (objs : List (PObj K F)) (v : Nat) : isOutput (objs.map (mPObj φ)) v = isOutput objs v := by
  simp only [isOutput, List.getElem?_map, Option.map_map]
  rfl

theorem m_partsOf (objs : List (PObj K F)) (o : Nat) : partsOf (objs.map (mPObj φ)) o = partsOf objs o := by
  simp only [partsOf, List.getElem?_map]
  cases objs[o]? with
  | none => rfl
  | some p =>
    obtain ⟨obj, op, val⟩ := p
    cases op with
    | none => rfl
    | some k => cases k <;> rfl

theorem m_userNames (st : St K F) : userNames ((mSt φ) st) = userNames st := by
  simp [userNames, mSt, mPObj, Function.comp_def]

theorem m_newOp (objs : List (PObj K F)) (k : Kind K F) (deps : List Nat) (shapes : List Shape) : (newOp objs k deps shapes).map (mPObj φ) = newOp (objs.map (mPObj φ)) ((mKind φ) k) deps shapes := by
  have h : (shapes.mapIdx (resultObj (K := K) (F := F) objs.length)).map (mPObj φ) = shapes.mapIdx (resultObj objs.length) := by
    apply List.ext_getElem?
    intro i
    simp only [List.getElem?_map, List.getElem?_mapIdx, Option.map_map]
    rfl
  simp only [newOp, List.map_append, List.map_cons, h, List.length_map]
  rfl

theorem m_dedup : ∀ (args : List Nat) (objs : List (PObj K F)) (seen : List Nat), (dedup (objs.map (mPObj φ)) seen args) = ((dedup objs seen args).1.map (mPObj φ), (dedup objs seen args).2)
  | [], objs, seen => rfl
  | a :: as, objs, seen => by
    unfold dedup
    split
    · have e : (newOp (objs.map (mPObj φ)) (copyKind : Kind L F) [a] [shapeOf (objs.map (mPObj φ)) a]) = (newOp objs copyKind [a] [shapeOf objs a]).map (mPObj φ) := by
        rw [m_newOp, m_shapeOf, mKind_copy]
      simp only [e, m_dedup as, List.length_map]
    · simp only [m_dedup as]

theorem m_get_concat (d : Dict Nat (Concat × Val K)) (n : Nat) : ((mConcat φ) d).get? n = (d.get? n).map fun e => (e.1, (alongVal φ) e.2) := by
  induction d with
  | nil => rfl
  | cons e d ih =>
    obtain ⟨k, v⟩ := e
    simp only [Dict.get?, mConcat, List.map_cons] at ih ⊢
    split
    · rfl
    · exact ih

theorem m_set_concat (d : Dict Nat (Concat × Val K)) (n : Nat) (c : Concat) (v : Val K) : (mConcat φ) (d.set n (c, v)) = ((mConcat φ) d).set n (c, (alongVal φ) v) := by
  induction d with
  | nil => rfl
  | cons e d ih =>
    obtain ⟨k, w⟩ := e
    simp only [Dict.set, mConcat, List.map_cons] at ih ⊢
    split
    · rfl
    · rw [List.map_cons, ih]

theorem m_arithOp (st : St K F) (k : OpKind K) (args : List Nat) : (arithOp st k args).map (mSt φ) = arithOp ((mSt φ) st) ((mOp φ) k) args := by
  unfold arithOp
  have e : ((mSt φ) st).objs = st.objs.map (mPObj φ) := rfl
  simp only [e, m_dedup, m_shapeOf]
  split
  · simp [Except.map, mSt, m_newOp, mKind]
  · rfl

theorem m_execCall (st : St K F) (f : F) (args : List Nat) (outs : List Shape) : (mSt φ) (execCall st f args outs) = execCall ((mSt φ) st) (f) args outs := by
  have e : ((mSt φ) st).objs = st.objs.map (mPObj φ) := rfl
  have e' : ((mSt φ) st).env = st.env := rfl
  unfold execCall
  simp only [e, e', m_dedup, List.length_map]
  simp [mSt, m_newOp, mKind]

theorem m_withDecomp (st : St K F) (v : Nat) : withDecomp ((mSt φ) st) v = ((withDecomp st v).1, (mSt φ) (withDecomp st v).2) := by
  unfold withDecomp
  have e : ((mSt φ) st).decomp = st.decomp := rfl
  rw [e]
  cases st.decomp.get? v with
  | some o => rfl
  | none => simp [mSt, mPObj, opObj, mKind, m_shapeOf]

theorem m_modify (objs : List (PObj K F)) (o : Nat) (f : PObj K F → PObj K F) (g : PObj L F → PObj L F) (h : ∀ p, (mPObj φ) (f p) = g ((mPObj φ) p)) : (objs.modify o f).map (mPObj φ) = (objs.map (mPObj φ)).modify o g := by
  induction objs generalizing o with
  | nil => simp
  | cons p objs ih =>
    cases o with
    | zero => simp [h]
    | succ o => simp [ih]

theorem m_addPart (objs : List (PObj K F)) (o : Nat) (shape : Shape) (e : NKey × List Nat) (v : Nat) : (addPart objs o shape e v).map (mPObj φ) = addPart (objs.map (mPObj φ)) o shape e v := by
  unfold addPart
  rw [m_partsOf]
  exact m_modify _ _ _ _ _ fun p => rfl

theorem m_execPart (st : St K F) (v o : Nat) (k : NKey) : (execPart st v o k).map (mSt φ) = execPart ((mSt φ) st) v o k := by
  unfold execPart
  have e : ((mSt φ) st).objs = st.objs.map (mPObj φ) := rfl
  simp only [e, m_partsOf, m_outsOf, m_shapeOf]
  cases (partsOf st.objs o).findIdx? (fun e => decide (e.1 = k)) with
  | some j => rfl
  | none =>
    cases srcIndices (shapeOf st.objs v) k with
    | error e => rfl
    | ok src => simp [Except.map, mSt, m_addPart, partObj, mPObj]

theorem m_execIndex (st : St K F) (v : Nat) (key : Key) : (execIndex st v key).map (mSt φ) = execIndex ((mSt φ) st) v key := by
  unfold execIndex
  have e : shapeOf ((mSt φ) st).objs v = shapeOf st.objs v := m_shapeOf _ _ _
  rw [e]
  cases normalizeKey (shapeOf st.objs v) key with
  | error e => rfl
  | ok k => simp only [m_withDecomp]; exact m_execPart _ _ _ _ _

theorem m_rename (objs : List (PObj K F)) (o : Nat) (name : Name) : (rename objs o name).map (mPObj φ) = rename (objs.map (mPObj φ)) o name := m_modify _ _ _ _ _ fun p => rfl

theorem m_execRegister (st : St K F) (name : Name) (o : Nat) : (execRegister st name o).map (mSt φ) = execRegister ((mSt φ) st) name o := by
  unfold execRegister
  have e : isOutput ((mSt φ) st).objs o = isOutput st.objs o := m_isOutput _ _ _
  rw [e, m_userNames]
  split
  · rfl
  · split
    · rfl
    · by_cases h : o ∈ st.outputs
      · rw [if_pos h, if_pos (show o ∈ ((mSt φ) st).outputs from h)]; rfl
      · rw [if_neg h, if_neg (show o ∉ ((mSt φ) st).outputs from h)]
        split
        · rfl
        · simp [Except.map, mSt, m_rename]

theorem m_execOutput (st : St K F) (name : Name) (shape : Shape) (val : Val K) : (execOutput st name shape val).map (mSt φ) = execOutput ((mSt φ) st) name shape ((alongVal φ) val) := by
  unfold execOutput
  rw [m_userNames]
  split
  · rfl
  · split
    · rfl
    · simp [Except.map, mSt, m_set_concat, newVarObj, mPObj]

theorem m_newAsm (objs : List (PObj K F)) (v x : Nat) (k : Kind K F) : (newAsm objs v x k).map (mPObj φ) = newAsm (objs.map (mPObj φ)) v x ((mKind φ) k) := by
  unfold newAsm
  rw [List.map_append, m_modify _ _ _ _ (fun p => { p with obj := { p.obj with deps := [objs.length] } }) (fun p => rfl)]
  simp [mPObj]

theorem m_growAsm (objs : List (PObj K F)) (v x : Nat) (e : Shape × List Int) : (growAsm objs v x e).map (mPObj φ) = growAsm (objs.map (mPObj φ)) v x e := by
  unfold growAsm
  rw [m_modify _ _ _ _ (fun p => addArg p x e) (fun p => ?_)]
  · simp [mPObj, Function.comp_def]
  · obtain ⟨obj, op, val⟩ := p
    cases op with
    | none => rfl
    | some k => cases k <;> rfl


theorem m_execAssign (st : St K F) (v : Nat) (key : Key) (x : Nat) : (execAssign st v key x).map (mSt φ) = execAssign ((mSt φ) st) v key x := by
  unfold execAssign
  have e1 : ((mSt φ) st).objs = st.objs.map (mPObj φ) := rfl
  have e2 : ((mSt φ) st).concat = (mConcat φ) st.concat := rfl
  rw [e2, m_get_concat]
  cases st.concat.get? v with
  | none => rfl
  | some cv =>
    obtain ⟨c, val⟩ := cv
    simp only [Option.map_some, e1, m_nameOf, m_shapeOf]
    rcases setItem c key ⟨x, nameOf st.objs x, shapeOf st.objs x⟩ with ⟨c', _ | e⟩
    · simp only [Except.map, mSt, m_set_concat]
      by_cases h : c.deps.isNone = true
      · simp only [h, if_true, m_newAsm, mKind]
      · simp only [h]
        simp
        exact m_growAsm _ _ _ _ _
    · rfl

theorem m_execAdd (st : St K F) (name : Name) (promotes : Option (List Name)) : (execAdd st name promotes).map (mSt φ) = execAdd ((mSt φ) st) name promotes := by
  unfold execAdd
  have e : ((mSt φ) st).subs = st.subs := rfl
  rw [e]
  split
  · rfl
  · split
    · rfl
    · simp [Except.map, mSt, mPObj]


variable [DecidableEq K] [DecidableEq L]

theorem m_lower (i : Instr K) : (lower i).map (Option.map fun q => (mOp φ q.1, q.2)) = lower (alongInstr φ i) := by
  have h0 : alongVal φ (fun _ => 0) = fun _ => 0 := funext fun i => map_zero φ
  have h1 : alongVal φ (fun _ => 1) = fun _ => 1 := funext fun i => map_one φ
  have hm : alongVal φ (fun _ => -1) = fun _ => -1 := funext fun i => by simp [alongVal]
  have hc : ∀ c : Const K, alongVal φ c.val = (alongConst φ c).val := fun c => by cases c <;> rfl
  have hn : ∀ c : Const K, alongVal φ (fun i => -c.val i) = fun i => -(alongConst φ c).val i := fun c => by
    rw [← hc]; funext i; simp [alongVal]
  cases i <;> simp [lower, alongInstr, Except.map, mOp, mLit, h0, h1, hm, hc, hn]
  rename_i x c
  cases c with
  | num c =>
    by_cases h : c = 0
    · subst h
      simp [recip, alongConst]
    · have h' : φ c ≠ 0 := (map_ne_zero φ).2 h
      have hi : alongVal φ (fun _ => c⁻¹) = fun _ => (φ c)⁻¹ := funext fun i => map_inv₀ φ c
      simp [recip, alongConst, h, h', hi, Except.map, mOp, mLit, h1]
  | arr s a =>
    have hi : alongVal φ (fun i => (a i)⁻¹) = fun i => (alongVal φ a i)⁻¹ := funext fun i => map_inv₀ φ (a i)
    simp [recip, alongConst, hi, Except.map, mOp, mLit, h1]

omit [DecidableEq K] [DecidableEq L] in
theorem m_operands (i : Instr K) : operands (alongInstr φ i) = operands i := by cases i <;> rfl

theorem m_execExpr (st : St K F) (x : Nat) (q : Except AErr (Option (OpKind K × List Nat))) : (execExpr st x q).map (mSt φ) = execExpr (mSt φ st) x (q.map (Option.map fun q => (mOp φ q.1, q.2))) := by
  rcases q with e | _ | ⟨k, args⟩
  · rfl
  · rfl
  · exact m_arithOp _ _ _ _

theorem m_exec (st : St K F) (s : Stmt K F) : (exec st s).map (mSt φ) = exec (mSt φ st) (alongStmt φ s) := by
  have henv : (mSt φ st).env = st.env := rfl
  cases s with
  | input name shape v =>
    simp only [exec, alongStmt]
    split
    · rfl
    · simp [Except.map, mSt, newVarObj, mPObj]
  | declare name shape v => simp [exec, alongStmt, Except.map, mSt, newVarObj, mPObj]
  | expr i =>
    simp only [exec, alongStmt, m_operands, henv]
    split
    · rw [m_execExpr, m_lower]
    · rfl
  | call f args outs =>
    simp only [exec, alongStmt, henv]
    split
    · simp only [Except.map, m_execCall]
    · rfl
  | index x key =>
    simp only [exec, alongStmt, henv]
    split
    · rw [m_execIndex]
    · rfl
  | output name shape v => simp only [exec, alongStmt, m_execOutput]
  | assign y key x =>
    simp only [exec, alongStmt, henv]
    split
    · rw [m_execAssign]
    · rfl
  | register name x =>
    simp only [exec, alongStmt, henv]
    split
    · rw [m_execRegister]
    · rfl
  | connect a b =>
    have hc : (mSt φ st).connections = st.connections := rfl
    simp only [exec, alongStmt, hc]
    split
    · rfl
    · split <;> rfl

omit [DecidableEq K] [DecidableEq L] in
/-- the models of `with` blocks, their numbers mapped -/
def mInl : Inl K F → Inl L F
  | .nil => .nil
  | .cons st a b => .cons (mSt φ st) (mInl a) (mInl b)

theorem m_runOwn (b : Body K F) : ∀ st : St K F, (runOwn st b).map (fun q => (mSt φ q.1, mInl φ q.2)) = runOwn (mSt φ st) (along φ b) := by
  induction b with
  | done => intro st; rfl
  | stmt s rest ih =>
    intro st
    simp only [runOwn, along, ← m_exec]
    cases exec st s with
    | error e => rfl
    | ok st' => exact ih st'
  | add inline name promotes sub rest ih1 ih2 =>
    intro st
    cases inline with
    | false =>
      simp only [runOwn, along, ← m_execAdd]
      cases execAdd st name promotes with
      | error e => rfl
      | ok st' => exact ih2 st'
    | true =>
      have h0 : ({ objs := (mSt φ st).objs } : St L F) = mSt φ { objs := st.objs } := rfl
      simp only [runOwn, along, h0, ← ih1]
      cases runOwn ({ objs := st.objs } : St K F) sub with
      | error e => rfl
      | ok q =>
        obtain ⟨m, ms⟩ := q
        have h1 : ({ mSt φ st with objs := (mSt φ m).objs } : St L F) = mSt φ { st with objs := m.objs } := rfl
        simp only [Except.map]
        rw [h1, ← m_execAdd]
        cases execAdd { st with objs := m.objs } name promotes with
        | error e => rfl
        | ok st' =>
          simp only [Except.map]
          rw [← ih2]
          cases runOwn st' rest with
          | error e => rfl
          | ok q => rfl

omit [DecidableEq K] [DecidableEq L] in
theorem m_undefined (st : St K F) : (mSt φ st).undefined = st.undefined := by
  unfold St.undefined
  refine congrArg (fun f => st.outputs.any f) (funext fun v => ?_)
  have e : (mSt φ st).concat = mConcat φ st.concat := rfl
  rw [e, m_get_concat]
  cases st.concat.get? v <;> rfl

theorem m_runSubs (b : Body K F) : ∀ (objs : List (PObj K F)) (ids : List (Nat × Name × Option (List Name))) (inl : Inl K F),
    (runSubs objs ids inl b).map (fun q => (q.1.map (mPObj φ), q.2)) = runSubs (objs.map (mPObj φ)) ids (mInl φ inl) (along φ b) := by
  induction b with
  | done => intro objs ids inl; rfl
  | stmt s rest ih => intro objs ids inl; exact ih objs ids inl
  | add inline name promotes sub rest ih1 ih2 =>
    intro objs ids inl
    cases ids with
    | nil => cases inline <;> rfl
    | cons i ids =>
      cases inline with
      | false =>
        have h0 : ({ objs := objs.map (mPObj φ) } : St L F) = mSt φ { objs := objs } := rfl
        simp only [runSubs, along, h0, ← m_runOwn]
        cases runOwn ({ objs := objs } : St K F) sub with
        | error e => rfl
        | ok q =>
          obtain ⟨m, ms⟩ := q
          have h1 : (mSt φ m).objs = m.objs.map (mPObj φ) := rfl
          have h2 : (mSt φ m).subs = m.subs := rfl
          simp only [Except.map, h1, h2, ← ih1]
          cases runSubs m.objs m.subs ms sub with
          | error e => rfl
          | ok q =>
            obtain ⟨objs1, ks⟩ := q
            have h3 : (mSt φ m).empty = m.empty := rfl
            simp only [h3, m_undefined]
            by_cases hE : (m.empty || m.undefined) = true
            · simp only [hE, if_true]
            · simp only [hE, Bool.false_eq_true, if_false]
              rw [← ih2]
              cases runSubs objs1 ids inl rest with
              | error e => rfl
              | ok q => rfl
      | true =>
        cases inl with
        | nil => rfl
        | cons m ms inl =>
          have h2 : (mSt φ m).subs = m.subs := rfl
          simp only [runSubs, along, mInl, h2, ← ih1]
          cases runSubs objs m.subs ms sub with
          | error e => rfl
          | ok q =>
            obtain ⟨objs1, ks⟩ := q
            have h3 : (mSt φ m).empty = m.empty := rfl
            simp only [Except.map, h3, m_undefined]
            by_cases hE : (m.empty || m.undefined) = true
            · simp only [hE, if_true]
            · simp only [hE, Bool.false_eq_true, if_false]
              rw [← ih2]
              cases runSubs objs1 ids inl rest with
              | error e => rfl
              | ok q => rfl

theorem m_runFrom (b : Body K F) (pre : List (PObj K F)) : (runFrom pre b).map (fun q => (q.1.map (mPObj φ), q.2)) = runFrom (pre.map (mPObj φ)) (along φ b) := by
  unfold runFrom
  have h0 : ({ objs := pre.map (mPObj φ) } : St L F) = mSt φ { objs := pre } := rfl
  rw [h0, ← m_runOwn]
  cases runOwn ({ objs := pre } : St K F) b with
  | error e => rfl
  | ok q =>
    obtain ⟨m, ms⟩ := q
    have h1 : (mSt φ m).objs = m.objs.map (mPObj φ) := rfl
    have h2 : (mSt φ m).subs = m.subs := rfl
    simp only [Except.map, h1, h2]
    rw [← m_runSubs]
    cases runSubs m.objs m.subs ms b with
    | error e => rfl
    | ok q =>
      obtain ⟨objs1, ks⟩ := q
      have h3 : (mSt φ m).empty = m.empty := rfl
      simp only [Except.map, h3, m_undefined]
      by_cases hE : (m.empty || m.undefined) = true
      · simp only [hE, if_true]
      · simp only [hE, Bool.false_eq_true, if_false]
        rfl

omit [DecidableEq K] [DecidableEq L]

theorem m_objects (objs : List (PObj K F)) : objects (objs.map (mPObj φ)) = objects objs := by
  funext i
  simp only [objects, List.getElem?_map]
  cases objs[i]? <;> rfl

theorem m_kindOf (objs : List (PObj K F)) (i : Nat) : kindOf (objs.map (mPObj φ)) i = (kindOf objs i).map (mKind φ) := by
  simp only [kindOf, List.getElem?_map]
  cases objs[i]? <;> rfl

theorem m_scatter (shape : Shape) (val : Val K) (l : List (Shape × List Int)) (args : List (Val K)) : scatter shape (alongVal φ val) (l.zip (args.map (alongVal φ))) = alongVal φ (scatter shape val (l.zip args)) := by
  induction l generalizing args with
  | nil => rfl
  | cons e l ih =>
    cases args with
    | nil => rfl
    | cons a args =>
      funext i
      simp only [List.map_cons, List.zip_cons_cons, scatter, ih, alongVal]
      split <;> rfl

theorem m_expand (n : Nat) (l : Lit K) : (mLit φ l).expand n = (l.expand n).map (alongVal φ) := by
  cases l <;> simp [mLit, Lit.expand]

/-- powers with exponents in `S`, and functions, extend those of `K` -/
def ExtendsOn (S : K → Prop) (P : Power K) (Q : Power L) (den : F → List (Val K) → Nat → Val K) (den' : F → List (Val L) → Nat → Val L) : Prop :=
  (∀ a c, S c → Q.pow (φ a) (φ c) = φ (P.pow a c)) ∧ ∀ f args j, den' f (args.map (alongVal φ)) j = alongVal φ (den f args j)

/-- all exponents of a literal are in `S` -/
def LitIn (S : K → Prop) : Lit K → Prop
  | .one v => ∀ i, S (v i)
  | .list l => ∀ v ∈ l, ∀ i, S (v i)

/-- all exponents of an operation are in `S` -/
def PowIn (S : K → Prop) : Kind K F → Prop
  | .arith (.pow _ l) => LitIn S l
  | _ => True

theorem m_eval {S : K → Prop} {P : Power K} {Q : Power L} {den : F → List (Val K) → Nat → Val K} {den' : F → List (Val L) → Nat → Val L} (h : ExtendsOn φ S P Q den den') (k : Kind K F) (hk : PowIn S k) (args : List (Val K)) (j : Nat) :
    (mKind φ k).eval Q den' (args.map (alongVal φ)) j = alongVal φ (k.eval P den args j) := by
  cases k with
  | arith k =>
    cases k with
    | lin c l =>
      funext i
      simp only [mKind, mOp, Kind.eval, OpKind.eval, alongVal, List.length_map, m_expand, map_add, map_list_sum, List.zipWith_map, List.map_zipWith, map_mul]
    | pow c l =>
      have hl : ∀ v ∈ l.expand args.length, ∀ i, S (v i) := by
        cases l with
        | one v => intro w hw; rw [(List.mem_replicate.1 hw).2]; exact hk
        | list l => exact hk
      funext i
      simp only [mKind, mOp, Kind.eval, OpKind.eval, alongVal, List.length_map, m_expand, map_mul, map_list_prod, List.zipWith_map, List.map_zipWith]
      congr 2
      generalize l.expand args.length = ps at hl
      induction ps generalizing args with
      | nil => rfl
      | cons p ps ih =>
        cases args with
        | nil => rfl
        | cons a args =>
          simp only [List.zipWith_cons_cons]
          rw [h.1 _ _ (hl p List.mem_cons_self i), ih _ fun v hv => hl v (List.mem_cons_of_mem _ hv)]
  | fn f => exact h.2 f args j
  | part s es =>
    simp only [mKind, Kind.eval]
    cases args with
    | nil => funext i; simp [gather, alongVal]
    | cons a args => rfl
  | assemble s v es => exact m_scatter φ s v es args

/-! ### The exponents of the operations of a program are exponents of the program, or 1 or -1 -/

/-- all exponents of the operations are in `S` -/
def PIn (S : K → Prop) (objs : List (PObj K F)) : Prop := ∀ p ∈ objs, ∀ k, p.op = some k → PowIn S k

omit [Field K] in
theorem PIn.append {S : K → Prop} {a c : List (PObj K F)} (ha : PIn S a) (hc : PIn S c) : PIn S (a ++ c) := fun p hp => (List.mem_append.1 hp).elim (ha p) (hc p)

omit [Field K] in
theorem PIn.plain {S : K → Prop} {p : PObj K F} (h : p.op = none) : PIn S [p] := fun q hq k hk => by
  rw [List.mem_singleton.1 hq, h] at hk; cases hk

omit [Field K] in
theorem mem_modify_or {α : Type} {f : α → α} : ∀ {l : List α} {o : Nat} {q : α}, q ∈ l.modify o f → q ∈ l ∨ ∃ p ∈ l, q = f p
  | [], o, q, h => by simp at h
  | p :: l, 0, q, h => by
    simp only [List.modify_zero_cons, List.mem_cons] at h
    rcases h with rfl | h
    · exact .inr ⟨p, List.mem_cons_self, rfl⟩
    · exact .inl (List.mem_cons_of_mem _ h)
  | p :: l, o + 1, q, h => by
    simp only [List.modify_succ_cons, List.mem_cons] at h
    rcases h with rfl | h
    · exact .inl List.mem_cons_self
    · rcases mem_modify_or h with h | ⟨p', h', rfl⟩
      · exact .inl (List.mem_cons_of_mem _ h)
      · exact .inr ⟨p', List.mem_cons_of_mem _ h', rfl⟩

omit [Field K] in
theorem PIn.modify {S : K → Prop} {objs : List (PObj K F)} (h : PIn S objs) (o : Nat) {f : PObj K F → PObj K F} (hf : ∀ p, (∀ k, p.op = some k → PowIn S k) → ∀ k, (f p).op = some k → PowIn S k) : PIn S (objs.modify o f) := by
  intro q hq
  rcases mem_modify_or hq with hq | ⟨p, hp, rfl⟩
  · exact h q hq
  · exact hf p (h p hp)

omit [Field K] in
theorem PIn.newOp {S : K → Prop} {objs : List (PObj K F)} (h : PIn S objs) {k : Kind K F} (hk : PowIn S k) (deps : List Nat) (shapes : List Shape) : PIn S (newOp objs k deps shapes) := by
  refine h.append fun p hp k' hk' => ?_
  rcases List.mem_cons.1 hp with rfl | hp
  · cases hk'; exact hk
  · obtain ⟨j, hj, rfl⟩ := List.mem_mapIdx.1 hp
    cases hk'

theorem PIn.dedup {S : K → Prop} (h1 : S 1) : ∀ (args : List Nat) {objs : List (PObj K F)} (seen : List Nat), PIn S objs → PIn S (dedup objs seen args).1
  | [], _, _, h => h
  | a :: as, objs, seen, h => by
    unfold Csdl.Prog.dedup
    split
    · exact PIn.dedup h1 as _ (h.newOp (k := copyKind) (show PowIn S copyKind from fun _ => h1) _ _)
    · exact PIn.dedup h1 as _ h

theorem PIn.exec [DecidableEq K] {S : K → Prop} (h1 : S 1) (hn : S (-1)) {s : Stmt K F} (hs : ∀ c, exponentOf c s → S c) {st st' : St K F} (h : PIn S st.objs) (he : exec st s = .ok st') : PIn S st'.objs := by
  cases s with
  | input name shape v =>
    simp only [Csdl.Prog.exec] at he
    split at he
    · cases he
    · cases he; exact h.append (.plain rfl)
  | declare name shape v =>
    simp only [Csdl.Prog.exec] at he
    cases he; exact h.append (.plain rfl)
  | expr i =>
    simp only [Csdl.Prog.exec] at he
    split at he
    · have hl : ∀ k args, lower i = .ok (some (k, args)) → PowIn (F := F) S (.arith k) := by
        intro k args hk
        cases i <;> simp only [lower, Except.ok.injEq, Option.some.injEq, Prod.mk.injEq, reduceCtorEq] at hk
        case divc x c _ =>
          cases hr : recip c with
          | error e => rw [hr] at hk; cases hk
          | ok r => rw [hr] at hk; cases hk; exact fun _ => h1
        case powc x c _ =>
          obtain ⟨rfl, _⟩ := hk
          exact fun i => hs _ ⟨i, rfl⟩
        all_goals
          obtain ⟨rfl, _⟩ := hk
          first
            | trivial
            | exact fun _ => h1
            | exact fun _ => hn
            | (intro v hv i
               simp only [List.mem_cons, List.not_mem_nil, or_false] at hv
               rcases hv with rfl | rfl
               · exact h1
               · exact hn)
      cases hq : lower i with
      | error e => rw [hq] at he; cases he
      | ok q =>
        rw [hq] at he
        rcases q with _ | ⟨k, args⟩
        · cases he; exact h
        · simp only [execExpr, arithOp] at he
          split at he
          · cases he
            exact (PIn.dedup h1 _ _ h).newOp (hl k args hq) _ _
          · cases he
    · cases he
  | call f args outs =>
    simp only [Csdl.Prog.exec] at he
    split at he
    · cases he
      exact (PIn.dedup h1 _ _ h).newOp (k := .fn f) trivial _ _
    · cases he
  | index x key =>
    simp only [Csdl.Prog.exec] at he
    split at he
    · unfold execIndex at he
      split at he
      · cases he
      · have hw : PIn S (withDecomp st (st.env.getD x 0)).2.objs := by
          unfold withDecomp
          split
          · exact h
          · refine h.append fun p hp k hk => ?_
            rw [List.mem_singleton.1 hp] at hk
            cases hk; trivial
        unfold execPart at he
        split at he
        · cases he; exact hw
        · split at he
          · cases he
          · cases he
            exact (hw.modify _ fun p hp k hk => by cases hk; trivial).append (.plain rfl)
    · cases he
  | output name shape v =>
    simp only [Csdl.Prog.exec, execOutput] at he
    split at he
    · cases he
    · split at he
      · cases he
      · cases he; exact h.append (.plain rfl)
  | assign y key x =>
    simp only [Csdl.Prog.exec] at he
    split at he
    · unfold execAssign at he
      split at he
      · cases he
      · split at he
        · cases he
        · cases he
          dsimp only
          split
          · unfold newAsm
            refine PIn.append (h.modify (f := fun p => { p with obj := { p.obj with deps := [st.objs.length] } }) _ fun p hp => hp) fun p hp k hk => ?_
            rw [List.mem_singleton.1 hp] at hk
            cases hk; trivial
          · refine h.modify _ fun p hp k hk => ?_
            obtain ⟨obj, op, val⟩ := p
            rcases op with _ | k'
            · cases hk
            · cases k' with
              | assemble a b c => cases hk; trivial
              | _ => exact hp _ hk
    · cases he
  | register name x =>
    simp only [Csdl.Prog.exec] at he
    split at he
    · unfold execRegister at he
      split at he
      · cases he
      · split at he
        · cases he
        · split at he
          · cases he
          · split at he
            · cases he
            · cases he
              exact h.modify _ fun p hp => hp
    · cases he
  | connect a b =>
    simp only [Csdl.Prog.exec] at he
    split at he
    · cases he
    · split at he <;> (cases he; exact h)

omit [Field K] in
theorem PIn.execAdd {S : K → Prop} {st st' : St K F} (h : PIn S st.objs) {name : Name} {promotes : Option (List Name)} (he : execAdd st name promotes = .ok st') : PIn S st'.objs := by
  unfold Csdl.Prog.execAdd at he
  split at he
  · cases he
  · split at he
    · cases he
    · cases he; exact h.append (.plain rfl)

theorem PIn.runOwn [DecidableEq K] {S : K → Prop} (h1 : S 1) (hn : S (-1)) (b : Body K F) : (∀ c, Exponent c b → S c) → ∀ {st : St K F} {q : St K F × Inl K F}, PIn S st.objs → runOwn st b = .ok q → PIn S q.1.objs := by
  induction b with
  | done => intro _ st q h he; cases he; exact h
  | stmt s rest ih =>
    intro hc st q h he
    simp only [Csdl.Prog.runOwn] at he
    cases hs : Csdl.Prog.exec st s with
    | error e => rw [hs] at he; cases he
    | ok st' => rw [hs] at he; exact ih (fun c k => hc c (.inr k)) (h.exec h1 hn (fun c k => hc c (.inl k)) hs) he
  | add inline name promotes sub rest ih1 ih2 =>
    intro hc st q h he
    cases inline with
    | false =>
      simp only [Csdl.Prog.runOwn] at he
      cases hs : Csdl.Prog.execAdd st name promotes with
      | error e => rw [hs] at he; cases he
      | ok st' => rw [hs] at he; exact ih2 (fun c k => hc c (.inr k)) (h.execAdd hs) he
    | true =>
      simp only [Csdl.Prog.runOwn] at he
      cases hm : Csdl.Prog.runOwn ({ objs := st.objs } : St K F) sub with
      | error e => rw [hm] at he; cases he
      | ok m =>
        rw [hm] at he
        have hm' := ih1 (fun c k => hc c (.inl k)) (st := { objs := st.objs }) h hm
        obtain ⟨m, ms⟩ := m
        dsimp only at he hm'
        cases hs : Csdl.Prog.execAdd { st with objs := m.objs } name promotes with
        | error e => rw [hs] at he; cases he
        | ok st' =>
          rw [hs] at he
          dsimp only at he
          have hs' := PIn.execAdd (st := { st with objs := m.objs }) hm' hs
          cases hr : Csdl.Prog.runOwn st' rest with
          | error e => rw [hr] at he; cases he
          | ok r =>
            rw [hr] at he
            cases he
            exact ih2 (q := r) (fun c k => hc c (.inr k)) hs' hr

theorem PIn.runSubs [DecidableEq K] {S : K → Prop} (h1 : S 1) (hn : S (-1)) (b : Body K F) : (∀ c, Exponent c b → S c) → ∀ {objs : List (PObj K F)} {ids : List (Nat × Name × Option (List Name))} {inl : Inl K F} {q : List (PObj K F) × OSubs},
    PIn S objs → runSubs objs ids inl b = .ok q → PIn S q.1 := by
  induction b with
  | done => intro _ objs ids inl q h he; cases he; exact h
  | stmt s rest ih => intro hc objs ids inl q h he; exact ih (fun c k => hc c (.inr k)) h he
  | add inline name promotes sub rest ih1 ih2 =>
    intro hc objs ids inl q h he
    have c1 := fun c k => hc c (.inl k)
    have c2 := fun c k => hc c (.inr k)
    cases ids with
    | nil => cases inline <;> (cases he; exact h)
    | cons i ids =>
      cases inline with
      | false =>
        simp only [Csdl.Prog.runSubs] at he
        cases hm : Csdl.Prog.runOwn ({ objs := objs } : St K F) sub with
        | error e => rw [hm] at he; cases he
        | ok m =>
          rw [hm] at he
          have hm' := PIn.runOwn h1 hn sub c1 (st := { objs := objs }) h hm
          obtain ⟨m, ms⟩ := m
          dsimp only at he hm'
          cases hk : Csdl.Prog.runSubs m.objs m.subs ms sub with
          | error e => rw [hk] at he; cases he
          | ok ks =>
            rw [hk] at he
            have hk' := ih1 c1 hm' hk
            dsimp only at he
            split at he
            · cases he
            · cases hr : Csdl.Prog.runSubs ks.1 ids inl rest with
              | error e => rw [hr] at he; cases he
              | ok r => rw [hr] at he; cases he; exact ih2 (q := r) c2 hk' hr
      | true =>
        cases inl with
        | nil => cases he; exact h
        | cons m ms inl =>
          simp only [Csdl.Prog.runSubs] at he
          cases hk : Csdl.Prog.runSubs objs m.subs ms sub with
          | error e => rw [hk] at he; cases he
          | ok ks =>
            rw [hk] at he
            have hk' := ih1 c1 h hk
            dsimp only at he
            split at he
            · cases he
            · cases hr : Csdl.Prog.runSubs ks.1 ids inl rest with
              | error e => rw [hr] at he; cases he
              | ok r => rw [hr] at he; cases he; exact ih2 (q := r) c2 hk' hr

theorem PIn.runFrom [DecidableEq K] {S : K → Prop} (h1 : S 1) (hn : S (-1)) {b : Body K F} (hc : ∀ c, Exponent c b → S c) {pre : List (PObj K F)} {q : List (PObj K F) × OModel} (h : PIn S pre) (he : runFrom pre b = .ok q) : PIn S q.1 := by
  unfold Csdl.Prog.runFrom at he
  cases hm : Csdl.Prog.runOwn ({ objs := pre } : St K F) b with
  | error e => rw [hm] at he; cases he
  | ok m =>
    rw [hm] at he
    have hm' := PIn.runOwn h1 hn b hc (st := { objs := pre }) h hm
    obtain ⟨m, ms⟩ := m
    dsimp only at he hm'
    cases hk : Csdl.Prog.runSubs m.objs m.subs ms b with
    | error e => rw [hk] at he; cases he
    | ok ks =>
      rw [hk] at he
      have hk' := PIn.runSubs h1 hn b hc hm' hk
      dsimp only at he
      split at he
      · cases he
      · cases he; exact hk'

end Csdl.Prog
