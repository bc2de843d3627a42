import Verif.Model.Arith
import Verif.Model.Compile
import Verif.Model.Indexing
/-
Model of csdl programs: `define` methods of a hierarchy of models, as sequences of the calls that create variables, operations, outputs, connections and submodels, and the csdl
objects they create: csdl/lang/node.py:24-30, csdl/lang/variable.py:37-60, 83-395, csdl/lang/standard_operation.py:9-25, csdl/lang/operation.py:15-32, csdl/operations/decompose.py:8-18, csdl/operations/indexed_passthrough.py:6-13,
csdl/lang/concatenation.py:16-149, csdl/lang/output.py:11-36, csdl/lang/model.py:287-542, csdl/lang/subgraph.py:11-31, csdl/lang/define_models_recursively.py:10-52.
Simplifications: variables are used only in the model they are created in; no implicit and no custom operations (Verif/Model/Implicit.lean,
Verif/Model/CustomOp.lean); every submodel is a new object with a name.
-/
namespace Csdl.Prog
open Csdl Csdl.Arith

/-- A statement of a `define` method.  The variables it creates are numbered, in each method from 0 in the order of the statements; operands are given by their numbers. -/
inductive Stmt (K F : Type) where
  /-- `x = self.create_input(name, shape=shape, val=val)`; shape and value are those of csdl/utils/get_shape_val.py:5-46 (Verif/Model/ShapeVal.lean) -/
  | input (name : Name) (shape : Shape) (val : Val K)
  /-- `x = self.declare_variable(name, shape=shape, val=val)`; `none`: no value is given -/
  | declare (name : Name) (shape : Shape) (val : Option (Val K))
  /-- `x = ` an operator applied to variables and constants -/
  | expr (i : Instr K)
  /-- `x, y, ... = csdl.f(...)`: a standard operation with results of the given shapes -/
  | call (f : F) (args : List Nat) (outs : List Shape)
  /-- `y = x[key]` -/
  | index (x : Nat) (key : Key)
  /-- `y = self.create_output(name, shape=shape, val=val)` -/
  | output (name : Name) (shape : Shape) (val : Val K)
  /-- `y[key] = x` -/
  | assign (y : Nat) (key : Key) (x : Nat)
  /-- `self.register_output(name, x)` -/
  | register (name : Name) (x : Nat)
  /-- `self.connect(a, b)` -/
  | connect (a b : Name)

/-- The statements of a `define` method; `add false name promotes sub`: `self.add(sub, name=name, promotes=promotes)`, with the `define` method of the submodel;
`add true name promotes sub`: `with self.create_submodel(name, promotes) as m:` with the statements on `m` in the block (csdl/lang/model.py:1218-1251). -/
inductive Body (K F : Type) where
  | done
  | stmt (s : Stmt K F) (rest : Body K F)
  | add (inline : Bool) (name : Name) (promotes : Option (List Name)) (sub rest : Body K F)

/-- The operation of an `Operation` object.  `part shape es`: a `decompose` operation of a variable of the given shape, with the normalised key and the source indices of each of its results (csdl/operations/decompose.py:15-16
`_key_out_pairs`, `src_indices`), in the order of its results.  `assemble shape val es`: the `indexed_passthrough` operation of an output of the given shape and value, with the shapes of its arguments and their target indices
(csdl/lang/concatenation.py:119 `_tgt_indices`), in the order of its arguments. -/
inductive Kind (K F : Type) where
  | arith (k : OpKind K)
  | fn (f : F)
  | part (shape : Shape) (es : List (NKey × List Nat))
  | assemble (shape : Shape) (val : Val K) (es : List (Shape × List Int))

/-- An object and, for operations, which operation it is; for inputs and declared variables `val` is the value given (csdl/lang/input.py:30, csdl/lang/declared_variable.py:29); without one it is 1.0 everywhere
(csdl/lang/model.py:329-340).  Simplification: the values of other variables are left out. -/
structure PObj (K F : Type) where
  obj : Obj
  op : Option (Kind K F) := none
  val : Option (Val K) := none

/-- Exceptions; `scope`: a statement uses a variable that does not exist (NameError). -/
inductive Err where
  | value | type | key | arith (e : AErr) | index (e : IErr) | scope
  deriving DecidableEq

/-- All objects created so far, in the order of creation (an object is its position: csdl/lang/node.py:24-30), the variables of the method, and the lists of the model; `decomp` is the
attribute `_decomp` of the variables that have been indexed, `concat` the state of the `Concatenation` objects (csdl/lang/concatenation.py:40-52), with their values. -/
structure St (K F : Type) where
  objs : List (PObj K F)
  env : List Nat := []
  inputs : List Nat := []
  outputs : List Nat := []
  declared : List Nat := []
  connections : List (Name × Name) := []
  subs : List (Nat × Name × Option (List Name)) := []
  decomp : Dict Nat Nat := []
  concat : Dict Nat (Concat × Val K) := []

variable {K F : Type}

/-- (not in csdl) the same statement, with the names of functions changed by `g` -/
def Stmt.mapFn {F' : Type} (g : F → F') : Stmt K F → Stmt K F'
  | .input name shape val => .input name shape val
  | .declare name shape val => .declare name shape val
  | .expr i => .expr i
  | .call f args outs => .call (g f) args outs
  | .index x key => .index x key
  | .output name shape val => .output name shape val
  | .assign y key x => .assign y key x
  | .register name x => .register name x
  | .connect a b => .connect a b

/-- csdl/lang/node.py:26-30, csdl/lang/variable.py:48-54: the variable that is created next -/
def newVarObj (objs : List (PObj K F)) (name : Name) (role : Role) (explicit : Bool) (shape : Shape) (val : Option (Val K)) : PObj K F :=
  ⟨{ kind := .var, name := name, auto := genHexName objs.length, role := role, explicit := explicit, shape := shape }, none, val⟩

/-- csdl/lang/output.py:11-36: the `j`-th result of the operation `op`, which is the object after `op` and the earlier results -/
def resultObj (op j : Nat) (shape : Shape) : PObj K F :=
  ⟨{ kind := .var, name := genHexName (op + 1 + j), auto := genHexName (op + 1 + j), role := .output, shape := shape, deps := [op] }, none, none⟩

/-- csdl/lang/operation.py:15-32: the operation object at position `op` -/
def opObj (op : Nat) (k : Kind K F) (deps : List Nat) (n : Nat) : PObj K F :=
  ⟨{ kind := .op, name := genHexName op, auto := genHexName op, deps := deps, outs := List.range' (op + 1) n }, some k, none⟩

/-- An operation and then its results: e.g. csdl/lang/variable.py:89-96, csdl/std/sin.py:9-14. -/
def newOp (objs : List (PObj K F)) (k : Kind K F) (deps : List Nat) (shapes : List Shape) : List (PObj K F) :=
  objs ++ opObj objs.length k deps shapes.length :: shapes.mapIdx (resultObj objs.length)

/-- the shape of an object -/
def shapeOf (objs : List (PObj K F)) (v : Nat) : Shape := (objs[v]?.map fun o => o.obj.shape).getD []

/-- the operation of `x * 1` (csdl/lang/variable.py:148-154) -/
def copyKind [One K] : Kind K F := .arith (.pow (fun _ => 1) (.one fun _ => 1))

/-- csdl/lang/standard_operation.py:9-25: repeated arguments are replaced by copies; `seen` is `unique_args` -/
def dedup [One K] : List (PObj K F) → List Nat → List Nat → List (PObj K F) × List Nat
  | objs, _, [] => (objs, [])
  | objs, seen, a :: as =>
    if a ∈ seen then
      let q := dedup (newOp objs copyKind [a] [shapeOf objs a]) ((objs.length + 1) :: seen) as
      (q.1, (objs.length + 1) :: q.2)
    else
      let q := dedup objs (a :: seen) as
      (q.1, a :: q.2)

/-- csdl/lang/variable.py:83-304: the operation an operator creates, with its arguments; none for `+x` -/
def lower [Field K] [DecidableEq K] : Instr K → Except AErr (Option (OpKind K × List Nat))
  | .pos _ => .ok none                                                                       -- 83-84
  | .neg x => .ok (some (.lin (fun _ => 0) (.one fun _ => -1), [x]))                         -- 86-97
  | .add x y => .ok (some (.lin (fun _ => 0) (.one fun _ => 1), [x, y]))                     -- 99-103
  | .addc x c => .ok (some (.lin c.val (.one fun _ => 1), [x]))                              -- 104-105, 224-225
  | .sub x y => .ok (some (.lin (fun _ => 0) (.list [fun _ => 1, fun _ => -1]), [x, y]))     -- 119-127
  | .subc x c => .ok (some (.lin (fun i => -c.val i) (.one fun _ => 1), [x]))                -- 128-129
  | .rsubc c x => .ok (some (.lin c.val (.one fun _ => -1), [x]))                            -- 243-250
  | .mul x y => .ok (some (.pow (fun _ => 1) (.one fun _ => 1), [x, y]))                     -- 142-146
  | .mulc x c => .ok (some (.pow c.val (.one fun _ => 1), [x]))                              -- 147-157, 267-268
  | .div x y => .ok (some (.pow (fun _ => 1) (.list [fun _ => 1, fun _ => -1]), [x, y]))     -- 171-180
  | .divc x c => (recip c).map fun r => some (.pow r (.one fun _ => 1), [x])                 -- 181-188
  | .rdivc c x => .ok (some (.pow c.val (.one fun _ => -1), [x]))                            -- 271-293
  | .powc x c => .ok (some (.pow (fun _ => 1) (.one c.val), [x]))                            -- 202-210

/-- csdl/operations/linear_combination.py:10-20, csdl/operations/power_combination.py:11-21 and the end of each operator: all arguments must have the same shape, which the result has too -/
def arithOp [One K] (st : St K F) (k : OpKind K) (args : List Nat) : Except Err (St K F) :=
  let q := dedup st.objs [] args
  if q.2.all (fun d => shapeOf q.1 d = shapeOf q.1 (q.2.headD 0)) then
    .ok { st with objs := newOp q.1 (.arith k) q.2 [shapeOf q.1 (q.2.headD 0)], env := st.env ++ [q.1.length + 1] }
  else .error (.arith .shape)

/-- csdl/lang/variable.py:83-304: an operator; `x` is the first operand -/
def execExpr [Field K] [DecidableEq K] (st : St K F) (x : Nat) : Except AErr (Option (OpKind K × List Nat)) → Except Err (St K F)
  | .error e => .error (.arith e)
  | .ok none => .ok { st with env := st.env ++ [st.env.getD x 0] }
  | .ok (some (k, args)) => arithOp st k (args.map (st.env.getD · 0))

/-- the variables a statement uses -/
def operands : Instr K → List Nat
  | .pos x | .neg x | .addc x _ | .subc x _ | .rsubc _ x | .mulc x _ | .divc x _ | .rdivc _ x | .powc x _ => [x]
  | .add x y | .sub x y | .mul x y | .div x y => [x, y]

/-- csdl/std/*.py: a standard operation with its results -/
def execCall [One K] (st : St K F) (f : F) (args : List Nat) (outs : List Shape) : St K F :=
  let q := dedup st.objs [] (args.map (st.env.getD · 0))
  { st with objs := newOp q.1 (.fn f) q.2 outs, env := st.env ++ List.range' (q.1.length + 1) outs.length }

/-- csdl/lang/variable.py:313-315: the `decompose` operation of the variable `v`, which is created when `v` is first indexed: a standard operation of `v` without results -/
def withDecomp (st : St K F) (v : Nat) : Nat × St K F :=
  match st.decomp.get? v with
  | some o => (o, st)
  | none => (st.objs.length, { st with objs := st.objs ++ [opObj st.objs.length (.part (shapeOf st.objs v) []) [v] 0], decomp := st.decomp.set v st.objs.length })

/-- the entries of a `decompose` operation -/
def partsOf (objs : List (PObj K F)) (o : Nat) : List (NKey × List Nat) :=
  match objs[o]?.bind fun p => p.op with
  | some (.part _ es) => es
  | _ => []

/-- the results of an operation -/
def outsOf (objs : List (PObj K F)) (o : Nat) : List Nat := (objs[o]?.map fun p => p.obj.outs).getD []

/-- csdl/lang/variable.py:386-393: the operation gets one more result -/
def addPart (objs : List (PObj K F)) (o : Nat) (shape : Shape) (e : NKey × List Nat) (v : Nat) : List (PObj K F) :=
  objs.modify o fun p => { p with obj := { p.obj with outs := p.obj.outs ++ [v] }, op := some (.part shape (partsOf objs o ++ [e])) }

/-- csdl/lang/variable.py:385-386: the result at position `i` of the `decompose` operation `o` -/
def partObj (o i : Nat) (shape : Shape) : PObj K F :=
  ⟨{ kind := .var, name := genHexName i, auto := genHexName i, role := .output, shape := shape, deps := [o] }, none, none⟩

/-- csdl/lang/variable.py:360-395: the part of `v` for the normalised key `k`; `o` is the `decompose` operation of `v` -/
def execPart (st : St K F) (v o : Nat) (k : NKey) : Except Err (St K F) :=
  match (partsOf st.objs o).findIdx? (fun e => decide (e.1 = k)) with
  | some j => .ok { st with env := st.env ++ [(outsOf st.objs o).getD j 0] }
  | none =>
    match srcIndices (shapeOf st.objs v) k with
    | .error e => .error (.index e)
    | .ok src =>
      .ok { st with objs := addPart st.objs o (shapeOf st.objs v) (k, src) st.objs.length ++ [partObj o st.objs.length (npSliceShape (shapeOf st.objs v) k)], env := st.env ++ [st.objs.length] }

/-- csdl/lang/variable.py:306-395 `x[key]` -/
def execIndex (st : St K F) (v : Nat) (key : Key) : Except Err (St K F) :=
  match normalizeKey (shapeOf st.objs v) key with
  | .error e => .error (.index e)
  | .ok k => execPart (withDecomp st v).2 v (withDecomp st v).1 k

/-- `var.name = name` -/
def rename (objs : List (PObj K F)) (o : Nat) (name : Name) : List (PObj K F) :=
  objs.modify o fun p => { p with obj := { p.obj with name := name } }

/-- names of the inputs, registered outputs and declared variables of the model -/
def userNames (st : St K F) : List Name := (st.inputs ++ st.outputs ++ st.declared).map fun o => (st.objs[o]?.map fun p => p.obj.name).getD []

/-- `isinstance(var, Output)` -/
def isOutput (objs : List (PObj K F)) (o : Nat) : Bool := (objs[o]?.map fun p => decide (p.obj.kind = .var ∧ p.obj.role = .output)).getD false

/-- csdl/lang/model.py:430-485 `register_output` -/
def execRegister (st : St K F) (name : Name) (o : Nat) : Except Err (St K F) :=
  if checkBannedChars name = false then .error .value
  else if isOutput st.objs o = false then .error .type
  else if o ∈ st.outputs then .error .value
  else if name ∈ userNames st then .error .value
  else .ok { st with objs := rename st.objs o name, outputs := st.outputs ++ [o] }

/-- `var.name` -/
def nameOf (objs : List (PObj K F)) (o : Nat) : Name := (objs[o]?.map fun p => p.obj.name).getD []

/-- csdl/lang/concatenation.py:138-144, csdl/operations/indexed_passthrough.py:8-12: the first assignment to a part of `v` creates an operation, of which `v` is the result -/
def newAsm (objs : List (PObj K F)) (v x : Nat) (k : Kind K F) : List (PObj K F) :=
  (objs.modify v fun p => { p with obj := { p.obj with deps := [objs.length] } }) ++
    [⟨{ kind := .op, name := genHexName objs.length, auto := genHexName objs.length, deps := [x], outs := [v] }, some k, none⟩]

/-- csdl/lang/operation.py:33-40, csdl/lang/concatenation.py:119: the operation gets one more argument, with its target indices -/
def addArg (p : PObj K F) (x : Nat) (e : Shape × List Int) : PObj K F :=
  { p with
    obj := { p.obj with deps := p.obj.deps ++ [x] }
    op := match p.op with
      | some (.assemble shape val es) => some (.assemble shape val (es ++ [e]))
      | k => k }

/-- csdl/lang/concatenation.py:145-146: later assignments to parts of `v` add to `v.dependencies[0]` -/
def growAsm (objs : List (PObj K F)) (v x : Nat) (e : Shape × List Int) : List (PObj K F) :=
  objs.modify (((objs[v]?.map fun p => p.obj.deps).getD []).headD 0) fun p => addArg p x e

/-- csdl/lang/concatenation.py:58-149 `v[key] = x`; a variable that is not a `Concatenation` has no `__setitem__` (TypeError) -/
def execAssign (st : St K F) (v : Nat) (key : Key) (x : Nat) : Except Err (St K F) :=
  match st.concat.get? v with
  | none => .error .type
  | some (c, val) =>
    match setItem c key ⟨x, nameOf st.objs x, shapeOf st.objs x⟩ with
    | (_, some e) => .error (.index e)
    | (c', none) =>
      let e := (shapeOf st.objs x, (c'.tgt.get? (nameOf st.objs x)).getD [])
      .ok { st with
        objs := if c.deps.isNone then newAsm st.objs v x (.assemble c.shape val [e]) else growAsm st.objs v x e
        concat := st.concat.set v (c', val) }

/-- csdl/lang/model.py:386-428 `create_output`: a `Concatenation` is created and registered (csdl/lang/model.py:430-485; it is new, and an output) -/
def execOutput (st : St K F) (name : Name) (shape : Shape) (val : Val K) : Except Err (St K F) :=
  if checkBannedChars name = false then .error .value
  else if name ∈ userNames st then .error .value
  else .ok { st with
    objs := st.objs ++ [newVarObj st.objs name .output false shape none]
    env := st.env ++ [st.objs.length]
    outputs := st.outputs ++ [st.objs.length]
    concat := st.concat.set st.objs.length ({ shape := shape }, val) }

/-- One statement. -/
def exec [Field K] [DecidableEq K] (st : St K F) : Stmt K F → Except Err (St K F)
  -- csdl/lang/model.py:348-384
  | .input name shape val =>
    if checkBannedChars name = false then .error .value
    else .ok { st with objs := st.objs ++ [newVarObj st.objs name .input false shape (some val)], env := st.env ++ [st.objs.length], inputs := st.inputs ++ [st.objs.length] }
  -- csdl/lang/model.py:297-346
  | .declare name shape val =>
    .ok { st with objs := st.objs ++ [newVarObj st.objs name .declared val.isSome shape val], env := st.env ++ [st.objs.length], declared := st.declared ++ [st.objs.length] }
  | .expr i => if (operands i).all (· < st.env.length) then execExpr st ((operands i).headD 0) (lower i) else .error .scope
  | .call f args outs => if args.all (· < st.env.length) then .ok (execCall st f args outs) else .error .scope
  | .index x key => if x < st.env.length then execIndex st (st.env.getD x 0) key else .error .scope
  | .output name shape val => execOutput st name shape val
  | .assign y key x => if y < st.env.length ∧ x < st.env.length then execAssign st (st.env.getD y 0) key (st.env.getD x 0) else .error .scope
  | .register name x => if x < st.env.length then execRegister st name (st.env.getD x 0) else .error .scope
  -- csdl/lang/model.py:287-295
  | .connect a b =>
    if a = b then .error .key
    else if (a, b) ∈ st.connections then .ok st
    else .ok { st with connections := st.connections ++ [(a, b)] }

/-- csdl/lang/model.py:487-542 `add`, csdl/lang/subgraph.py:11-31: the `Subgraph` object -/
def execAdd (st : St K F) (name : Name) (promotes : Option (List Name)) : Except Err (St K F) :=
  if checkBannedChars name = false then .error .value
  else if name ∈ st.subs.map (·.2.1) then .error .key
  else .ok { st with objs := st.objs ++ [⟨{ kind := .model, name := name, auto := genHexName st.objs.length }, none, none⟩], subs := st.subs ++ [(st.objs.length, name, promotes)] }

/-- The models that were defined in `with` blocks of a method, in order: the state after the block, the models defined in `with` blocks inside it, and those after it. -/
inductive Inl (K F : Type) where
  | nil
  | cons (st : St K F) (subs rest : Inl K F)

/-- A `define` method: the statements one after the other.  The statements of a `with` block are executed at once (csdl/lang/model.py:1211-1251: `define` of the `InlineModel` does nothing), and then the model is added.
Simplification: only the model of the block is used in it, so that it is a method of its own; if a statement of the block raises an exception, this is the exception here, where Python raises that
of `self.add` in the `finally` clause if there is one. -/
def runOwn [Field K] [DecidableEq K] : St K F → Body K F → Except Err (St K F × Inl K F)
  | st, .done => .ok (st, .nil)
  | st, .stmt s rest =>
    match exec st s with
    | .error e => .error e
    | .ok st => runOwn st rest
  | st, .add false name promotes _ rest =>
    match execAdd st name promotes with
    | .error e => .error e
    | .ok st => runOwn st rest
  | st, .add true name promotes sub rest =>
    match runOwn { objs := st.objs } sub with
    | .error e => .error e
    | .ok (m, ms) =>
      match execAdd { st with objs := m.objs } name promotes with
      | .error e => .error e
      | .ok st =>
        match runOwn st rest with
        | .error e => .error e
        | .ok (st, r) => .ok (st, .cons m ms r)

/-- The `Model` object after `define`, with its submodels. -/
def St.model (st : St K F) (subs : OSubs) : OModel := .mk st.inputs st.outputs st.declared st.connections [] [] none subs

/-- csdl/lang/define_models_recursively.py:26-35: a model without outputs, submodels and inputs is rejected (ValueError) -/
def St.empty (st : St K F) : Bool := decide (st.outputs = [] ∧ st.subs = [] ∧ st.inputs = [])

/-- csdl/lang/define_models_recursively.py:46-51: a registered `Concatenation` of which no part has been assigned is rejected (ValueError) -/
def St.undefined (st : St K F) : Bool := st.outputs.any fun v => match st.concat.get? v with
  | some (c, _) => c.deps.isNone
  | none => false

/-- csdl/lang/define_models_recursively.py:22-24: the submodels of a method, whose `Subgraph` objects are `ids`, are defined after it, one after the other, each followed by its own submodels; for those that were defined in
`with` blocks (`inl`), only their own submodels are left.  The result is the list of objects and the submodels. -/
def runSubs [Field K] [DecidableEq K] : List (PObj K F) → List (Nat × Name × Option (List Name)) → Inl K F → Body K F → Except Err (List (PObj K F) × OSubs)
  | objs, _, _, .done => .ok (objs, .nil)
  | objs, ids, inl, .stmt _ rest => runSubs objs ids inl rest
  | objs, [], _, .add _ _ _ _ _ => .ok (objs, .nil)
  | objs, i :: ids, inl, .add false _ _ sub rest =>
    match runOwn { objs := objs } sub with
    | .error e => .error e
    | .ok (st, ms) =>
      match runSubs st.objs st.subs ms sub with
      | .error e => .error e
      | .ok (objs, ks) =>
        if st.empty || st.undefined then .error .value
        else match runSubs objs ids inl rest with
          | .error e => .error e
          | .ok (objs, r) => .ok (objs, .cons i.1 i.2.2 (st.model ks) r)
  | objs, _ :: _, .nil, .add true _ _ _ _ => .ok (objs, .nil)
  | objs, i :: ids, .cons st ms inl, .add true _ _ sub rest =>
    match runSubs objs st.subs ms sub with
    | .error e => .error e
    | .ok (objs, ks) =>
      if st.empty || st.undefined then .error .value
      else match runSubs objs ids inl rest with
        | .error e => .error e
        | .ok (objs, r) => .ok (objs, .cons i.1 i.2.2 (st.model ks) r)

/-- csdl/lang/define_models_recursively.py:10-52: the whole program, from the `define` method of the main model: all objects, and the main model.  `pre` are the objects that were created in the session before (e.g. by other
programs); new objects are counted on from them (csdl/lang/node.py:22-27 `Node._count`). -/
def runFrom [Field K] [DecidableEq K] (pre : List (PObj K F)) (b : Body K F) : Except Err (List (PObj K F) × OModel) :=
  match runOwn { objs := pre } b with
  | .error e => .error e
  | .ok (st, inl) =>
    match runSubs st.objs st.subs inl b with
    | .error e => .error e
    | .ok (objs, ks) => if st.empty || st.undefined then .error .value else .ok (objs, st.model ks)

/-- csdl/lang/define_models_recursively.py:10-52: the whole program, in a new session -/
def runProgram [Field K] [DecidableEq K] (b : Body K F) : Except Err (List (PObj K F) × OModel) := runFrom [] b

/-- The objects by identity; there are no others. -/
def objects (objs : List (PObj K F)) : Objs := fun i => (objs[i]?.map fun p => p.obj).getD { kind := .var, name := [] }

/-- which operation an operation object is -/
def kindOf (objs : List (PObj K F)) (i : Nat) : Option (Kind K F) := objs[i]?.bind fun p => p.op

end Csdl.Prog
