import Verif.Model.Library
import Verif.Spec.ProgramFull
/-
Specification for C83: the shapes of all variables of a program can be read off its text, and with them the program can be written with plain operations.
-/
namespace Csdl.Prog
open Csdl Csdl.Arith
variable {K G I : Type} [Field K]

omit [Field K] in
/-- the variables after a statement: the shape of each, and whether it is (or is `+` of) a variable made by `create_output` -/
def stepVars {F : Type} (vs : List (Shape × Bool)) : Stmt K F → List (Shape × Bool)
  | .input _ s _ | .declare _ s _ => vs ++ [(s, false)]
  | .output _ s _ => vs ++ [(s, true)]
  | .expr (.pos x) => vs ++ [vs.getD x ([], false)]
  | .expr i => vs ++ [((vs.getD i.first ([], false)).1, false)]
  | .call _ _ outs => vs ++ outs.map fun s => (s, false)
  | .index x key => vs ++ [(partShape (vs.getD x ([], false)).1 key, false)]
  | .register _ _ | .connect _ _ | .assign _ _ _ => vs

/-- the variables after the statements, if those before are `vs` -/
def varsAfter (vs : List (Shape × Bool)) : List (XStmt K (LOp K) G I) → List (Shape × Bool)
  | [] => vs
  | s :: l => varsAfter ((s.low vs.length).foldl stepVars vs) l

/-- statements before a method -/
def XBody.prefix {F : Type} (b : XBody K F G I) : List (XStmt K F G I) → XBody K F G I
  | [] => b
  | s :: l => .stmt s (b.prefix l)

/-- The program with every call of a function of the library replaced by its operations, whose results have the shapes that follow from the text; an exception if a call does not accept the shapes of its arguments.
`vs`: the variables before. -/
def LBody.typed : List (Shape × Bool) → LBody K G I → Except Err (XBody K (LOp K) G I)
  | _, .done => .ok .done
  | vs, .stmt s rest =>
    match s.steps (vs.map (·.2)) (vs.map (·.1)) with
    | .error e => .error e
    | .ok l => (rest.typed (varsAfter vs l)).map fun r => r.prefix l
  | vs, .add inline name p sub rest =>
    match sub.typed [] with
    | .error e => .error e
    | .ok sub' => (rest.typed vs).map fun r => .add inline name p sub' r

/-- the statements of a method in order, each with the shapes of the variables created before it (as far as every call accepts its arguments) -/
def LBody.stmts : List (Shape × Bool) → LBody K G I → List (List Shape × LStmt K G I)
  | _, .done => []
  | vs, .stmt s rest => (vs.map (·.1), s) ::
    match s.steps (vs.map (·.2)) (vs.map (·.1)) with
    | .error _ => []
    | .ok l => rest.stmts (varsAfter vs l)
  | vs, .add _ _ _ _ rest => rest.stmts vs

/-- the submodels: name, promotes, method -/
def LBody.subs : LBody K G I → List (Name × Option (List Name) × LBody K G I)
  | .done => []
  | .stmt _ rest => rest.subs
  | .add _ n p sub rest => (n, p, sub) :: rest.subs

/-- `LAt b path b'`: `b'` is the method of the model reached from the main model through the submodels named in `path`. -/
inductive LAt : LBody K G I → List Name → LBody K G I → Prop
  | here (b : LBody K G I) : LAt b [] b
  | down {b : LBody K G I} {n : Name} {p : Option (List Name)} {sub : LBody K G I} {path : List Name} {b' : LBody K G I} : (n, p, sub) ∈ b.subs → LAt sub path b' → LAt b (n :: path) b'

end Csdl.Prog
