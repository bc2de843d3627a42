import Verif.Model.Report
import Verif.Spec.Compile
/-
Specification for C92-C94: what the files written with `analytics=True` say.
-/
namespace Csdl

/-- `line` describes the variable `x` of the model `m` reached through `path`: its name, class, shape, promoted name, and full name. -/
structure LineOf (H : Objs) (root : OModel) (path : List Name) (m : OModel) (line : HLine) (x : Nat) : Prop where
  node : line.node = x
  name : line.name = (H x).name
  role : line.role = (H x).role
  shape : line.shape = (H x).shape
  promoted : ∃ k w, PromotedAs (root.toModel H) path k w line.promoted ∧ w.name = (H x).name
  full : line.full = fullName path (H x).name

/-- The section describes the model `m` reached through `path`: it is indented by the depth of the model, has its name, every row describes a variable of the model
that is in use, and every variable of the model that is in use has a row, which describes it or another declaration of the same name; no two rows have the same name. -/
structure SectionOf (H : Objs) (root : OModel) (path : List Name) (m : OModel) (sec : HSection) : Prop where
  depth : sec.depth = path.length
  name : sec.name = path.getLast?.getD systemLevel
  rows : ∀ line ∈ sec.lines, ∃ x ∈ m.vars, m.Uses H x ∧ LineOf H root path m line x
  complete : ∀ x ∈ m.vars, m.Uses H x → ∃ line ∈ sec.lines, line.name = (H x).name ∧ (line.node = x ∨ (x ∈ m.declared ∧ line.node ∈ m.declared))
  once : (sec.lines.map HLine.name).Nodup

/-- The indentation shows the hierarchy: before the section of a submodel comes the section of the model it is in, and all sections in between are deeper than that model. -/
def Indented (paths : List (List Name)) : Prop :=
  ∀ (i : Nat) (p : List Name) (n : Name), paths[i]? = some (p ++ [n]) → ∃ j < i, paths[j]? = some p ∧ ∀ k, j < k → k < i → ∀ q, paths[k]? = some q → p.length < q.length

/-- The sections describe the models of the hierarchy, each one once. -/
def Describes (H : Objs) (root : OModel) (secs : List HSection) : Prop :=
  ∃ paths : List (List Name), paths.Nodup ∧ (∀ path, path ∈ paths ↔ ∃ m, OAt H root path m) ∧ Indented paths ∧
    List.Forall₂ (fun path sec => ∃ m, OAt H root path m ∧ SectionOf H root path m sec) paths secs

/-- The string of promotion levels of a variable of a model at depth `d` whose promoted name has `q` model names: as csdl/rep/construct_flat_graph.py:736-760 (the guide) explains it,
one '.' for the main model and each model above the level it is promoted to, then the number of levels it is promoted by at each remaining level. -/
def LevelsShown (d q : Nat) (level : List (Option Nat)) : Prop :=
  level.length = d + 1 ∧ ∀ i ≤ d, level[i]? = some (if i < q then none else some (d - i))

/-- the variables of a block -/
def MBlock.nodes (b : MBlock) : List Nat := b.lines.map MLine.node

/-- the variables that have rows in the sections -/
def Rows (secs : List HSection) (x : Nat) : Prop := ∃ sec ∈ secs, ∃ line ∈ sec.lines, line.node = x

/-- Why `b` is written below `a`: by promotion if the two have the same promoted name, by connection if a connection from `a` to `b` has been issued. -/
inductive ShownAs (H : Objs) (root : OModel) (a b : Nat) : MergeKind → Prop
  | promotion (p : Name) : NamedVar H root a p → NamedVar H root b p → ShownAs H root a b .promotion
  | connection (path : List Name) (m : OModel) (s t p q : Name) : OAt H root path m → (s, t) ∈ m.connections → Denotes (root.toModel H) (fullName path s) p →
      Denotes (root.toModel H) (fullName path t) q → NamedVar H root a p → NamedVar H root b q → ShownAs H root a b .connection

/-- The indentation of the rows: only the first row is not indented; every other row is indented once more than a row before it, the rows in between are deeper than that row, and the two
rows are in relation `R`. -/
def Nested (R : Nat → Nat → MergeKind → Prop) (lines : List MLine) : Prop :=
  ∀ i l, lines[i]? = some l → (i = 0 ∧ l.depth = 0 ∧ l.kind = .source) ∨
    ∃ j < i, ∃ p, lines[j]? = some p ∧ l.depth = p.depth + 1 ∧ (∀ k, j < k → k < i → ∀ l', lines[k]? = some l' → p.depth < l'.depth) ∧ R p.node l.node l.kind

/-- The blocks of `promotions_connections.txt` show which variables are the same variable:
every row is that of a variable in `hierarchy.txt`, with the same class and full name; no variable has two rows; two variables in `hierarchy.txt` are the same variable (by promotions and
connections) exactly if they are in the same block; every row is below one that it is promoted to or connected to; the first variable of a block is the one that is kept in the
representation; there is a warning exactly if none of the variables is an input or output. -/
structure BlocksShow (H : Objs) (root : OModel) (rep : Rep) (secs : List HSection) (bs : List MBlock) : Prop where
  rows : ∀ b ∈ bs, ∀ line ∈ b.lines, ∃ sec ∈ secs, ∃ row ∈ sec.lines, row.node = line.node ∧ row.role = line.role ∧ row.full = line.full
  once : (bs.flatMap MBlock.nodes).Nodup
  same : ∀ x y, Rows secs x → Rows secs y → (Relation.EqvGen (Joined H root) x y ↔ x = y ∨ ∃ b ∈ bs, x ∈ b.nodes ∧ y ∈ b.nodes)
  nested : ∀ b ∈ bs, Nested (ShownAs H root) b.lines
  first : ∀ b ∈ bs, ∃ line, b.lines[0]? = some line ∧ ∀ x ∈ b.nodes, x ∈ rep.graph.nodes ↔ x = line.node
  warning : ∀ b ∈ bs, (b.warning = true ↔ ∀ line ∈ b.lines, line.role = .declared)

end Csdl
