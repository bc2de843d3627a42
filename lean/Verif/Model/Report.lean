import Verif.Model.Compile
/-
Model of the files written by `construct_flat_graph` with `analytics=True`: `hierarchy.txt` and `promotions_connections.txt`,
csdl/rep/construct_flat_graph.py:107-241, 340-375, 474-735.
-/
namespace Csdl

/-! ### hierarchy.txt -/

/-- One row of `hierarchy.txt` for a variable (csdl/rep/construct_flat_graph.py:638-661).  `level` is the string of promotion levels, one entry per model
on the way to the variable: `none` is '.', `some k` is `str(k)`.  Simplifications: the row is a record instead of padded columns (664-671); the average value and the
number of the variable object are not modelled (the object itself, `node`, is). -/
structure HLine where
  node : Nat
  name : Name
  role : Role
  level : List (Option Nat)
  shape : Shape
  promoted : Name
  full : Name
  deriving DecidableEq, Repr

/-- The rows written by one call of `write_hierarchy_info_to_file`: the model's row, indented `depth` times, and the rows of its variables. -/
structure HSection where
  depth : Nat
  name : Name
  lines : List HLine
  deriving DecidableEq, Repr

/-- csdl/rep/construct_flat_graph.py:605-617: the loop over `h_w_model` from position `i`; `pros` is `num_pros`, `split` is `split_namespace`.
`num_pros` is never negative: it starts from one less than the number of entries (for the main model, 0 with one entry). -/
def levelsFrom (split : List Name) : Nat → Nat → List Name → Except FErr (List (Option Nat))
  | _, _, [] => .ok []
  | i, pros, m :: ms =>
    if split.length - 1 ≤ i then
      match levelsFrom split (i + 1) (pros - 1) ms with
      | .error e => .error e
      | .ok l => .ok (some pros :: l)
    else if split[i]? ≠ some m then .error .value
    else
      match levelsFrom split (i + 1) (pros - 1) ms with
      | .error e => .error e
      | .ok l => .ok (none :: l)

/-- csdl/rep/construct_flat_graph.py:605-661: the row of one variable with a user-given name.  `h` is `h_w_model`, `n` is `len_hierarchy`. -/
def hierarchyLine (I : NHeap) (st : FState) (h : List Name) (n : Nat) (v : Nat) : Except FErr HLine :=
  match levelsFrom ([] :: splitDot (st.ns v)) 0 n h with
  | .error e => .error e
  | .ok level => .ok ⟨v, (I v).name, (I v).role, level, (I v).shape, prependNamespace (st.ns v) (I v).name, prependNamespace (st.uns v) (I v).name⟩

/-- csdl/rep/construct_flat_graph.py:580-662: the loop over the variable nodes; automatically named variables are left out (583-584) -/
def hierarchyLines (I : NHeap) (st : FState) (h : List Name) (n : Nat) : List Nat → Except FErr (List HLine)
  | [] => .ok []
  | v :: vs =>
    if (I v).name = (I v).auto then hierarchyLines I st h n vs
    else
      match hierarchyLine I st h n v with
      | .error e => .error e
      | .ok x =>
        match hierarchyLines I st h n vs with
        | .error e => .error e
        | .ok xs => .ok (x :: xs)

/-- csdl/rep/construct_flat_graph.py:558-662 `write_hierarchy_info_to_file`; `hierarchy = none` for the main model -/
def writeSection (I : NHeap) (st : FState) (hierarchy : Option (List Name)) (name : Name) (g : Graph) : Except FErr HSection :=
  let h := match hierarchy with | none => [[]] | some l => l ++ [name]
  let n := match hierarchy with | none => 0 | some l => l.length
  match hierarchyLines I st h n (varNodes I g) with
  | .error e => .error e
  | .ok ls => .ok ⟨n, name, ls⟩

/-- csdl/rep/construct_flat_graph.py:126-240 with `analytics_filename`: the loop over the child models, see `mergeKids`.  The section of a child is written (222-228) after the
names of its variables are known and before its own children are visited. -/
def mergeKidsA (I : NHeap) (p2u : Dict Name (List Name)) (u2p : Dict Name Name) : Kids → List Name → Name → FState → Except FErr (FState × List HSection)
  | .nil, _, _, st => .ok (st, [])
  | .cons _ name g kids rest, hierarchy, ns, st =>
    let st1 : FState := { st with graph := (st.graph.addEdges g.edges).addNodes g.nodes }
    match assignAll I p2u u2p (prependNamespace ns name) st1 (varNodes I g) with
    | .error e => .error e
    | .ok st2 =>
      match writeSection I st2 (some hierarchy) name g with
      | .error e => .error e
      | .ok sec =>
        match mergeKidsA I p2u u2p kids (hierarchy ++ [name]) (prependNamespace ns name) { st2 with graph := st2.graph.removeNodes kids.ids } with
        | .error e => .error e
        | .ok (st3, l3) =>
          match mergeKidsA I p2u u2p rest hierarchy ns st3 with
          | .error e => .error e
          | .ok (st4, l4) => .ok (st4, sec :: l3 ++ l4)

/-- the name written for the main model (csdl/rep/construct_flat_graph.py:513) -/
def systemLevel : Name := "<SYSTEM LEVEL>".toList

/-- csdl/rep/construct_flat_graph.py:483-524 with `analytics`: the flattened graph, and the contents of `hierarchy.txt` -/
def flattenA (I : NHeap) (p2u : Dict Name (List Name)) (u2p : Dict Name Name) (g : Graph) (kids : Kids) : Except FErr (FState × List HSection) :=
  let st : FState := ⟨g.removeNodes kids.ids, fun v => if v ∈ varNodes I g then rootNs I p2u u2p v else [], fun _ => []⟩
  match writeSection I st none systemLevel g with
  | .error e => .error e
  | .ok sec =>
    match mergeKidsA I p2u u2p kids [[]] [] st with
    | .error e => .error e
    | .ok (st', l) => .ok (st', sec :: l)

/-! ### promotions_connections.txt -/

/-- `d[v].update(l)` for the attributes `declared_to` -/
def addAttr (f : Nat → List Nat) (v : Nat) (l : List Nat) : Nat → List Nat := fun w => if w = v then f w ++ l.filter (fun x => x ∉ f w) else f w

/-- csdl/rep/construct_flat_graph.py:346-349: `declared_to` after the contraction of the redundant targets -/
def declaredRedundant (order : List Nat → List Nat) (u : Dict Name Nat) (red : Dict Name (List Nat)) : Nat → List Nat :=
  red.foldl (fun f kt => match u.get? kt.1 with | none => f | some r => (order kt.2).foldl (fun f t => addAttr f r [t]) f) fun _ => []

/-- csdl/rep/construct_flat_graph.py:362-366: `declared_to` after the contraction of the representatives into the sources -/
def declaredSources (u : Dict Name Nat) (sources : Dict Name Nat) (f : Nat → List Nat) : Nat → List Nat :=
  sources.foldl (fun f ks => match u.get? ks.1 with
    | none => f
    | some r => fun w => if w = r then [] else addAttr (addAttr f ks.2 [r]) ks.2 (f r) w) f

/-- csdl/rep/construct_flat_graph.py:244-375: the attributes `declared_to` after `merge_automatically_connected_nodes`, see `mergeAuto` -/
def declaredTo (I : NHeap) (order : List Nat → List Nat) (st : FState) : Nat → List Nat :=
  let vars := varNodes I st.graph
  let sources := Dict.ofPairs ((srcNodes I vars).map fun x => (st.pname I x, x))
  let targets := tgtNodes I vars
  let u := uniqueTargets I st targets
  let red := groupTargets I st (removeAll targets (u.map (·.2)))
  declaredSources u sources (declaredRedundant order u red)

/-- csdl/rep/merge_connections.py:213-218: `connected_to` is extended wherever `connected_tgt_nodes_to_source_nodes` is -/
def connectedTo (done : Dict Nat Nat) (v : Nat) : List Nat := (done.filter fun e => e.2 = v).map (·.1)

/-- `merge_type` -/
inductive MergeKind where
  | source | connection | promotion
  deriving DecidableEq, Repr

/-- One row of `promotions_connections.txt` (csdl/rep/construct_flat_graph.py:680-704); as a record instead of padded columns -/
structure MLine where
  depth : Nat
  kind : MergeKind
  node : Nat
  role : Role
  full : Name
  deriving DecidableEq, Repr

/-- the results of a list of calls, one after the other -/
def concatAll {α β : Type} (f : α → Option (List β)) : List α → Option (List β)
  | [] => some []
  | a :: as =>
    match f a with
    | none => none
    | some l => (concatAll f as).map (l ++ ·)

/-- csdl/rep/construct_flat_graph.py:681-723 `write_connection_and_promotions_to_file`; `none` if the recursion is deeper than `fuel` (RecursionError).
`order` is the order in which a Python set is iterated. -/
def writeMerges (I : NHeap) (uns : Nat → Name) (order : List Nat → List Nat) (decl conn : Nat → List Nat) : Nat → Nat → MergeKind → Nat → Option (List MLine)
  | 0, _, _, _ => none
  | fuel + 1, depth, kind, v =>
    match concatAll (writeMerges I uns order decl conn fuel (depth + 1) .connection) (order (conn v)) with
    | none => none
    | some l1 =>
      match concatAll (writeMerges I uns order decl conn fuel (depth + 1) .promotion) (order (decl v)) with
      | none => none
      | some l2 => some (⟨depth, kind, v, (I v).role, prependNamespace (uns v) (I v).name⟩ :: l1 ++ l2)

/-- One block of the file: the warning (csdl/rep/construct_flat_graph.py:545-546) and the rows -/
structure MBlock where
  warning : Bool
  lines : List MLine
  deriving DecidableEq, Repr

/-- csdl/rep/construct_flat_graph.py:535-553: the loop over the nodes of the final graph -/
def writeBlocks (I : NHeap) (uns : Nat → Name) (order : List Nat → List Nat) (decl conn : Nat → List Nat) (fuel : Nat) : List Nat → Option (List MBlock)
  | [] => some []
  | v :: vs =>
    if (I v).kind ≠ .var ∨ (conn v = [] ∧ decl v = []) then writeBlocks I uns order decl conn fuel vs
    else
      match writeMerges I uns order decl conn fuel 0 .source v with
      | none => none
      | some ls => (writeBlocks I uns order decl conn fuel vs).map (⟨(I v).role = .declared, ls⟩ :: ·)

/-- Errors of the construction with `analytics`. -/
inductive AErr where
  | flat (e : FErr) | recursion
  deriving DecidableEq, Repr

/-- What is written. -/
structure Report where
  sections : List HSection
  blocks : List MBlock
  deriving DecidableEq, Repr

/-- csdl/rep/construct_flat_graph.py:474-555 `construct_flat_graph` with `analytics=True`; `depth` is Python's limit on recursion (for the second file). -/
def constructFlatA (I : NHeap) (order : List Nat → List Nat) (depth : Nat) (p2u : Dict Name (List Name)) (u2p : Dict Name Name) (g : Graph) (kids : Kids)
    (cs : List (Name × Name × Name)) : Except AErr ((NodeMaps × Graph × Dict Nat Nat) × Report) :=
  match flattenA I p2u u2p g kids with
  | .error e => .error (.flat e)
  | .ok (st, secs) =>
    match mergeConnections I st p2u u2p (mergeAuto I order st) cs with
    | .error e => .error (.flat e)
    | .ok r =>
      match writeBlocks I st.uns order (declaredTo I order st) (connectedTo r.2.2) depth r.2.1.nodes with
      | none => .error .recursion
      | some bs => .ok (r, ⟨secs, bs⟩)

/-- Errors of `GraphRepresentation(model, analytics=True)`. -/
inductive BuildErrA where
  | build (e : BuildErr) | recursion

/-- an exception of the construction of the flat graph is passed on -/
def raisesA {α : Type} : Except AErr α → Except BuildErrA α
  | .ok f => .ok f
  | .error (.flat e) => .error (.build (.flat e))
  | .error .recursion => .error .recursion

/-- csdl/rep/graph_representation.py:227-393 `GraphRepresentation.__init__` with `analytics=True`, see `compile`. -/
def compileA (H : Objs) (fuel : Nat) (order : List Nat → List Nat) (depth : Nat) (root : OModel) : Except BuildErrA (Rep × Report) := do
  let r ← (raises .promotions (resolve (root.toModel H) none)).mapError .build
  let cs ← (raises .names (repConnections (root.toModel H) r.p2u)).mapError .build
  let dv ← (raises .names (collectDecl Local.designVars r.p2u (root.toModel H) [] [])).mapError .build
  let ob ← (raises .names (findObjective r.p2u (root.toModel H) [] none)).mapError .build
  let cn ← (raises .names (collectDecl Local.constraints r.p2u (root.toModel H) [] [])).mapError .build
  let gk ← (raises .graph (root.graphs H fuel)).mapError .build
  let f ← raisesA (constructFlatA H.info order depth r.p2u (createReverseMap r.p2u) gk.1 gk.2 (collectConnections (root.toModel H) []))
  let l ← (raises .sort (flatSort f.1.2.1)).mapError .build
  pure (⟨r.p2u, cs, dv, ob, cn, f.1.1, f.1.2.1, f.1.2.2, l⟩, f.2)

end Csdl
