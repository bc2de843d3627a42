import Verif.Model.Tree
/-
Model of csdl/rep/resolve_promotions.py.
-/
namespace Csdl

/-- The errors raised by `resolve_promotions`. -/
inductive PErr where
  /-- KeyError of csdl/utils/check_duplicate_keys.py:20-21 -/
  | duplicateSource
  /-- ValueError of csdl/utils/find_names_with_matching_shapes.py:15-20 -/
  | shapeMismatch
  /-- KeyError of csdl/rep/resolve_promotions.py:303-310 -/
  | invalidPromotes
  /-- ValueError of csdl/rep/resolve_promotions.py:275-276 and 330-332 -/
  | sizeMismatch
  deriving DecidableEq, Repr

/-- csdl/utils/check_duplicate_keys.py:7-21 -/
def checkDuplicateKeys (a b : Dict Name Shape) : Except PErr Unit :=
  if b.keys.any (fun k => a.has k) then .error .duplicateSource else .ok ()

/-- csdl/utils/find_keys_with_matching_values.py:24-41 with the error callback of
csdl/utils/find_names_with_matching_shapes.py:15-20: for every key of both
dictionaries the shapes must be equal or have the same product. -/
def findNamesWithMatchingShapes (a b : Dict Name Shape) : Except PErr Unit :=
  if a.all (fun kv => match b.get? kv.1 with
      | none => true
      | some v2 => kv.2 == v2 || kv.2.size == v2.size)
  then .ok () else .error .shapeMismatch

/-- csdl/rep/collect_locally_defined_variables.py:16-23 `source_shapes` -/
def localSourceShapes (l : Local) : Dict Name Shape :=
  Dict.ofPairs (l.sources.map fun x => (x.name, x.shape))

/-- csdl/rep/collect_locally_defined_variables.py:20-23 `target_shapes` -/
def localTargetShapes (l : Local) : Dict Name Shape :=
  Dict.ofPairs (l.declared.map fun x => (x.name, x.shape))

/-- What the parent needs of a child: name and promotes of the `Subgraph` and
`submodel.promoted_to_unpromoted`. -/
structure Child where
  name : Name
  promotes : Option (List Name)
  p2u : Dict Name (List Name)

/-- Python set union on sets kept as lists. -/
def unionSet (a b : List Name) : List Name := a ++ b.filter (fun x => ¬ x ∈ a)

/-- csdl/rep/resolve_promotions.py:334-339 (and 340-345): add the unpromoted names `v` to the
entry of `k`. -/
def addEntry (p2u : Dict Name (List Name)) (k : Name) (v : List Name) : Dict Name (List Name) :=
  match p2u.get? k with
  | some old => p2u.set k (unionSet old v)
  | none => p2u.set k v

/-- csdl/rep/resolve_promotions.py:334-345, the two loops that add the entries of
`promoting_from_child` / `not_promoting_from_child` to `promoted_to_unpromoted`. -/
def mergeInto (p2u : Dict Name (List Name)) : List (Name × List Name) → Dict Name (List Name)
  | [] => p2u
  | (k, v) :: rest => mergeInto (addEntry p2u k v) rest

/-- csdl/rep/resolve_promotions.py:254-258 `promoting_from_child` -/
def promotingFromChild (c : Child) : Dict Name (List Name) :=
  c.p2u.map fun kv => (kv.1, kv.2.map (prependNamespace c.name))

/-- csdl/rep/resolve_promotions.py:266-271 `not_promoting_from_child` -/
def notPromotingFromChild (c : Child) : Dict Name (List Name) :=
  Dict.ofPairs (c.p2u.map fun kv => (prependNamespace c.name kv.1, kv.2.map (prependNamespace c.name)))

/-- csdl/rep/resolve_promotions.py:273-332: the split of the child's entries.
`names` are the names of the parent's local namespace. -/
def splitChild (names : List Name) (c : Child) :
    Except PErr (Dict Name (List Name) × Dict Name (List Name)) :=
  let pfc := promotingFromChild c
  let npfc := notPromotingFromChild c
  match c.promotes with
  | none =>
    -- lines 279-292
    let promoted := pfc.filter fun kv => ¬ '.' ∈ kv.1
    .ok (promoted, promoted.foldl (fun d kv => d.pop (prependNamespace c.name kv.1)) npfc)
  | some [] => .ok ([], npfc)                           -- lines 294-298
  | some (q :: qs) =>
    -- lines 299-334
    if (q :: qs).any (fun n => ¬ n ∈ names) then .error .invalidPromotes
    else
      let promoted := pfc.filter fun kv => kv.1 ∈ q :: qs
      .ok (promoted, promoted.foldl (fun d kv => d.pop (prependNamespace c.name kv.1)) npfc)

/-- csdl/rep/resolve_promotions.py:241-345, body of the loop over subgraphs. -/
def mergeChild (names : List Name) (p2u : Dict Name (List Name)) (c : Child) :
    Except PErr (Dict Name (List Name)) := do
  let n := (promotingFromChild c).length
  if (notPromotingFromChild c).length ≠ n then throw .sizeMismatch
  let (pfc, npfc) ← splitChild names c
  if pfc.length + npfc.length ≠ n then throw .sizeMismatch
  pure (mergeInto (mergeInto p2u pfc) npfc)

/-- csdl/rep/resolve_promotions.py:241-345, the loop over subgraphs. -/
def mergeChildren (names : List Name) : Dict Name (List Name) → List Child →
    Except PErr (Dict Name (List Name))
  | p2u, [] => .ok p2u
  | p2u, c :: cs => do
    let p2u' ← mergeChild names p2u c
    mergeChildren names p2u' cs

/-- Result of `resolve_promotions` on one model: the attribute
`model.promoted_to_unpromoted`, and the first two returned dictionaries. -/
structure Res where
  p2u : Dict Name (List Name)
  src : Dict Name Shape
  tgt : Dict Name Shape

/-- csdl/rep/resolve_promotions.py:360-364 (and 365-369): names available to the parent. -/
def userPromotable (promotes : Option (List Name)) (d : Dict Name Shape) : Dict Name Shape :=
  match promotes with
  | none => d
  | some l => d.filter fun kv => kv.1 ∈ l

/-- csdl/rep/resolve_promotions.py:203-212: initial `promoted_to_unpromoted`. -/
def localMap (l : Local) : Dict Name (List Name) :=
  ((localTargetShapes l).keys).foldl (fun d k => d.set k [k])
    (((localSourceShapes l).keys).foldl (fun d k => d.set k [k]) [])

/-- csdl/rep/resolve_promotions.py:121-386: what happens after the recursive calls, with
`psrc`/`ptgt` the sources and targets promoted from the children.
Simplification: the dictionaries of variable *objects* (lines 378-385), which have the
same keys, are not modelled. -/
def finish (l : Local) (children : List Child) (psrc ptgt : Dict Name Shape)
    (promotes : Option (List Name)) : Except PErr Res := do
  let lsrc := localSourceShapes l
  let ltgt := localTargetShapes l
  if psrc.length > 0 then checkDuplicateKeys lsrc psrc             -- 138-142
  if ptgt.length > 0 then findNamesWithMatchingShapes ptgt ltgt    -- 149-153
  findNamesWithMatchingShapes lsrc ptgt                            -- 157-160
  findNamesWithMatchingShapes psrc ltgt                            -- 161-164
  let nsSrc := lsrc.update psrc                                    -- 169-173
  let nsTgt := ltgt.update ptgt                                    -- 174-178
  let p2u ← mergeChildren (nsSrc.keys ++ nsTgt.keys) (localMap l) children
  pure { p2u := p2u, src := userPromotable promotes nsSrc, tgt := userPromotable promotes nsTgt }

mutual
/-- csdl/rep/resolve_promotions.py:58-386 `resolve_promotions`. -/
def resolve : Model → Option (List Name) → Except PErr Res
  | .mk l subs, promotes => do
    let (children, psrc, ptgt) ← resolveSubs subs [] []
    finish l children psrc ptgt promotes
/-- csdl/rep/resolve_promotions.py:69-120: the loop over subgraphs with its accumulators. -/
def resolveSubs : Subs → Dict Name Shape → Dict Name Shape →
    Except PErr (List Child × Dict Name Shape × Dict Name Shape)
  | .nil, psrc, ptgt => .ok ([], psrc, ptgt)
  | .cons name promotes m rest, psrc, ptgt => do
    let r ← resolve m promotes
    checkDuplicateKeys r.src psrc                                  -- 97-100
    findNamesWithMatchingShapes r.tgt ptgt                         -- 107-110
    let (cs, psrc', ptgt') ← resolveSubs rest (psrc.update r.src) (ptgt.update r.tgt)
    pure (⟨name, promotes, r.p2u⟩ :: cs, psrc', ptgt')
end

/-- csdl/rep/graph_representation.py:107-112 `create_reverse_map`. -/
def createReverseMap (d : Dict Name (List Name)) : Dict Name Name :=
  d.foldl (fun d2 kv => kv.2.foldl (fun d2 kk => d2.set kk kv.1) d2) []

end Csdl
