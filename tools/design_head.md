# A Lean 4 model of LSDOlab/csdl

Lean project: `lean/` (modules under `lean/Verif/`, all imported from `lean/Verif.lean`).
Properties: `properties.jsonl`.  Claims: `MANIFEST.json`.  Mutation log: `seeded/LOG.jsonl`.
This file is generated by `tools/design.py` from `tools/design_head.md`, `tools/plan.json`,
`MANIFEST.json` and `tools/design_tail.md`.

## Method

* `Verif/Model/`: the code, function by function.  Every function that is modelled is a total,
  computable Lean function that mirrors the Python branch by branch.  Exceptions are values of
  `Except Err α` (one constructor per `raise` that a caller can tell apart), mutable objects are
  state-passing structures or heaps indexed by object identity (`Nat`), dictionaries are
  insertion-ordered association lists (`Model/Dict.lean`), and a Python `set` whose iteration order
  the code depends on is a list in arbitrary order, so that theorems quantify over the schedule.
  Loops that have no structural measure take fuel; the theorems either say "whenever the result is not
  out-of-fuel" or give a sufficient amount of fuel (`maximum recursion depth` of Python is such a bound).
  Every definition cites the file and lines of `/repo` it models, and says where it simplifies.
* `Verif/Spec/`: small declarative specifications that do not mention the model's helpers, e.g. the
  inductive predicate "variable v of the hierarchy has the name p in the main model", NumPy's slicing,
  the Cox–de Boor recursion, "this assignment of values solves the model".
* `Verif/Proofs/`: lemmas.
* `Verif/Props/`: the property theorems, `Cxx_…`, each followed by `example`s that show that a
  concrete, non-trivial case meets the hypotheses.

A theorem with the suffix `_partial` proves less than the property it belongs to.  When the code
violates a property, the file contains (a) a theorem proving the negation with a concrete witness
program, and (b) the part that does hold, with suffix `_partial`.

## Plan per property

