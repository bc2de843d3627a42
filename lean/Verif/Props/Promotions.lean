import Verif.Proofs.Promotions3
import Verif.Spec.Check
/-!
# C03-C08: promotions

The specification is `PromotedAs` of Verif/Spec/Promotions.lean: the name a variable of some model of
the hierarchy has in the namespace of another model above it.
-/
namespace Csdl

/-! A hierarchy used to show the hypotheses are met: main (input `x`) contains `A` (promotes all: declares
`x`, outputs `y`), which contains `B` (promotes nothing: declares `x`, outputs `z`); main also contains `C`
(promotes `y`: declares `y`, outputs `w`). -/

def exB : Model := .mk { declared := [⟨"x".toList, [3]⟩], outputs := [⟨"z".toList, [2]⟩] } .nil
def exA : Model := .mk { declared := [⟨"x".toList, [3]⟩], outputs := [⟨"y".toList, [2, 2]⟩] }
  (.cons "B".toList (some []) exB .nil)
def exC : Model := .mk { declared := [⟨"y".toList, [4]⟩], outputs := [⟨"w".toList, [1]⟩] } .nil
def exMain : Model := .mk { inputs := [⟨"x".toList, [3]⟩] }
  (.cons "A".toList none exA (.cons "C".toList (some ["y".toList]) exC .nil))

/-- The hierarchy above is accepted by `resolve`, dot-free and has distinct names. -/
theorem exMain_ok : (∃ r, resolve exMain none = .ok r) ∧ DotFree exMain ∧ DistinctSources exMain ∧ DistinctTargets exMain := by
  refine ⟨?_, dotFree_of (by decide), distinct_of (by decide)⟩
  have h : (match resolve exMain none with | .ok _ => true | .error _ => false) = true := by decide
  cases hr : resolve exMain none with
  | ok r => exact ⟨r, rfl⟩
  | error e => rw [hr] at h; cases h

/-- C03: on success the map `promoted_to_unpromoted` holds the full name `u` under the name `p` exactly when
some variable of the hierarchy, reached through the submodels `path`, has full name `u` (model names of the path and
variable name joined by '.') and promoted name `p`; and every key has at least one full name.
No hypothesis on names or promotes. -/
theorem C03_promotion_map_exact (m : Model) (r : Res) (h : resolve m none = .ok r) :
    (∀ p u, (∃ us, r.p2u.get? p = some us ∧ u ∈ us) ↔
      ∃ path kind v, PromotedAs m path kind v p ∧ u = fullName path v.name) ∧
    (∀ p us, r.p2u.get? p = some us → us ≠ []) := by
  obtain ⟨_, h2, h3⟩ := p2u_facts m h
  exact ⟨h3, h2⟩

/-- C03 at every level: the same holds of the map stored on each submodel. -/
theorem C03_promotion_map_exact_submodels (m : Model) (r : Res) (h : resolve m none = .ok r)
    (path : List Name) (m' : Model) (hat : At m path m') :
    ∃ pr r', resolve m' pr = .ok r' ∧ ∀ p u, (∃ us, r'.p2u.get? p = some us ∧ u ∈ us) ↔
      ∃ path kind v, PromotedAs m' path kind v p ∧ u = fullName path v.name := by
  obtain ⟨pr, r', h'⟩ := at_ok hat h
  exact ⟨pr, r', h', (p2u_facts m' h').2.2⟩

example : ∃ r, resolve exMain none = .ok r ∧
    r.p2u = [("x".toList, ["x".toList, "A.x".toList]), ("y".toList, ["A.y".toList, "C.y".toList]),
      ("A.B.z".toList, ["A.B.z".toList]), ("A.B.x".toList, ["A.B.x".toList]), ("C.w".toList, ["C.w".toList])] := by
  obtain ⟨r, hr⟩ := exMain_ok.1
  refine ⟨r, hr, ?_⟩
  have h : (match resolve exMain none with | .ok r => decide (r.p2u =
    [("x".toList, ["x".toList, "A.x".toList]), ("y".toList, ["A.y".toList, "C.y".toList]),
      ("A.B.z".toList, ["A.B.z".toList]), ("A.B.x".toList, ["A.B.x".toList]), ("C.w".toList, ["C.w".toList])]) | .error _ => false) = true := by decide
  rw [hr] at h
  exact of_decide_eq_true h

/-- C04: in a dot-free hierarchy, `unpromoted_to_promoted` is the exact inverse of
`promoted_to_unpromoted`: looking up `u` gives `p` iff `u` is listed under `p`; and every variable's full name
looks up to its promoted name, which is therefore unique. -/
theorem C04_maps_inverse (m : Model) (hd : DotFree m) (r : Res) (h : resolve m none = .ok r) :
    (∀ p u, (createReverseMap r.p2u).get? u = some p ↔ ∃ us, r.p2u.get? p = some us ∧ u ∈ us) ∧
    (∀ path kind v p, PromotedAs m path kind v p → (createReverseMap r.p2u).get? (fullName path v.name) = some p) := by
  have h1 := fun p u => reverse_iff (p2u_facts m h).1 (fun p p' u => p2u_functional hd h) u p
  refine ⟨h1, ?_⟩
  intro path kind v p hp
  exact (h1 p _).2 (((p2u_facts m h).2.2 p _).2 ⟨path, kind, v, hp, rfl⟩)

example : ∃ r, resolve exMain none = .ok r ∧ DotFree exMain := by
  obtain ⟨⟨r, h⟩, h2, _⟩ := exMain_ok; exact ⟨r, h, h2⟩

/-- C04 needs dot-freeness: declared names with dots are accepted by the code, and then the maps need not be
inverse.  Here main declares `A.B.x` while `B` inside `A` has an `x` promoted to `A` only:
the full name `A.B.x` is listed under the two promoted names `A.B.x` and `A.x`. -/
theorem C04_dotted_names_break_inverse : ∃ m r, resolve m none = .ok r ∧
    ∃ u p p' us us', p ≠ p' ∧ r.p2u.get? p = some us ∧ u ∈ us ∧ r.p2u.get? p' = some us' ∧ u ∈ us' := by
  let B : Model := .mk { outputs := [⟨"x".toList, [1]⟩] } .nil
  let A : Model := .mk {} (.cons "B".toList none B .nil)
  let m : Model := .mk { declared := [⟨"A.B.x".toList, [1]⟩] } (.cons "A".toList (some []) A .nil)
  have h : (match resolve m none with
    | .ok r => decide (r.p2u = [("A.B.x".toList, ["A.B.x".toList]), ("A.x".toList, ["A.B.x".toList])])
    | .error _ => false) = true := by decide
  cases hr : resolve m none with
  | error e => rw [hr] at h; cases h
  | ok r =>
    rw [hr] at h
    have h := of_decide_eq_true h
    exact ⟨m, r, hr, "A.B.x".toList, "A.B.x".toList, "A.x".toList, ["A.B.x".toList], ["A.B.x".toList],
      by decide, by rw [h]; decide, by decide, by rw [h]; decide, by decide⟩

/-- C05: on success no two different sources share a promoted name, in the main model or any other. -/
theorem C05_one_source_per_name (m : Model) (hd : DotFree m) (hs : DistinctSources m) (r : Res)
    (h : resolve m none = .ok r) (path path' : List Name) (v v' : VarInfo) (p : Name)
    (h1 : PromotedAs m path .source v p) (h2 : PromotedAs m path' .source v' p) : path = path' ∧ v = v' :=
  one_source m hd hs h h1 h2

/-- C05, converse: the duplicate-source error is raised only if in some model of the hierarchy two different
sources (defined in different models) share a name. -/
theorem C05_duplicate_error_sound (m : Model) (hd : DotFree m) (h : resolve m none = .error .duplicateSource) :
    ∃ path m', At m path m' ∧ ∃ p path1 v1 path2 v2, PromotedAs m' path1 .source v1 p ∧
      PromotedAs m' path2 .source v2 p ∧ path1 ≠ path2 :=
  dup_error m hd h

example : ∃ r, DotFree exMain ∧ DistinctSources exMain ∧ resolve exMain none = .ok r := by
  obtain ⟨⟨r, h⟩, h2, h3, _⟩ := exMain_ok; exact ⟨r, h2, h3, h⟩

/-- the error case occurs: two siblings both promoting a source `y` -/
example : ∃ m, DotFree m ∧ resolve m none = .error .duplicateSource := by
  let A : Model := .mk { outputs := [⟨"y".toList, [1]⟩] } .nil
  refine ⟨.mk {} (.cons "A".toList none A (.cons "B".toList none A .nil)), dotFree_of (by decide), ?_⟩
  have h : (match resolve (.mk {} (.cons "A".toList none A (.cons "B".toList none A .nil))) none with
    | .ok _ => false | .error e => decide (e = .duplicateSource)) = true := by decide
  cases hr : resolve (.mk {} (.cons "A".toList none A (.cons "B".toList none A .nil))) none with
  | ok r => rw [hr] at h; cases h
  | error e => rw [hr] at h; rw [of_decide_eq_true h]

/-- C06 as stated is false of the code: a source of one submodel and a declared variable of a *sibling* submodel, both
promoted under the name `x`, are accepted with different numbers of elements (3 and 4). -/
theorem C06_size_clash_accepted : ∃ m r, DotFree m ∧ DistinctSources m ∧ DistinctTargets m ∧ resolve m none = .ok r ∧
    ∃ p path v path' v', PromotedAs m path .source v p ∧ PromotedAs m path' .target v' p ∧
      v.shape.size ≠ v'.shape.size := by
  let A : Model := .mk { outputs := [⟨"x".toList, [3]⟩] } .nil
  let B : Model := .mk { declared := [⟨"x".toList, [4]⟩] } .nil
  let m : Model := .mk {} (.cons "A".toList none A (.cons "B".toList none B .nil))
  have h : (match resolve m none with | .ok _ => true | .error _ => false) = true := by decide
  cases hr : resolve m none with
  | error e => rw [hr] at h; cases h
  | ok r =>
    have hdd : DistinctSources m ∧ DistinctTargets m := distinct_of (by decide)
    refine ⟨m, r, dotFree_of (by decide), hdd.1, hdd.2, hr, "x".toList, ["A".toList], ⟨"x".toList, [3]⟩,
      ["B".toList], ⟨"x".toList, [4]⟩, ?_, ?_, by decide⟩
    · exact .up (s := ⟨"A".toList, none, A⟩) (by simp [Subs.toList])
        (.here (v := ⟨"x".toList, [3]⟩) (k := .source) (by simp [Local.vars, Local.sources])) (by simp [IsPromoted])
    · exact .up (s := ⟨"B".toList, none, B⟩) (by simp [Subs.toList])
        (.here (v := ⟨"x".toList, [4]⟩) (k := .target) (by simp [Local.vars])) (by simp [IsPromoted])

/-- C06, the part that holds for declared variables: all declared variables sharing a promoted name have the same number of
elements (if those of one model have).  Missing: source against declared variable, see the next theorem. -/
theorem C06_targets_same_size_partial (m : Model) (hd : DotFree m) (ht : ConsistentTargets m) (r : Res)
    (h : resolve m none = .ok r) (path path' : List Name) (v v' : VarInfo) (p : Name)
    (h1 : PromotedAs m path .target v p) (h2 : PromotedAs m path' .target v' p) :
    v.shape.size = v'.shape.size :=
  targets_same_size m hd ht h h1 h2

/-- C06, the part that holds between a source and a declared variable: they have the same number of elements if one of
the two models defining them contains the other.  Missing: models in different branches of the hierarchy (false,
`C06_size_clash_accepted`) and a source and a declared variable of one and the same model. -/
theorem C06_source_target_same_size_partial (m : Model) (hd : DotFree m) (hs : DistinctSources m)
    (ht : ConsistentTargets m) (r : Res) (h : resolve m none = .ok r) (path path' : List Name) (v v' : VarInfo) (p : Name)
    (h1 : PromotedAs m path .source v p) (h2 : PromotedAs m path' .target v' p)
    (hne : path ≠ path') (hpre : path <+: path' ∨ path' <+: path) : v.shape.size = v'.shape.size :=
  source_target_same_size m hd hs ht h h1 h2 hne hpre

/-- the hypotheses are met by the input `x` of main and the declared `x` of `A` -/
example : PromotedAs exMain [] .source ⟨"x".toList, [3]⟩ "x".toList ∧
    PromotedAs exMain ["A".toList] .target ⟨"x".toList, [3]⟩ "x".toList := by
  refine ⟨.here (v := ⟨"x".toList, [3]⟩) (k := .source) (by simp [Local.vars, Local.sources]), ?_⟩
  exact .up (s := ⟨"A".toList, none, exA⟩) (by simp [Subs.toList])
    (.here (v := ⟨"x".toList, [3]⟩) (k := .target) (by simp [Local.vars])) (by simp [IsPromoted])

/-- C07 as stated is false of the code: `promotes` is validated against the namespace of the *parent*, so listing a
name only the parent has is accepted although the submodel has no such name. -/
theorem C07_unknown_promote_accepted : ∃ m r l subs s q n, m = Model.mk l subs ∧ DotFree m ∧ resolve m none = .ok r ∧
    s ∈ subs.toList ∧ s.promotes = some q ∧ n ∈ q ∧ ¬ ∃ path kind v, PromotedAs s.model path kind v n := by
  let A : Model := .mk { outputs := [⟨"y".toList, [1]⟩] } .nil
  let l : Local := { inputs := [⟨"x".toList, [1]⟩] }
  let subs : Subs := .cons "A".toList (some ["x".toList]) A .nil
  have h : (match resolve (.mk l subs) none with | .ok _ => true | .error _ => false) = true := by decide
  cases hr : resolve (.mk l subs) none with
  | error e => rw [hr] at h; cases h
  | ok r =>
    refine ⟨_, r, l, subs, ⟨"A".toList, some ["x".toList], A⟩, ["x".toList], "x".toList, rfl, dotFree_of (by decide), hr,
      by simp [subs, Subs.toList], rfl, by simp, ?_⟩
    rintro ⟨path, kind, v, hp⟩
    generalize hx : "x".toList = n at hp
    cases hp with
    | here hv =>
      cases kind
      · simp [Local.vars, Local.sources] at hv
        subst hv; revert hx; decide
      · simp [Local.vars] at hv
    | up hs => simp [Subs.toList] at hs
    | stay hs => simp [Subs.toList] at hs

/-- C07, what holds of accepted promotes: every listed name is a dot-free name of the namespace of the model that contains
the submodel (its own variables and what its submodels promote).  Missing: that the submodel itself has it. -/
theorem C07_promotes_visible_partial (m : Model) (hd : DotFree m) (r : Res) (h : resolve m none = .ok r)
    (path : List Name) (l : Local) (subs : Subs) (hat : At m path (.mk l subs)) (s : Subgraph) (hs : s ∈ subs.toList)
    (q : List Name) (hq : s.promotes = some q) (n : Name) (hn : n ∈ q) :
    '.' ∉ n ∧ ∃ path' kind v, PromotedAs (.mk l subs) path' kind v n :=
  promotes_ok hd h hat hs hq hn

/-- C07, second half: valid promotes are never rejected.  The invalid-promotes error is raised only if some `add` in the
hierarchy lists a name that is not a (dot-free) name of the submodel's namespace. -/
theorem C07_valid_promotes_accepted (m : Model) (hd : DotFree m) (h : resolve m none = .error .invalidPromotes) :
    ∃ path l subs s q n, At m path (.mk l subs) ∧ s ∈ subs.toList ∧ s.promotes = some q ∧ n ∈ q ∧
      ¬ ('.' ∉ n ∧ ∃ path' kind v, PromotedAs s.model path' kind v n) := by
  obtain ⟨path, l, subs, s, q, n, hat, hs, hq, hn, hbad⟩ := inv_error m hd h
  refine ⟨path, l, subs, s, q, n, hat, hs, hq, hn, ?_⟩
  rintro ⟨h1, path', kind, v, hp⟩
  exact hbad ⟨h1, s.name :: path', kind, v, .up hs hp (by rw [hq]; exact hn)⟩

/-- the error case occurs -/
example : resolve (.mk {} (.cons "A".toList (some ["nope".toList]) (.mk {} .nil) .nil)) none = .error .invalidPromotes := by
  have h : (match resolve (.mk {} (.cons "A".toList (some ["nope".toList]) (.mk {} .nil) .nil)) none with
    | .ok _ => false | .error e => decide (e = .invalidPromotes)) = true := by decide
  cases hr : resolve (.mk {} (.cons "A".toList (some ["nope".toList]) (.mk {} .nil) .nil)) none with
  | ok r => rw [hr] at h; cases h
  | error e => rw [hr] at h; rw [of_decide_eq_true h]

/-- C08: the internal 'size mismatch' errors are unreachable, for every hierarchy, names and promotes. -/
theorem C08_size_mismatch_unreachable (m : Model) (promotes : Option (List Name)) :
    resolve m promotes ≠ .error .sizeMismatch :=
  no_size_mismatch m promotes

end Csdl
