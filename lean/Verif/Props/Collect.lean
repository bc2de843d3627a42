import Verif.Proofs.Collect
import Verif.Props.Promotions
/-!
# C09-C13: simulator keys, connections, optimisation declarations

Specification: `Denotes m key p` (Verif/Spec/Collect.lean): `key` is the promoted name `p` of a variable of the
hierarchy `m` or the full name of a variable with promoted name `p`.
-/
namespace Csdl

/-- The simulator of a representation with storage `e`
(csdl/sim/simulator_base.py:81-85). -/
def simOf {V : Type} (r : Res) (e : Dict Name V) : Sim V := ⟨r.p2u, createReverseMap r.p2u, e⟩

/-- A history of writes through `__setitem__`; a write that raises is caught by the caller and has no effect. -/
def Sim.runWrites {V : Type} (s : Sim V) (ops : List (Name × V)) : Sim V :=
  ops.foldl (fun s kv => match s.setItem kv.1 kv.2 with | .ok s' => s' | .error _ => s) s

theorem Sim.findName_eq {V : Type} (s : Sim V) (key : Name) : s.findName key = findPromotedName key s.p2u s.u2p := rfl

theorem runWrites_maps {V : Type} (ops : List (Name × V)) (s : Sim V) :
    (s.runWrites ops).p2u = s.p2u ∧ (s.runWrites ops).u2p = s.u2p := by
  induction ops generalizing s with
  | nil => exact ⟨rfl, rfl⟩
  | cons kv ops ih =>
    have h : Sim.runWrites s (kv :: ops) =
        Sim.runWrites (match s.setItem kv.1 kv.2 with | .ok s' => s' | .error _ => s) ops := rfl
    rw [h, (ih _).1, (ih _).2]
    unfold Sim.setItem
    cases s.findName kv.1 with
    | ok k => exact ⟨rfl, rfl⟩
    | error e => exact ⟨rfl, rfl⟩

theorem setItem_ok {V : Type} {m : Model} (hd : DotFree m) {r : Res} (h : resolve m none = .ok r) {s : Sim V}
    (h1 : s.p2u = r.p2u) (h2 : s.u2p = createReverseMap r.p2u) {key p : Name} (hk : Denotes m key p) (v : V) :
    s.setItem key v = .ok { s with executable := s.executable.set p v } := by
  rw [Sim.setItem, Sim.findName_eq, h1, h2, (find_ok hd h key p).2 hk]; rfl

theorem getItem_ok {V : Type} {m : Model} (hd : DotFree m) {r : Res} (h : resolve m none = .ok r) {s : Sim V}
    (h1 : s.p2u = r.p2u) (h2 : s.u2p = createReverseMap r.p2u) {key p : Name} (hk : Denotes m key p) :
    s.getItem key = match s.executable.get? p with | some v => .ok v | none => .error .unknown := by
  rw [Sim.getItem, Sim.findName_eq, h1, h2, (find_ok hd h key p).2 hk]; rfl

theorem runWrites_other {V : Type} {m : Model} (hd : DotFree m) {r : Res} (h : resolve m none = .ok r) (s : Sim V)
    (h1 : s.p2u = r.p2u) (h2 : s.u2p = createReverseMap r.p2u) {p : Name} (ops : List (Name × V))
    (hops : ∀ op ∈ ops, ¬ Denotes m op.1 p) : (s.runWrites ops).executable.get? p = s.executable.get? p := by
  induction ops generalizing s with
  | nil => rfl
  | cons kv ops ih =>
    have he : Sim.runWrites s (kv :: ops) =
        Sim.runWrites (match s.setItem kv.1 kv.2 with | .ok s' => s' | .error _ => s) ops := rfl
    rw [he]
    have hk := hops kv (by simp)
    cases hf : findPromotedName kv.1 r.p2u (createReverseMap r.p2u) with
    | error e =>
      have : s.setItem kv.1 kv.2 = .error e := by rw [Sim.setItem, Sim.findName_eq, h1, h2, hf]; rfl
      rw [this]
      exact ih s h1 h2 (fun op ho => hops op (by simp [ho]))
    | ok q =>
      have hden := (find_ok hd h _ _).1 hf
      rw [setItem_ok hd h h1 h2 hden]
      change Dict.get? (Sim.runWrites { s with executable := s.executable.set q kv.2 } ops).executable p = _
      rw [ih { s with executable := s.executable.set q kv.2 } h1 h2 (fun op ho => hops op (by simp [ho]))]
      rw [Dict.get?_set, if_neg]
      rintro rfl
      exact hk hden

/-- C09, aliases: the promoted name and the full name of a variable both address the storage of the promoted name. -/
theorem C09_aliases_same_storage {V : Type} (m : Model) (hd : DotFree m) (r : Res) (h : resolve m none = .ok r)
    (e : Dict Name V) (path : List Name) (kind : VarKind) (v : VarInfo) (p : Name) (hv : PromotedAs m path kind v p) :
    (simOf r e).findName p = .ok p ∧ (simOf r e).findName (fullName path v.name) = .ok p := by
  constructor
  · rw [Sim.findName_eq]; exact (find_ok hd h p p).2 (.promoted hv)
  · rw [Sim.findName_eq]; exact (find_ok hd h _ p).2 (.full hv)

/-- C09, read after write: after any history of writes (accepted or rejected), reading any alias `key` of the promoted name
`p` returns the value of the last write made through any alias `w` of `p`. -/
theorem C09_read_last_write {V : Type} (m : Model) (hd : DotFree m) (r : Res) (h : resolve m none = .ok r)
    (e : Dict Name V) (before after : List (Name × V)) (w : Name) (x : V) (key p : Name)
    (hw : Denotes m w p) (hafter : ∀ op ∈ after, ¬ Denotes m op.1 p) (hkey : Denotes m key p) :
    ((simOf r e).runWrites (before ++ (w, x) :: after)).getItem key = .ok x := by
  set s := (simOf r e).runWrites before with hs
  have hm := runWrites_maps before (simOf r e)
  have e1 : s.p2u = r.p2u := hm.1
  have e2 : s.u2p = createReverseMap r.p2u := hm.2
  have hrun : (simOf r e).runWrites (before ++ (w, x) :: after) =
      Sim.runWrites { s with executable := s.executable.set p x } after := by
    have a1 : (simOf r e).runWrites (before ++ (w, x) :: after) =
        Sim.runWrites ((simOf r e).runWrites before) ((w, x) :: after) := List.foldl_append
    have a2 : Sim.runWrites s ((w, x) :: after) =
        Sim.runWrites (match s.setItem w x with | .ok s' => s' | .error _ => s) after := rfl
    rw [a1, ← hs, a2, setItem_ok hd h e1 e2 hw]
  rw [hrun]
  have hm2 := runWrites_maps after { s with executable := s.executable.set p x }
  rw [getItem_ok hd h (hm2.1.trans e1) (hm2.2.trans e2) hkey]
  rw [runWrites_other hd h { s with executable := s.executable.set p x } e1 e2 after hafter]
  simp [Dict.get?_set]

/-- C09, independence: writes through names that do not denote `p` leave the reads of `p` unchanged. -/
theorem C09_other_writes_do_not_matter {V : Type} (m : Model) (hd : DotFree m) (r : Res) (h : resolve m none = .ok r)
    (e : Dict Name V) (ops : List (Name × V)) (key p : Name) (hkey : Denotes m key p)
    (hops : ∀ op ∈ ops, ¬ Denotes m op.1 p) :
    ((simOf r e).runWrites ops).getItem key = (simOf r e).getItem key := by
  have hm := runWrites_maps ops (simOf r e)
  rw [getItem_ok hd h hm.1 hm.2 hkey, getItem_ok hd h (s := simOf r e) rfl rfl hkey,
    runWrites_other hd h (simOf r e) rfl rfl ops hops]

/-- C09, a key denotes at most one promoted name, so distinct promoted names have distinct storage. -/
theorem C09_denotation_unique (m : Model) (hd : DotFree m) (r : Res) (h : resolve m none = .ok r) (key p q : Name)
    (h1 : Denotes m key p) (h2 : Denotes m key q) : p = q := denotes_unique hd h h1 h2

/-- C09, unknown keys raise KeyError on reads and writes. -/
theorem C09_unknown_key {V : Type} (m : Model) (hd : DotFree m) (r : Res) (h : resolve m none = .ok r) (e : Dict Name V)
    (key : Name) (hk : ∀ p, ¬ Denotes m key p) (v : V) :
    (simOf r e).getItem key = .error .unknown ∧ (simOf r e).setItem key v = .error .unknown := by
  have := (find_error hd h key .unknown).2 ⟨rfl, hk⟩
  constructor
  · rw [Sim.getItem, Sim.findName_eq]
    change (findPromotedName key r.p2u (createReverseMap r.p2u) >>= _) = _
    rw [this]; rfl
  · rw [Sim.setItem, Sim.findName_eq]
    change (findPromotedName key r.p2u (createReverseMap r.p2u) >>= _) = _
    rw [this]; rfl

/-- the hypotheses are met: `A.x` and `x` both denote `x` in the example hierarchy -/
example : Denotes exMain "x".toList "x".toList ∧ Denotes exMain "A.x".toList "x".toList := by
  have hp : PromotedAs exMain ["A".toList] .target ⟨"x".toList, [3]⟩ "x".toList :=
    .up (s := ⟨"A".toList, none, exA⟩) (by simp [Subs.toList])
      (.here (v := ⟨"x".toList, [3]⟩) (k := .target) (by simp [Local.vars])) (by simp [IsPromoted])
  exact ⟨.promoted hp, .full hp⟩

/-! ### C10 -/

/-- C10: when the connections are collected without error, the list has no duplicates; it contains exactly the pairs of
promoted names of the connections issued anywhere in the hierarchy; and pairs appear in the order in which they are first issued,
submodels before their parent (`L` is the list of all issued connections in that order, in promoted names). -/
theorem C10_connections_exact (m : Model) (hd : DotFree m) (r : Res) (h : resolve m none = .ok r)
    (cs : List (Name × Name)) (hc : repConnections m r.p2u = .ok cs) :
    cs.Nodup ∧
    (∀ p q, (p, q) ∈ cs ↔ ∃ path l subs a b, At m path (.mk l subs) ∧ (a, b) ∈ l.connections ∧
      Denotes m (fullName path a) p ∧ Denotes m (fullName path b) q) ∧
    (∃ L : List (Name × Name), List.Forall₂ (fun i pq => Denotes m (fullName i.1 i.2.1) pq.1 ∧ Denotes m (fullName i.1 i.2.2) pq.2)
        (issuedPost Local.connections m) L ∧
      ∀ x ∈ L, ∀ y ∈ L, cs.idxOf x < cs.idxOf y ↔ L.idxOf x < L.idxOf y) := by
  obtain ⟨L, h1, rfl⟩ := (repConnections_ok hd h cs).1 hc
  refine ⟨nodup_dictFromKeys L, ?_, L, h1, fun x hx y hy => order_dictFromKeys L hx hy⟩
  intro p q
  rw [mem_dictFromKeys]
  constructor
  · intro hm
    obtain ⟨⟨path, a, b⟩, hi, h2, h3⟩ := forall₂_mem_right h1 hm
    obtain ⟨l, subs, hat, hab⟩ := (mem_issuedPost m path (a, b)).1 hi
    exact ⟨path, l, subs, a, b, hat, hab, h2, h3⟩
  · rintro ⟨path, l, subs, a, b, hat, hab, h2, h3⟩
    obtain ⟨⟨p', q'⟩, hm, h4, h5⟩ := forall₂_mem_left h1 ((mem_issuedPost m path (a, b)).2 ⟨l, subs, hat, hab⟩)
    rw [denotes_unique hd h h2 h4, denotes_unique hd h h3 h5]
    exact hm

/-- C10, errors: collection fails, with KeyError, exactly when some issued connection has an end that denotes no
variable. -/
theorem C10_error_iff_unknown_name (m : Model) (hd : DotFree m) (r : Res) (h : resolve m none = .ok r) :
    (repConnections m r.p2u = .error .unknown ∨ ∃ cs, repConnections m r.p2u = .ok cs) ∧
    (repConnections m r.p2u = .error .unknown ↔
      ∃ path l subs a b, At m path (.mk l subs) ∧ (a, b) ∈ l.connections ∧
        ((∀ p, ¬ Denotes m (fullName path a) p) ∨ (∀ p, ¬ Denotes m (fullName path b) p))) := by
  have hsplit : repConnections m r.p2u = .error .unknown ∨ ∃ cs, repConnections m r.p2u = .ok cs := by
    cases he : repConnections m r.p2u with
    | ok cs => exact Or.inr ⟨cs, rfl⟩
    | error e => rw [(repConnections_error hd h e he).1]; exact Or.inl rfl
  refine ⟨hsplit, fun he => (repConnections_error hd h _ he).2, ?_⟩
  rintro ⟨path, l, subs, a, b, hat, hab, hbad⟩
  rcases hsplit with h' | ⟨cs, hcs⟩
  · exact h'
  · obtain ⟨L, h1, _⟩ := (repConnections_ok hd h cs).1 hcs
    obtain ⟨⟨p, q⟩, _, h4, h5⟩ := forall₂_mem_left h1 ((mem_issuedPost m path (a, b)).2 ⟨l, subs, hat, hab⟩)
    rcases hbad with hb | hb
    · exact absurd h4 (hb p)
    · exact absurd h5 (hb q)

/-- main (declares `t`, `u`; connects `A.y`→`t`) contains `A` (promotes nothing; outputs `y`, `z`, declares `s`;
connects `z`→`s`) -/
def exConn : Model := .mk { declared := [⟨"t".toList, [1]⟩], connections := [("A.y".toList, "t".toList)] }
  (.cons "A".toList (some []) (.mk { outputs := [⟨"y".toList, [1]⟩, ⟨"z".toList, [1]⟩], declared := [⟨"s".toList, [1]⟩], connections := [("z".toList, "s".toList)] } .nil) .nil)

example : DotFree exConn ∧ ∃ r, resolve exConn none = .ok r ∧ repConnections exConn r.p2u =
    .ok [("A.z".toList, "A.s".toList), ("A.y".toList, "t".toList)] := by
  refine ⟨dotFree_of (by decide), ?_⟩
  have h : (match resolve exConn none with
    | .ok r => (match repConnections exConn r.p2u with
        | .ok cs => decide (cs = [("A.z".toList, "A.s".toList), ("A.y".toList, "t".toList)])
        | .error _ => false)
    | .error _ => false) = true := by decide
  cases hr : resolve exConn none with
  | error e => rw [hr] at h; cases h
  | ok r =>
    rw [hr] at h
    refine ⟨r, rfl, ?_⟩
    cases hc : repConnections exConn r.p2u with
    | error e => simp only [hc] at h; cases h
    | ok cs => simp only [hc] at h; rw [of_decide_eq_true h]

/-! ### C11 -/

/-- Every variable has a promoted name. -/
theorem promoted_total {m : Model} {path l subs} (hat : At m path (.mk l subs)) {k : VarKind} {v : VarInfo}
    (hv : v ∈ l.vars k) : ∃ p, PromotedAs m path k v p := by
  generalize hm : Model.mk l subs = m' at hat
  induction hat with
  | here m => subst hm; exact ⟨v.name, .here hv⟩
  | @down _ _ _ _ s hs _ ih =>
    obtain ⟨p, hp⟩ := ih hm
    by_cases hpr : IsPromoted s.promotes p
    · exact ⟨p, .up hs hp hpr⟩
    · exact ⟨_, .stay hs hp hpr⟩

/-- main contains `A` (promotes all), which contains `B` (promotes all; outputs `y`); `A` declares `t` and connects its
visible name `y` to `t`, and has a constraint and the objective on `y`. -/
def exDeep (conn : List (Name × Name)) (con : Dict Name Nat) (obj : Option (Name × Nat)) : Model :=
  .mk {} (.cons "A".toList none
    (.mk { declared := [⟨"t".toList, [1]⟩], connections := conn, constraints := con, objective := obj }
      (.cons "B".toList none (.mk { outputs := [⟨"y".toList, [1]⟩] } .nil) .nil)) .nil)

/-- C11 as stated is false of the code: `y` is a name of the namespace of `A` (promoted to it from `B`), but because it is
promoted further up, using it in `A.connect`, `A.add_constraint` or `A.add_objective` raises KeyError. -/
theorem C11_visible_name_rejected :
    (∃ path kind v, PromotedAs (.mk { declared := [⟨"t".toList, [1]⟩] }
      (.cons "B".toList none (.mk { outputs := [⟨"y".toList, [1]⟩] } .nil) .nil)) path kind v "y".toList) ∧
    (∃ r, resolve (exDeep [("y".toList, "t".toList)] [] none) none = .ok r ∧
      repConnections (exDeep [("y".toList, "t".toList)] [] none) r.p2u = .error .unknown) ∧
    (∃ r, resolve (exDeep [] [("y".toList, 0)] none) none = .ok r ∧
      collectDecl Local.constraints r.p2u (exDeep [] [("y".toList, 0)] none) [] [] = .error .unknown) ∧
    (∃ r, resolve (exDeep [] [] (some ("y".toList, 0))) none = .ok r ∧
      findObjective r.p2u (exDeep [] [] (some ("y".toList, 0))) [] none = .error .unknown) := by
  refine ⟨⟨["B".toList], .source, ⟨"y".toList, [1]⟩,
    .up (s := ⟨"B".toList, none, .mk { outputs := [⟨"y".toList, [1]⟩] } .nil⟩) (by simp [Subs.toList])
      (.here (v := ⟨"y".toList, [1]⟩) (k := .source) (by simp [Local.vars, Local.sources])) (by simp [IsPromoted])⟩, ?_, ?_, ?_⟩
  · have h : (match resolve (exDeep [("y".toList, "t".toList)] [] none) none with
      | .ok r => (match repConnections (exDeep [("y".toList, "t".toList)] [] none) r.p2u with
          | .ok _ => false | .error e => decide (e = .unknown))
      | .error _ => false) = true := by decide
    cases hr : resolve (exDeep [("y".toList, "t".toList)] [] none) none with
    | error e => rw [hr] at h; cases h
    | ok r =>
      rw [hr] at h
      refine ⟨r, rfl, ?_⟩
      cases hc : repConnections (exDeep [("y".toList, "t".toList)] [] none) r.p2u with
      | ok cs => simp only [hc] at h; cases h
      | error e => simp only [hc] at h; rw [of_decide_eq_true h]
  · have h : (match resolve (exDeep [] [("y".toList, 0)] none) none with
      | .ok r => (match collectDecl Local.constraints r.p2u (exDeep [] [("y".toList, 0)] none) [] [] with
          | .ok _ => false | .error e => decide (e = .unknown))
      | .error _ => false) = true := by decide
    cases hr : resolve (exDeep [] [("y".toList, 0)] none) none with
    | error e => rw [hr] at h; cases h
    | ok r =>
      rw [hr] at h
      refine ⟨r, rfl, ?_⟩
      cases hc : collectDecl Local.constraints r.p2u (exDeep [] [("y".toList, 0)] none) [] [] with
      | ok cs => simp only [hc] at h; cases h
      | error e => simp only [hc] at h; rw [of_decide_eq_true h]
  · have h : (match resolve (exDeep [] [] (some ("y".toList, 0))) none with
      | .ok r => (match findObjective r.p2u (exDeep [] [] (some ("y".toList, 0))) [] none with
          | .ok _ => false | .error e => decide (e = .unknown))
      | .error _ => false) = true := by decide
    cases hr : resolve (exDeep [] [] (some ("y".toList, 0))) none with
    | error e => rw [hr] at h; cases h
    | ok r =>
      rw [hr] at h
      refine ⟨r, rfl, ?_⟩
      cases hc : findObjective r.p2u (exDeep [] [] (some ("y".toList, 0))) [] none with
      | ok cs => simp only [hc] at h; cases h
      | error e => simp only [hc] at h; rw [of_decide_eq_true h]

/-- C11, the part that holds: the name of a variable the model defines itself can be used in its `connect` (first
conjunct) and in its `add_constraint` / `add_objective` / `add_design_variable` (second), wherever the model sits, and
denotes the promoted name of that variable.  Missing: names promoted to the model from a submodel and promoted further up
(false, `C11_visible_name_rejected`). -/
theorem C11_local_names_usable_partial (m : Model) (hd : DotFree m) (r : Res) (h : resolve m none = .ok r)
    (path : List Name) (l : Local) (subs : Subs) (hat : At m path (.mk l subs)) (kind : VarKind) (v : VarInfo)
    (hv : v ∈ l.vars kind) :
    ∃ p, PromotedAs m path kind v p ∧
      findPromotedName (prependNamespace (descend [] path) v.name) r.p2u (createReverseMap r.p2u) = .ok p ∧
      lookupTwice r.p2u (.mk l subs) (descend [] path) v.name = .ok p := by
  obtain ⟨p, hp⟩ := promoted_total hat hv
  refine ⟨p, hp, ?_, ?_⟩
  · rw [descend_full hd hat]; exact (find_ok hd h _ p).2 (.full hp)
  · exact (lookupTwice_ok hd h hat v.name p).2 ⟨v.name, .promoted (.here hv), .full hp⟩

/-- C11, second part that holds: a name promoted to the model from a submodel is usable if the variable is not promoted
beyond the model (its promoted name in the main model is the model's path and the name); in particular every name of the main
model's namespace is usable in the main model. -/
theorem C11_visible_names_usable_partial (m : Model) (hd : DotFree m) (r : Res) (h : resolve m none = .ok r)
    (path : List Name) (m' : Model) (hat : At m path m') (path' : List Name) (kind : VarKind) (v : VarInfo) (n : Name)
    (hv : PromotedAs m' path' kind v n) (hm : PromotedAs m (path ++ path') kind v (fullName path n)) :
    findPromotedName (prependNamespace (descend [] path) n) r.p2u (createReverseMap r.p2u) = .ok (fullName path n) ∧
    lookupTwice r.p2u m' (descend [] path) n = .ok (fullName path n) := by
  constructor
  · rw [descend_full hd hat]; exact (find_ok hd h _ _).2 (.promoted hm)
  · exact (lookupTwice_ok hd h hat n _).2 ⟨n, .promoted hv, .promoted hm⟩

theorem C11_main_names_usable_partial (m : Model) (hd : DotFree m) (r : Res) (h : resolve m none = .ok r)
    (path' : List Name) (kind : VarKind) (v : VarInfo) (n : Name) (hv : PromotedAs m path' kind v n) :
    findPromotedName n r.p2u (createReverseMap r.p2u) = .ok n ∧ lookupTwice r.p2u m [] n = .ok n := by
  have := C11_visible_names_usable_partial m hd r h [] m (.here m) path' kind v n hv hv
  simpa [prependNamespace, descend, fullName] using this

/-! ### C12 -/

/-- C12: for design variables (`sel := Local.designVars`) and constraints (`sel := Local.constraints`): the collected
dictionary has one entry per promoted name, and its entries are exactly the declarations of all models of the
hierarchy, each with its own data. -/
theorem C12_declarations_exact (sel : Local → Dict Name Nat) (m : Model) (hd : DotFree m) (r : Res)
    (h : resolve m none = .ok r) (res : Dict Name Nat) (hc : collectDecl sel r.p2u m [] [] = .ok res) :
    res.keys.Nodup ∧
    (∀ p d, (p, d) ∈ res ↔ ∃ path l subs k n, At m path (.mk l subs) ∧ (k, d) ∈ sel l ∧
      Denotes (.mk l subs) k n ∧ Denotes m (fullName path n) p) := by
  rw [collectDecl_eq] at hc
  obtain ⟨L, h1, h2, _, rfl⟩ := (foldlM_collect_ok _ _ _ _ _).1 hc
  refine ⟨h2, ?_⟩
  intro p d
  constructor
  · intro hm
    obtain ⟨⟨path, m', k, d'⟩, hi, h3, rfl⟩ := forall₂_mem_right h1 hm
    obtain ⟨l, subs, rfl, hat, hs⟩ := (mem_issuedPre m path m' (k, d')).1 hi
    obtain ⟨n, h4, h5⟩ := (lookupTwice_ok hd h hat k p).1 h3
    exact ⟨path, l, subs, k, n, hat, hs, h4, h5⟩
  · rintro ⟨path, l, subs, k, n, hat, hs, h4, h5⟩
    obtain ⟨⟨p', d'⟩, hm, h3, e⟩ := forall₂_mem_left h1 ((mem_issuedPre m path (.mk l subs) (k, d)).2 ⟨l, subs, rfl, hat, hs⟩)
    have e1 := (lookupTwice_ok hd h hat k p).2 ⟨n, h4, h5⟩
    simp only at h3 e
    rw [e1] at h3
    injection h3 with h3
    subst h3; subst e
    exact hm

theorem forall₂_split {α β : Type} {R : α → β → Prop} {l1 l2 : List α} {l : List β} (h : List.Forall₂ R (l1 ++ l2) l) :
    ∃ a b, List.Forall₂ R l1 a ∧ List.Forall₂ R l2 b ∧ l = a ++ b := by
  induction l1 generalizing l with
  | nil => exact ⟨[], l, .nil, h, rfl⟩
  | cons x l1 ih =>
    cases h with
    | cons h1 h2 =>
      obtain ⟨a, b, h3, h4, rfl⟩ := ih h2
      exact ⟨_ :: a, b, .cons h1 h3, h4, rfl⟩

/-- C12, rejection: if two declarations at different places (positions in the list of all declarations) resolve to the
same promoted name, collection fails. -/
theorem C12_redundant_rejected (sel : Local → Dict Name Nat) (m : Model) (hd : DotFree m) (r : Res)
    (h : resolve m none = .ok r) (pre mid post : List (List Name × Model × Name × Nat))
    (i j : List Name × Model × Name × Nat) (hl : issuedPre sel m = pre ++ i :: (mid ++ j :: post)) (n n' p : Name)
    (hi : Denotes i.2.1 i.2.2.1 n ∧ Denotes m (fullName i.1 n) p)
    (hj : Denotes j.2.1 j.2.2.1 n' ∧ Denotes m (fullName j.1 n') p) (res : Dict Name Nat) :
    collectDecl sel r.p2u m [] [] ≠ .ok res := by
  intro hc
  rw [collectDecl_eq] at hc
  obtain ⟨L, h1, h2, _, rfl⟩ := (foldlM_collect_ok _ _ _ _ _).1 hc
  have ai : At m i.1 i.2.1 := by
    have : (i.1, i.2.1, i.2.2) ∈ issuedPre sel m := by rw [hl]; simp
    obtain ⟨_, _, _, hat, _⟩ := (mem_issuedPre m _ _ _).1 this
    exact hat
  have aj : At m j.1 j.2.1 := by
    have : (j.1, j.2.1, j.2.2) ∈ issuedPre sel m := by rw [hl]; simp
    obtain ⟨_, _, _, hat, _⟩ := (mem_issuedPre m _ _ _).1 this
    exact hat
  rw [hl] at h1
  obtain ⟨L1, L2, _, h4, rfl⟩ := forall₂_split h1
  cases h4 with
  | @cons _ x _ L3 hx h5 =>
    obtain ⟨L4, L5, _, h7, rfl⟩ := forall₂_split h5
    cases h7 with
    | @cons _ y _ L6 hy h8 =>
      have e1 := (lookupTwice_ok hd h ai _ p).2 ⟨n, hi⟩
      have e2 := (lookupTwice_ok hd h aj _ p).2 ⟨n', hj⟩
      rw [hx.1] at e1; rw [hy.1] at e2
      injection e1 with e1; injection e2 with e2
      simp only [List.map_append, List.map_cons] at h2
      rw [List.nodup_append] at h2
      have := (List.nodup_cons.1 h2.2.1).1
      apply this
      rw [e1, ← e2]
      simp

/-- C12, converse: a 'redundant' error (ValueError) is raised only if two declarations at different places resolve to the
same promoted name, a KeyError only if a declared name cannot be resolved. -/
theorem C12_errors_sound (sel : Local → Dict Name Nat) (m : Model) (hd : DotFree m) (r : Res)
    (h : resolve m none = .ok r) (e : CErr) (hc : collectDecl sel r.p2u m [] [] = .error e) :
    (e = .unknown ∧ ∃ path l subs k d, At m path (.mk l subs) ∧ (k, d) ∈ sel l ∧
      ¬ ∃ n p, Denotes (.mk l subs) k n ∧ Denotes m (fullName path n) p) ∨
    (e = .redundant ∧ ∃ pre mid post i j n n' p, issuedPre sel m = pre ++ j :: (mid ++ i :: post) ∧
      (Denotes i.2.1 i.2.2.1 n ∧ Denotes m (fullName i.1 n) p) ∧
      (Denotes j.2.1 j.2.2.1 n' ∧ Denotes m (fullName j.1 n') p)) := by
  rw [collectDecl_eq] at hc
  rcases foldlM_collect_error _ _ _ _ _ hc with ⟨⟨path, m', k, d⟩, hi, he⟩ | ⟨he, pre, i, post, p, hl, hi, hj⟩
  · obtain ⟨l, subs, rfl, hat, hs⟩ := (mem_issuedPre m path m' (k, d)).1 hi
    obtain ⟨h1, h2⟩ := lookupTwice_error hd h hat k e he
    exact Or.inl ⟨h1, path, l, subs, k, d, hat, hs, h2⟩
  · rcases hj with hj | ⟨j, hj, hje⟩
    · simp [Dict.keys] at hj
    · have ai : At m i.1 i.2.1 := by
        have : (i.1, i.2.1, i.2.2) ∈ issuedPre sel m := by rw [hl]; simp
        obtain ⟨_, _, _, hat, _⟩ := (mem_issuedPre m _ _ _).1 this
        exact hat
      have aj : At m j.1 j.2.1 := by
        have : (j.1, j.2.1, j.2.2) ∈ issuedPre sel m := by rw [hl]; simp [hj]
        obtain ⟨_, _, _, hat, _⟩ := (mem_issuedPre m _ _ _).1 this
        exact hat
      obtain ⟨n, hn⟩ := (lookupTwice_ok hd h ai _ p).1 hi
      obtain ⟨n', hn'⟩ := (lookupTwice_ok hd h aj _ p).1 hje
      obtain ⟨a, b, rfl⟩ := List.append_of_mem hj
      exact Or.inr ⟨he, a, b, post, i, j, n, n', p, by simp [hl], hn, hn'⟩

/-- C12, objective: the representation has an objective exactly when exactly one model of the hierarchy declares one, with its
promoted name and data; with two or more the build fails, with none there is no objective. -/
theorem C12_objective_exact (m : Model) (hd : DotFree m) (r : Res) (h : resolve m none = .ok r) :
    (∀ p d, findObjective r.p2u m [] none = .ok (some (p, d)) ↔
      ∃ path m' k n, issuedPre (fun l => l.objective.toList) m = [(path, m', k, d)] ∧
        Denotes m' k n ∧ Denotes m (fullName path n) p) ∧
    (findObjective r.p2u m [] none = .ok none ↔ issuedPre (fun l => l.objective.toList) m = []) ∧
    (2 ≤ (issuedPre (fun l => l.objective.toList) m).length → ∃ e, findObjective r.p2u m [] none = .error e) := by
  have e0 : issuedPre (fun l => l.objective.toList) m = issuedPre objSel m := rfl
  rw [e0, findObjective_eq]
  refine ⟨?_, ?_, ?_⟩
  · intro p d
    rw [foldlM_obj_ok]
    constructor
    · rintro (⟨_, h'⟩ | ⟨⟨path, m', k, d'⟩, p', h1, h2, h3⟩)
      · cases h'
      · injection h3 with h3
        injection h3 with h3 h4
        subst h3; subst h4
        have : (path, m', k, d) ∈ issuedPre objSel m := by rw [h1]; simp
        obtain ⟨l, subs, rfl, hat, _⟩ := (mem_issuedPre m path m' (k, d)).1 this
        obtain ⟨n, h4, h5⟩ := (lookupTwice_ok hd h hat k p).1 h2
        exact ⟨path, _, k, n, h1, h4, h5⟩
    · rintro ⟨path, m', k, n, h1, h4, h5⟩
      have : (path, m', k, d) ∈ issuedPre objSel m := by rw [h1]; simp
      obtain ⟨l, subs, rfl, hat, _⟩ := (mem_issuedPre m path m' (k, d)).1 this
      exact Or.inr ⟨_, p, h1, (lookupTwice_ok hd h hat k p).2 ⟨n, h4, h5⟩, rfl⟩
  · rw [foldlM_obj_ok]
    constructor
    · rintro (⟨h', _⟩ | ⟨_, _, _, _, h3⟩)
      · exact h'
      · cases h3
    · intro h'; exact Or.inl ⟨h', rfl⟩
  · intro hlen
    cases hf : (issuedPre objSel m).foldlM (objStep r.p2u []) none with
    | error e => exact ⟨e, rfl⟩
    | ok res =>
      rcases (foldlM_obj_ok _ _ _ _).1 hf with ⟨h', _⟩ | ⟨_, _, h', _⟩
      · rw [h'] at hlen; simp at hlen
      · rw [h'] at hlen; simp at hlen

/-- The declared objective denotes a variable of the hierarchy `m`. -/
def ObjectiveResolves (m : Model) (i : List Name × Model × Name × Nat) : Prop := ∃ n p, Denotes i.2.1 i.2.2.1 n ∧ Denotes m (fullName i.1 n) p

/-- **C12, objective, errors.** Let `issuedPre _ m` be the objectives declared in the hierarchy, in the order in which the models are visited.  The build fails with KeyError exactly if one of the first two
denotes no variable; it fails with ValueError exactly if there are at least two and the first two denote variables. -/
theorem C12_objective_errors (m : Model) (hd : DotFree m) (r : Res) (h : resolve m none = .ok r) :
    (findObjective r.p2u m [] none = .error .unknown ↔
      ∃ i ∈ (issuedPre (fun l => l.objective.toList) m).take 2, ¬ ObjectiveResolves m i) ∧
    (findObjective r.p2u m [] none = .error .redundant ↔
      ∃ i j rest, issuedPre (fun l => l.objective.toList) m = i :: j :: rest ∧ ObjectiveResolves m i ∧ ObjectiveResolves m j) := by
  have e0 : issuedPre (fun l => l.objective.toList) m = issuedPre objSel m := rfl
  rw [e0, findObjective_eq]
  have look : ∀ i ∈ issuedPre objSel m, (∃ p, lookupTwice r.p2u i.2.1 (descend [] i.1) i.2.2.1 = .ok p ∧ ObjectiveResolves m i) ∨
      (lookupTwice r.p2u i.2.1 (descend [] i.1) i.2.2.1 = .error .unknown ∧ ¬ ObjectiveResolves m i) := by
    rintro ⟨path, m', k, d⟩ hi
    obtain ⟨l, subs, rfl, hat, _⟩ := (mem_issuedPre m path m' (k, d)).1 hi
    cases hl : lookupTwice r.p2u (.mk l subs) (descend [] path) k with
    | ok p => obtain ⟨n, h1, h2⟩ := (lookupTwice_ok hd h hat k p).1 hl; exact Or.inl ⟨p, rfl, n, p, h1, h2⟩
    | error e => obtain ⟨rfl, h2⟩ := lookupTwice_error hd h hat k e hl; exact Or.inr ⟨rfl, h2⟩
  generalize issuedPre objSel m = L at look
  match L with
  | [] => simp [pure, Except.pure]
  | [i] =>
    rcases look i (by simp) with ⟨p, h1, h2⟩ | ⟨h1, h2⟩
    · simp [objStep, h1, h2, bind, Except.bind, pure, Except.pure]
    · simp [objStep, h1, h2, bind, Except.bind]
  | i :: j :: rest =>
    have hs : (∃ i' j' rest', i :: j :: rest = i' :: j' :: rest' ∧ ObjectiveResolves m i' ∧ ObjectiveResolves m j') ↔ ObjectiveResolves m i ∧ ObjectiveResolves m j := by
      constructor
      · rintro ⟨i', j', rest', h', h⟩; injection h' with h1 h'; injection h' with h2 _; subst h1; subst h2; exact h
      · intro h; exact ⟨i, j, rest, rfl, h⟩
    rw [hs]
    rcases look i (by simp) with ⟨p, h1, h2⟩ | ⟨h1, h2⟩
    · rcases look j (by simp) with ⟨p', h3, h4⟩ | ⟨h3, h4⟩
      · simp [objStep, h1, h2, h3, h4, bind, Except.bind]
      · simp [objStep, h1, h2, h3, h4, bind, Except.bind]
    · simp [objStep, h1, h2, bind, Except.bind]

/-- a hierarchy with design variables, constraints and an objective in several models that is accepted -/
def exOpt : Model := .mk { inputs := [⟨"x".toList, [1]⟩], designVars := [("x".toList, 7)], constraints := [("A.y".toList, 1)] }
  (.cons "A".toList (some []) (.mk { outputs := [⟨"y".toList, [1]⟩, ⟨"z".toList, [1]⟩], constraints := [("z".toList, 2)], objective := some ("y".toList, 3) } .nil) .nil)

example : DotFree exOpt ∧ ∃ r, resolve exOpt none = .ok r ∧
    collectDecl Local.constraints r.p2u exOpt [] [] = .ok [("A.y".toList, 1), ("A.z".toList, 2)] ∧
    findObjective r.p2u exOpt [] none = .ok (some ("A.y".toList, 3)) := by
  refine ⟨dotFree_of (by decide), ?_⟩
  have h : (match resolve exOpt none with
    | .ok r => (match collectDecl Local.constraints r.p2u exOpt [] [], findObjective r.p2u exOpt [] none with
        | .ok cs, .ok o => decide (cs = [("A.y".toList, 1), ("A.z".toList, 2)] ∧ o = some ("A.y".toList, 3))
        | _, _ => false)
    | .error _ => false) = true := by decide
  cases hr : resolve exOpt none with
  | error e => rw [hr] at h; cases h
  | ok r =>
    rw [hr] at h
    refine ⟨r, rfl, ?_⟩
    cases hc : collectDecl Local.constraints r.p2u exOpt [] [] with
    | error e => simp only [hc] at h; cases h
    | ok cs =>
      cases ho : findObjective r.p2u exOpt [] none with
      | error e => simp only [hc, ho] at h; cases h
      | ok o =>
        simp only [hc, ho] at h
        have := of_decide_eq_true h
        rw [this.1, this.2]; exact ⟨rfl, rfl⟩

/-! ### C13 -/

/-- C13 as stated is false of the code: `find_objective` overwrites the name stored in the model by the promoted name, so the
second build of a hierarchy whose objective is in an unpromoted submodel raises KeyError. -/
theorem C13_rebuild_fails : ∃ m o m', DotFree m ∧ buildObjective m = .ok (some o, m') ∧
    buildObjective m' = .error (.inr .unknown) := by
  have h : (match buildObjective exOpt with
    | .ok (some o, m') => (match buildObjective m' with
        | .error (.inr e) => decide (e = .unknown)
        | _ => false)
    | _ => false) = true := by decide
  cases hb : buildObjective exOpt with
  | error e => rw [hb] at h; cases h
  | ok om =>
    obtain ⟨o, m'⟩ := om
    cases o with
    | none => rw [hb] at h; cases h
    | some o =>
      rw [hb] at h
      refine ⟨exOpt, o, m', dotFree_of (by decide), hb, ?_⟩
      cases hb2 : buildObjective m' with
      | ok _ => simp only [hb2] at h; cases h
      | error e =>
        cases e with
        | inl _ => simp only [hb2] at h; cases h
        | inr e => simp only [hb2] at h; rw [of_decide_eq_true h]

mutual
theorem mutates_id (p2u : Dict Name (List Name)) : ∀ (m : Model) (ns : Name),
    (∀ i ∈ issuedPre objSel m, lookupTwice p2u i.2.1 (descend ns i.1) i.2.2.1 = .ok i.2.2.1) →
    objectiveMutates p2u m ns = m
  | .mk l subs, ns => by
    intro h
    rw [objectiveMutates, mutatesSubs_id p2u subs ns (fun i hi => h i (by rw [issuedPre]; simp [hi]))]
    cases ho : l.objective with
    | none => rfl
    | some kd =>
      obtain ⟨k, d⟩ := kd
      have := h ([], .mk l subs, k, d) (by rw [issuedPre]; simp [objSel, ho])
      simp only [descend] at this
      simp only [this]
      rw [← ho]
theorem mutatesSubs_id (p2u : Dict Name (List Name)) : ∀ (subs : Subs) (ns : Name),
    (∀ i ∈ issuedPreSubs objSel subs, lookupTwice p2u i.2.1 (descend ns i.1) i.2.2.1 = .ok i.2.2.1) →
    objectiveMutatesSubs p2u subs ns = subs
  | .nil, _ => fun _ => rfl
  | .cons n p m rest, ns => by
    intro h
    rw [objectiveMutatesSubs, mutatesSubs_id p2u rest ns (fun i hi => h i (by rw [issuedPreSubs]; simp [hi]))]
    rw [mutates_id p2u m (prependNamespace ns n)]
    intro i hi
    exact h (n :: i.1, i.2) (by rw [issuedPreSubs]; simp only [List.mem_append, List.mem_map]; exact Or.inl ⟨i, hi, rfl⟩)
end

/-- C13, the part that holds: if the objective was declared under the name it has in the main model (in particular if it is
declared in the main model by promoted name, or in a submodel that promotes it all the way up), the build leaves the
hierarchy as it is, so every further build gives the same objective.  Missing: objectives of submodels whose name
changes on the way up (false, `C13_rebuild_fails`). -/
theorem C13_rebuild_same_objective_partial (m : Model) (k : Name) (d : Nat) (m' : Model)
    (hb : buildObjective m = .ok (some (k, d), m'))
    (hk : ∀ path l subs o, At m path (.mk l subs) → l.objective = some o → o.1 = k) :
    m' = m ∧ buildObjective m' = .ok (some (k, d), m') := by
  have e : m' = m := by
    unfold buildObjective at hb
    cases hr : resolve m none with
    | error e => rw [hr] at hb; cases hb
    | ok r =>
      rw [hr] at hb
      simp only at hb
      cases hf : findObjective r.p2u m [] none with
      | error e => rw [hf] at hb; cases hb
      | ok o =>
        rw [hf] at hb
        simp only [Except.ok.injEq, Prod.mk.injEq] at hb
        obtain ⟨rfl, rfl⟩ := hb
        apply mutates_id
        rw [findObjective_eq, foldlM_obj_ok] at hf
        rcases hf with ⟨_, h'⟩ | ⟨⟨path, m1, k1, d1⟩, p, h1, h2, h3⟩
        · cases h'
        · injection h3 with h3; injection h3 with h3 h4; subst h3
          intro i hi
          rw [h1] at hi
          simp at hi; subst hi
          have hmem : (path, m1, k1, d1) ∈ issuedPre objSel m := by rw [h1]; simp
          obtain ⟨l, subs, rfl, hat, hs⟩ := (mem_issuedPre m path m1 (k1, d1)).1 hmem
          have := hk path l subs (k1, d1) hat (by simpa [objSel] using hs)
          subst this
          exact h2
  subst e
  exact ⟨rfl, hb⟩

/-- the hypotheses are met: objective declared in the main model -/
example : ∃ m m', buildObjective m = .ok (some ("A.y".toList, 3), m') ∧
    ∀ path l subs o, At m path (.mk l subs) → l.objective = some o → o.1 = "A.y".toList := by
  let m : Model := .mk { objective := some ("A.y".toList, 3) }
    (.cons "A".toList (some []) (.mk { outputs := [⟨"y".toList, [1]⟩] } .nil) .nil)
  have h : (match buildObjective m with
    | .ok (some o, _) => decide (o = ("A.y".toList, 3))
    | _ => false) = true := by decide
  cases hb : buildObjective m with
  | error e => rw [hb] at h; cases h
  | ok om =>
    obtain ⟨o, m'⟩ := om
    cases o with
    | none => rw [hb] at h; cases h
    | some o =>
      rw [hb] at h
      refine ⟨m, m', ?_, ?_⟩
      · rw [hb, of_decide_eq_true h]
      · intro path l subs o hat ho
        have hB : Model.allB (fun l _ => match l.objective with | none => true | some o => decide (o.1 = "A.y".toList)) m = true := by
          decide
        have := Model.allB_at hB hat
        rw [ho] at this
        exact of_decide_eq_true this

end Csdl
