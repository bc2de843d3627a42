import Verif.Spec.Program
import Mathlib.Data.List.Forall2
/-
Invariants of the execution of `define` methods.
-/
namespace Csdl.Prog
open Csdl Csdl.Arith
variable {K F : Type}

/-- the same object with another name -/
def PObj.named (p : PObj K F) (nm : Name) : PObj K F := { p with obj := { p.obj with name := nm } }

/-- what may change of an object besides its name: a `decompose` operation may get more results, an output that is assembled from parts its operation, and this operation more arguments -/
inductive PObj.Change (p q : PObj K F) : Prop
  | same : q.obj.deps = p.obj.deps → q.obj.outs = p.obj.outs → q.op = p.op → Change p q
  | part (sh : Shape) (es es' : List (NKey × List Nat)) : p.obj.kind = .op → q.obj.deps = p.obj.deps → p.obj.outs <+: q.obj.outs → p.op = some (.part sh es) → q.op = some (.part sh es') →
      es <+: es' → Change p q
  | defined : p.obj.kind = .var → p.obj.role = .output → p.obj.deps = [] → q.obj.outs = p.obj.outs → q.op = p.op → Change p q
  | asm (sh : Shape) (val : Val K) (es es' : List (Shape × List Int)) : p.obj.kind = .op → p.obj.deps <+: q.obj.deps → q.obj.outs = p.obj.outs → p.op = some (.assemble sh val es) →
      q.op = some (.assemble sh val es') → es <+: es' → Change p q

/-- the same object later -/
structure PObj.Grows (p q : PObj K F) : Prop where
  kind : q.obj.kind = p.obj.kind
  auto : q.obj.auto = p.obj.auto
  role : q.obj.role = p.obj.role
  explicit : q.obj.explicit = p.obj.explicit
  val : q.val = p.val
  shape : q.obj.shape = p.obj.shape
  change : p.Change q

theorem PObj.Grows.named (p : PObj K F) (nm : Name) : p.Grows (p.named nm) := ⟨rfl, rfl, rfl, rfl, rfl, rfl, .same rfl rfl rfl⟩

theorem PObj.Grows.refl (p : PObj K F) : p.Grows p := .named p p.obj.name

theorem PObj.Grows.trans {p q r : PObj K F} (h1 : p.Grows q) (h2 : q.Grows r) : p.Grows r := by
  refine ⟨h2.kind.trans h1.kind, h2.auto.trans h1.auto, h2.role.trans h1.role, h2.explicit.trans h1.explicit, h2.val.trans h1.val, h2.shape.trans h1.shape, ?_⟩
  have hk := h1.kind
  have hr := h1.role
  cases h1.change with
  | same a1 a2 a3 =>
    cases h2.change with
    | same b1 b2 b3 => exact .same (b1.trans a1) (b2.trans a2) (b3.trans a3)
    | part sh es es' b1 b2 b3 b4 b5 b6 => exact .part sh es es' (hk ▸ b1) (b2.trans a1) (a2 ▸ b3) (a3 ▸ b4) b5 b6
    | defined b1 b2 b3 b4 b5 => exact .defined (hk ▸ b1) (hr ▸ b2) (a1 ▸ b3) (b4.trans a2) (b5.trans a3)
    | asm sh val es es' b1 b2 b3 b4 b5 b6 => exact .asm sh val es es' (hk ▸ b1) (a1 ▸ b2) (b3.trans a2) (a3 ▸ b4) b5 b6
  | part sh es es' a1 a2 a3 a4 a5 a6 =>
    cases h2.change with
    | same b1 b2 b3 => exact .part sh es es' a1 (b1.trans a2) (b2 ▸ a3) a4 (b3.trans a5) a6
    | part sh' fs fs' b1 b2 b3 b4 b5 b6 =>
      rw [a5] at b4
      cases b4
      exact .part sh es fs' a1 (b2.trans a2) (a3.trans b3) a4 b5 (a6.trans b6)
    | defined b1 => rw [hk, a1] at b1; cases b1
    | asm sh' val fs fs' b1 b2 b3 b4 b5 b6 => rw [a5] at b4; cases b4
  | defined a1 a2 a3 a4 a5 =>
    cases h2.change with
    | same b1 b2 b3 => exact .defined a1 a2 a3 (b2.trans a4) (b3.trans a5)
    | part _ _ _ b1 => rw [hk, a1] at b1; cases b1
    | defined b1 b2 b3 b4 b5 => exact .defined a1 a2 a3 (b4.trans a4) (b5.trans a5)
    | asm _ _ _ _ b1 => rw [hk, a1] at b1; cases b1
  | asm sh val es es' a1 a2 a3 a4 a5 a6 =>
    cases h2.change with
    | same b1 b2 b3 => exact .asm sh val es es' a1 (b1 ▸ a2) (b2.trans a3) a4 (b3.trans a5) a6
    | part sh' fs fs' b1 b2 b3 b4 b5 b6 => rw [a5] at b4; cases b4
    | defined b1 => rw [hk, a1] at b1; cases b1
    | asm sh' val' fs fs' b1 b2 b3 b4 b5 b6 =>
      rw [a5] at b4
      cases b4
      exact .asm sh val es fs' a1 (a2.trans b2) (b3.trans a3) a4 b5 (a6.trans b6)

theorem PObj.Grows.outs_var {p q : PObj K F} (h : p.Grows q) (hk : p.obj.kind = .var) : q.obj.outs = p.obj.outs := by
  cases h.change with
  | same a1 a2 a3 => exact a2
  | part _ _ _ b1 => rw [hk] at b1; cases b1
  | defined a1 a2 a3 a4 a5 => exact a4
  | asm _ _ _ _ b1 => rw [hk] at b1; cases b1

/-- a variable that has an operation keeps it -/
theorem PObj.Grows.deps_var {p q : PObj K F} (h : p.Grows q) (hk : p.obj.kind = .var) (hd : p.obj.role ≠ .output ∨ p.obj.deps ≠ []) : q.obj.deps = p.obj.deps := by
  cases h.change with
  | same a1 a2 a3 => exact a1
  | part _ _ _ b1 => rw [hk] at b1; cases b1
  | defined a1 a2 a3 a4 a5 => exact absurd a3 (hd.resolve_left (fun h => h a2))
  | asm _ _ _ _ b1 => rw [hk] at b1; cases b1

/-- the operation is a `decompose` operation -/
def Kind.IsPart (k : Kind K F) : Prop := ∃ sh es, k = .part sh es

/-- the operation is an `indexed_passthrough` operation -/
def Kind.IsAsm (k : Kind K F) : Prop := ∃ sh val es, k = .assemble sh val es

theorem PObj.Grows.fixed {p q : PObj K F} (h : p.Grows q) {k : Kind K F} (ho : p.obj.kind = .op) (hk : p.op = some k) (hp : ¬ k.IsPart) (ha : ¬ k.IsAsm) : q.obj.outs = p.obj.outs ∧ q.op = p.op ∧ q.obj.deps = p.obj.deps := by
  cases h.change with
  | same a1 a2 a3 => exact ⟨a2, a3, a1⟩
  | part sh es es' b1 b2 b3 b4 =>
    rw [hk] at b4
    cases b4
    exact absurd ⟨sh, es, rfl⟩ hp
  | defined a1 => rw [ho] at a1; cases a1
  | asm sh val es es' b1 b2 b3 b4 =>
    rw [hk] at b4
    cases b4
    exact absurd ⟨sh, val, es, rfl⟩ ha

theorem PObj.Grows.outs {p q : PObj K F} (h : p.Grows q) : p.obj.outs <+: q.obj.outs := by
  cases h.change with
  | same a1 a2 a3 => rw [a2]; exact List.prefix_rfl
  | part sh es es' b1 b2 b3 => exact b3
  | defined a1 a2 a3 a4 a5 => rw [a4]; exact List.prefix_rfl
  | asm sh val es es' b1 b2 b3 => rw [b3]; exact List.prefix_rfl

/-- later objects: the old ones are still there -/
def Ext (objs objs' : List (PObj K F)) : Prop := ∀ (i : Nat) (p : PObj K F), objs[i]? = some p → ∃ q, objs'[i]? = some q ∧ p.Grows q

theorem Ext.refl (objs : List (PObj K F)) : Ext objs objs := fun _ p h => ⟨p, h, .refl p⟩

theorem Ext.trans {a b c : List (PObj K F)} (h1 : Ext a b) (h2 : Ext b c) : Ext a c := by
  intro i p h
  obtain ⟨q, h3, g3⟩ := h1 i p h
  obtain ⟨r, h4, g4⟩ := h2 i _ h3
  exact ⟨r, h4, g3.trans g4⟩

theorem Ext.append (objs new : List (PObj K F)) : Ext objs (objs ++ new) := by
  intro i p h
  refine ⟨p, ?_, .refl p⟩
  rw [List.getElem?_append_left (List.getElem?_eq_some_iff.1 h).1, h]

theorem Ext.rename (objs : List (PObj K F)) (o : Nat) (nm : Name) : Ext objs (rename objs o nm) := by
  intro i p h
  unfold Prog.rename
  rw [List.getElem?_modify, h]
  by_cases ho : o = i
  · exact ⟨p.named nm, by simp [ho]; rfl, .named _ _⟩
  · exact ⟨p, by simp [ho], .refl p⟩

theorem Ext.length {a b : List (PObj K F)} (h : Ext a b) : a.length ≤ b.length := by
  by_contra hc
  have hlt : b.length < a.length := by omega
  obtain ⟨nm, h1, _⟩ := h b.length _ (List.getElem?_eq_getElem hlt)
  have := (List.getElem?_eq_some_iff.1 h1).1
  omega

/-- the object `v` is a variable -/
def IsVar (objs : List (PObj K F)) (v : Nat) : Prop := ∃ p, objs[v]? = some p ∧ p.obj.kind = .var

/-- the object `v` is a result of the operation `o` -/
def IsResult (objs : List (PObj K F)) (v o : Nat) : Prop := ∃ p, objs[v]? = some p ∧ p.obj.kind = .var ∧ p.obj.role = .output ∧ p.obj.deps = [o] ∧ p.obj.outs = []

theorem IsVar.mono {objs objs' : List (PObj K F)} (h : Ext objs objs') {v : Nat} : IsVar objs v → IsVar objs' v := by
  rintro ⟨p, h1, h2⟩
  obtain ⟨q, h3, g⟩ := h v p h1
  exact ⟨_, h3, g.kind.trans h2⟩

theorem IsVar.lt {objs : List (PObj K F)} {v : Nat} : IsVar objs v → v < objs.length := fun ⟨_, h, _⟩ => (List.getElem?_eq_some_iff.1 h).1

theorem IsResult.mono {objs objs' : List (PObj K F)} (h : Ext objs objs') {v o : Nat} : IsResult objs v o → IsResult objs' v o := by
  rintro ⟨p, h1, h2, h3, h4, h5⟩
  obtain ⟨q, h6, g⟩ := h v p h1
  exact ⟨_, h6, g.kind.trans h2, g.role.trans h3, (g.deps_var h2 (Or.inr (by rw [h4]; simp))).trans h4, (g.outs_var h2).trans h5⟩

theorem IsResult.isVar {objs : List (PObj K F)} {v o : Nat} : IsResult objs v o → IsVar objs v := fun ⟨p, h1, h2, _⟩ => ⟨p, h1, h2⟩

theorem getD_prefix {α : Type} {l l' : List α} (h : l <+: l') (i : Nat) (hi : i < l.length) (d : α) : l'.getD i d = l.getD i d := by
  obtain ⟨t, rfl⟩ := h
  rw [List.getD_eq_getElem?_getD, List.getD_eq_getElem?_getD, List.getElem?_append_left hi]

theorem getElem?_prefix {α : Type} {l l' : List α} (h : l <+: l') {i : Nat} {a : α} (hi : l[i]? = some a) : l'[i]? = some a := by
  obtain ⟨t, rfl⟩ := h
  rw [List.getElem?_append_left (List.getElem?_eq_some_iff.1 hi).1, hi]

/-- objects and variables later in the same method -/
structure Later (objs : List (PObj K F)) (env : List Nat) (objs' : List (PObj K F)) (env' : List Nat) : Prop where
  ext : Ext objs objs'
  pre : env <+: env'
  fresh : ∀ v ∈ env', v ∈ env ∨ objs.length ≤ v

theorem Later.objsOnly {objs objs' : List (PObj K F)} (h : Ext objs objs') (env : List Nat) : Later objs env objs' env := ⟨h, List.prefix_rfl, fun _ => Or.inl⟩

/-- the object `o` is a copy operation of `d`, made for a repeated argument -/
structure CopyOp [One K] (objs : List (PObj K F)) (env : List Nat) (o d : Nat) : Prop where
  op : ∃ p, objs[o]? = some p ∧ p.obj.kind = .op ∧ p.op = some copyKind ∧ p.obj.deps = [d] ∧ p.obj.outs = [o + 1]
  result : IsResult objs (o + 1) o
  hidden : o + 1 ∉ env

theorem CopyOp.mono [One K] {objs objs' : List (PObj K F)} {env env' : List Nat} (h : Later objs env objs' env') {o d : Nat} : CopyOp objs env o d → CopyOp objs' env' o d := by
  rintro ⟨⟨p, h1, g1, g2, g3, g4⟩, h4, h5⟩
  obtain ⟨q, h3, g⟩ := h.ext o p h1
  have hf := g.fixed g1 g2 (by rintro ⟨_, _, h⟩; cases h) (by rintro ⟨_, _, _, h⟩; cases h)
  refine ⟨⟨_, h3, g.kind.trans g1, hf.2.1.trans g2, hf.2.2.trans g3, hf.1.trans g4⟩, h4.mono h.ext, fun hm => ?_⟩
  rcases h.fresh _ hm with h6 | h6
  · exact h5 h6
  · have := h4.isVar.lt
    omega

/-- `d` is the argument `a` or a copy of it -/
def ArgOk [One K] (objs : List (PObj K F)) (env : List Nat) (d a : Nat) : Prop := d = a ∨ ∃ o, d = o + 1 ∧ CopyOp objs env o a

theorem ArgOk.mono [One K] {objs objs' : List (PObj K F)} {env env' : List Nat} (h : Later objs env objs' env') {d a : Nat} (hd : ArgOk objs env d a) : ArgOk objs' env' d a :=
  hd.imp id fun ⟨o, h1, h2⟩ => ⟨o, h1, h2.mono h⟩

/-- the shape of a variable of the method -/
def shapeAt (objs : List (PObj K F)) (env : List Nat) (x : Nat) : Shape := (objects objs (env.getD x 0)).shape

/-- what the operation of a statement is: kind, operands, number of results, and the number of results of the operation before those of the statement; `sh` are the shapes of the variables -/
inductive Lowered [Field K] [DecidableEq K] (sh : Nat → Shape) : Stmt K F → Kind K F → List Nat → Nat → Nat → Prop
  | expr {i : Instr K} {k : OpKind K} {as : List Nat} : lower i = .ok (some (k, as)) → Lowered sh (.expr i) (.arith k) as 1 0
  | call (f : F) (as : List Nat) (outs : List Shape) : Lowered sh (.call f as outs) (.fn f) as outs.length 0
  | index {x : Nat} {key : Key} {es : List (NKey × List Nat)} {e : NKey × List Nat} {base : Nat} : keyPart (sh x) key = .ok e → es[base]? = some e →
      Lowered sh (.index x key) (.part (sh x) es) [x] 1 base

theorem Lowered.congr [Field K] [DecidableEq K] {sh sh' : Nat → Shape} {s : Stmt K F} {k : Kind K F} {as : List Nat} {m base : Nat} (h : Lowered sh s k as m base) (he : ∀ a ∈ as, sh' a = sh a) :
    Lowered sh' s k as m base := by
  cases h with
  | expr h => exact .expr h
  | call f as outs => exact .call f as outs
  | index h1 h2 =>
    rw [← he _ (by simp)] at h1 ⊢
    exact .index h1 h2

/-- the object `o` is the operation of the statement `s`, whose results are variables from number `n` -/
def OpOf [Field K] [DecidableEq K] (objs : List (PObj K F)) (env : List Nat) (n : Nat) (s : Stmt K F) (o : Nat) : Prop :=
  ∃ p k as m base, objs[o]? = some p ∧ p.obj.kind = .op ∧ Lowered (shapeAt objs env) s k as m base ∧ p.op = some k ∧ (k.IsPart ∨ p.obj.outs.length = m) ∧
    (∀ j < m, ∃ v, p.obj.outs[base + j]? = some v ∧ env[n + j]? = some v ∧ IsResult objs v o) ∧
    (∀ a ∈ as, a < n) ∧ List.Forall₂ (ArgOk objs env) p.obj.deps (as.map (env.getD · 0))

theorem Ext.shape {objs objs' : List (PObj K F)} (h : Ext objs objs') {v : Nat} (hv : v < objs.length) : (objects objs' v).shape = (objects objs v).shape := by
  obtain ⟨q, h1, g⟩ := h v _ (List.getElem?_eq_getElem hv)
  unfold objects
  rw [h1, List.getElem?_eq_getElem hv]
  exact g.shape

theorem OpOf.mono [Field K] [DecidableEq K] {objs objs' : List (PObj K F)} {env env' : List Nat} (h : Later objs env objs' env') (hv : ∀ v ∈ env, v < objs.length) {n : Nat} (hn : n ≤ env.length)
    {s : Stmt K F} {o : Nat} : OpOf objs env n s o → OpOf objs' env' n s o := by
  rintro ⟨p, k, as, m, base, h1, h2, h3, h4, h5, h6, h7, h8⟩
  obtain ⟨q, h9, g⟩ := h.ext o p h1
  have hlt : ∀ a ∈ as, a < env.length := fun a ha => Nat.lt_of_lt_of_le (h7 a ha) hn
  have hsh : ∀ a ∈ as, shapeAt objs' env' a = shapeAt objs env a := by
    intro a ha
    unfold shapeAt
    rw [getD_prefix h.pre a (hlt a ha), h.ext.shape]
    apply hv
    rw [List.getD_eq_getElem?_getD, List.getElem?_eq_getElem (hlt a ha)]
    exact List.getElem_mem _
  have e : as.map (env'.getD · 0) = as.map (env.getD · 0) := List.map_congr_left fun a ha => getD_prefix h.pre a (hlt a ha) 0
  have hres : ∀ j < m, ∃ v, q.obj.outs[base + j]? = some v ∧ env'[n + j]? = some v ∧ IsResult objs' v o := by
    intro j hj
    obtain ⟨v, a1, a2, a3⟩ := h6 j hj
    exact ⟨v, getElem?_prefix g.outs a1, getElem?_prefix h.pre a2, a3.mono h.ext⟩
  have hdeps : q.obj.deps = p.obj.deps → List.Forall₂ (ArgOk objs' env') q.obj.deps (as.map (env'.getD · 0)) := by
    intro hd
    rw [e, hd]
    exact h8.imp fun _ _ => ArgOk.mono h
  cases g.change with
  | same g1 g2 g3 => exact ⟨q, k, as, m, base, h9, g.kind.trans h2, h3.congr hsh, g3.trans h4, h5.imp id (by rw [g2]; exact id), hres, h7, hdeps g1⟩
  | part sh es es' _ g0 g1 g2 g3 g4 =>
    rw [h4] at g2
    cases g2
    refine ⟨q, .part sh es', as, m, base, h9, g.kind.trans h2, ?_, g3, Or.inl ⟨_, _, rfl⟩, hres, h7, hdeps g0⟩
    refine Lowered.congr ?_ hsh
    cases h3 with
    | index a1 a2 => exact .index a1 (getElem?_prefix g4 a2)
  | defined g1 => rw [h2] at g1; cases g1
  | asm sh val es es' _ _ _ g2 =>
    rw [h4] at g2
    cases g2
    cases h3

/-- the objects that other methods created: `f i` is the object `i`, if it is one of them -/
def Foreign (K F : Type) := Nat → Option (PObj K F)

/-- the object `i` is not one of the objects other methods created -/
def Foreign.Own (f : Foreign K F) (i : Nat) : Prop := f i = none

/-- the objects of a list -/
def Foreign.of (objs : List (PObj K F)) : Foreign K F := fun i => objs[i]?

theorem Foreign.own_of {objs : List (PObj K F)} {i : Nat} : (Foreign.of objs).Own i ↔ objs.length ≤ i := List.getElem?_eq_none_iff

/-- what is known of an object the method created; `a` are the objects other methods did not create, `L` the statements executed -/
inductive Good [Field K] [DecidableEq K] (a : Nat → Prop) (L : List (Nat × Stmt K F)) (st : St K F) (i : Nat) (p : PObj K F) : Prop
  | input : p.obj.kind = .var → p.obj.role = .input → p.obj.deps = [] → p.obj.outs = [] → i ∈ st.inputs → i ∈ st.env → Good a L st i p
  | declared : p.obj.kind = .var → p.obj.role = .declared → p.obj.deps = [] → p.obj.outs = [] → i ∈ st.declared → i ∈ st.env → Good a L st i p
  | concat : p.obj.kind = .var → p.obj.role = .output → p.obj.deps = [] → p.obj.outs = [] → i ∈ st.outputs → i ∈ st.env → Good a L st i p
  | result (o : Nat) (q : PObj K F) : p.obj.kind = .var → p.obj.role = .output → p.obj.outs = [] → p.obj.deps = [o] → a o → st.objs[o]? = some q → q.obj.kind = .op →
      i ∈ q.obj.outs → Good a L st i p
  | op : p.obj.kind = .op → (∀ d ∈ p.obj.deps, a d ∧ IsVar st.objs d) → (∀ v ∈ p.obj.outs, IsResult st.objs v i) → p.obj.outs.Nodup →
      ((∀ v ∈ p.obj.outs, ∃ n s x, (n, s) ∈ L ∧ OpOf st.objs st.env n s i ∧ n ≤ x ∧ x < n + s.count ∧ st.env[x]? = some v) ∨ (∃ d ∈ st.env, CopyOp st.objs st.env i d ∧ a (i + 1)) ∨
        ∃ k v, p.op = some k ∧ k.IsAsm ∧ p.obj.outs = [v] ∧ v ∈ st.env ∧ (∀ d ∈ p.obj.deps, d ∈ st.env)) → Good a L st i p
  | model : p.obj.kind = .model → p.obj.deps = [] → p.obj.outs = [] → i ∈ st.subs.map (·.1) → Good a L st i p

/-- one state extends another -/
structure Grows (st st' : St K F) : Prop where
  later : Later st.objs st.env st'.objs st'.env
  inputs : st.inputs <+: st'.inputs
  declared : st.declared <+: st'.declared
  outputs : st.outputs <+: st'.outputs
  subs : st.subs <+: st'.subs

theorem Good.mono [Field K] [DecidableEq K] {a : Nat → Prop} {L L' : List (Nat × Stmt K F)} {st st' : St K F} (hg : Grows st st') (hv : ∀ v ∈ st.env, v < st.objs.length) (hL : ∀ x ∈ L, x ∈ L')
    (hb : ∀ n s, (n, s) ∈ L → n ≤ st.env.length) {i : Nat} {p : PObj K F} (nm : Name) : Good a L st i p → Good a L' st' i (p.named nm)
  | .input h1 h2 h3 h4 h5 h6 => .input h1 h2 h3 h4 (hg.inputs.subset h5) (hg.later.pre.subset h6)
  | .declared h1 h2 h3 h4 h5 h6 => .declared h1 h2 h3 h4 (hg.declared.subset h5) (hg.later.pre.subset h6)
  | .concat h1 h2 h3 h4 h5 h6 => .concat h1 h2 h3 h4 (hg.outputs.subset h5) (hg.later.pre.subset h6)
  | .result o q h1 h2 h3 h4 h5 h7 h8 h9 => by
    obtain ⟨q', h11, g⟩ := hg.later.ext o q h7
    exact .result o q' h1 h2 h3 h4 h5 h11 (g.kind.trans h8) (g.outs.subset h9)
  | .op h1 h2 h3 hn h4 => by
    refine .op h1 (fun d hd => ⟨(h2 d hd).1, (h2 d hd).2.mono hg.later.ext⟩) (fun v hv => (h3 v hv).mono hg.later.ext) hn (h4.imp ?_ (Or.imp ?_ ?_))
    · intro h v hv'
      obtain ⟨n, s, x, hs, ho, h5, h6, h7⟩ := h v hv'
      exact ⟨n, s, x, hL _ hs, ho.mono hg.later hv (hb n s hs), h5, h6, getElem?_prefix hg.later.pre h7⟩
    · rintro ⟨d, hd, hc, ha⟩
      exact ⟨d, hg.later.pre.subset hd, hc.mono hg.later, ha⟩
    · rintro ⟨k, v, h5, h6, h7, h8, h9⟩
      exact ⟨k, v, h5, h6, h7, hg.later.pre.subset h8, fun d hd => hg.later.pre.subset (h9 d hd)⟩
  | .model h1 h2 h3 h4 => .model h1 h2 h3 ((hg.subs.map _).subset h4)

/-- the variable `n` of the method has the given value -/
def GivesVal (objs : List (PObj K F)) (env : List Nat) (n : Nat) (v : Option (Val K)) : Prop :=
  ∃ i p, env[n]? = some i ∧ objs[i]? = some p ∧ p.val = v ∧ (p.obj.role = .declared → p.obj.explicit = v.isSome)

theorem GivesVal.mono {objs objs' : List (PObj K F)} {env env' : List Nat} (h : Later objs env objs' env') {n : Nat} {v : Option (Val K)} : GivesVal objs env n v → GivesVal objs' env' n v := by
  rintro ⟨i, p, h1, h2, h3, h4⟩
  obtain ⟨q, h5, g⟩ := h.ext i p h2
  exact ⟨i, q, getElem?_prefix h.pre h1, h5, g.val.trans h3, fun hr => g.explicit.trans (h4 (g.role ▸ hr))⟩

/-- a statement that creates variables has been executed -/
inductive Done [Field K] [DecidableEq K] (objs : List (PObj K F)) (env : List Nat) (n : Nat) : Stmt K F → Prop
  | input (name : Name) (s : Shape) (v : Val K) : GivesVal objs env n (some v) → Done objs env n (.input name s v)
  | declare (name : Name) (s : Shape) (v : Option (Val K)) : GivesVal objs env n v → Done objs env n (.declare name s v)
  | register (name : Name) (x : Nat) : Done objs env n (.register name x)
  | connect (a b : Name) : Done objs env n (.connect a b)
  | output (name : Name) (s : Shape) (val : Val K) : Done objs env n (.output name s val)
  | assign {z x : Nat} {key : Key} : z < n → x < n → Done objs env n (.assign z key x)
  | alias {i : Instr K} {o : Nat} : lower i = .ok none → i.first < n → env[i.first]? = some o → env[n]? = some o → Done objs env n (.expr i)
  | op {s : Stmt K F} (o : Nat) : OpOf objs env n s o → Done objs env n s

theorem Done.mono [Field K] [DecidableEq K] {objs objs' : List (PObj K F)} {env env' : List Nat} (h : Later objs env objs' env') (hv : ∀ v ∈ env, v < objs.length) {n : Nat} (hn : n ≤ env.length) {s : Stmt K F} :
    Done objs env n s → Done objs' env' n s
  | .input _ _ _ hg => .input _ _ _ (hg.mono h)
  | .declare _ _ _ hg => .declare _ _ _ (hg.mono h)
  | .register _ _ => .register _ _
  | .connect _ _ => .connect _ _
  | .output _ _ _ => .output _ _ _
  | .assign h1 h2 => .assign h1 h2
  | .alias h1 h2 h3 h4 => .alias h1 h2 (getElem?_prefix h.pre h3) (getElem?_prefix h.pre h4)
  | .op o h1 => .op o (h1.mono h hv hn)

/-- `+x`, `x[key]`: the result of the statement may be an object that exists already -/
def Stmt.IsAlias (t : Stmt K F) : Prop := (∃ x, t = .expr (.pos x)) ∨ ∃ x key, t = .index x key

/-- name and shape of an object -/
def infoOf (objs : List (PObj K F)) (o : Nat) : VarInfo := (objects objs).varInfo o

/-- the assignments to parts of the object `v`, in order: key and number of the variable -/
def assignsTo (env : List Nat) (v : Nat) (L : List (Nat × Stmt K F)) : List (Key × Nat) := L.filterMap fun s => match s.2 with
  | .assign z key x => if env[z]? = some v then some (key, x) else none
  | _ => none

/-- what is known of the output `v` that is assembled from parts: `c` and `val` are its state and value; `a` are the objects other methods did not create, `L` the statements executed -/
structure Asm (a : Nat → Prop) (L : List (Nat × Stmt K F)) (objs : List (PObj K F)) (env : List Nat) (v : Nat) (c : Concat) (val : Val K) : Prop where
  stmt : ∃ x name, (x, Stmt.output name c.shape val) ∈ L ∧ env[x]? = some v
  asm : ∃ p es, objs[v]? = some p ∧ p.obj.kind = .var ∧ p.obj.role = .output ∧ p.obj.outs = [] ∧ p.obj.shape = c.shape ∧
    List.Forall₂ (fun (kx : Key × Nat) (e : Shape × List Int) => e.1 = shapeAt objs env kx.2 ∧ tgtIndices c.shape kx.1 = .ok (e.2, e.1) ∧ ∀ i ∈ e.2, i < (c.shape.size : Int)) (assignsTo env v L) es ∧
    (es.Pairwise fun e e' => ∀ i ∈ e.2, i ∉ e'.2) ∧ (∀ i, i ∈ c.checked ↔ ∃ e ∈ es, i ∈ e.2) ∧
    ((es = [] ∧ p.obj.deps = [] ∧ c.deps = none) ∨
      (es ≠ [] ∧ c.deps.isSome = true ∧ ∃ o q, p.obj.deps = [o] ∧ a o ∧ objs[o]? = some q ∧ q.obj.kind = .op ∧ q.obj.outs = [v] ∧ q.op = some (.assemble c.shape val es) ∧
        q.obj.deps = (assignsTo env v L).map fun kx => env.getD kx.2 0))

/-- The invariant: `objs0` are the objects other methods created, `L` the statements executed, `S` the submodels added. -/
structure Inv [Field K] [DecidableEq K] (objs0 : Foreign K F) (L : List (Nat × Stmt K F)) (S : List (Name × Option (List Name))) (st : St K F) : Prop where
  base : ∀ i p, objs0 i = some p → st.objs[i]? = some p
  good : ∀ i p, st.objs[i]? = some p → objs0.Own i → Good objs0.Own L st i p
  autos : ∀ i p, st.objs[i]? = some p → objs0.Own i → p.obj.auto = genHexName i
  names : ∀ i p, st.objs[i]? = some p → objs0.Own i → i ∈ st.inputs ∨ i ∈ st.outputs ∨ i ∈ st.declared ∨ i ∈ st.subs.map (·.1) ∨ p.obj.name = p.obj.auto
  env : ∀ v ∈ st.env, objs0.Own v ∧ IsVar st.objs v
  nums : ∀ n s, (n, s) ∈ L → n + s.count ≤ st.env.length
  cover : ∀ x < st.env.length, ∃ n s, (n, s) ∈ L ∧ n ≤ x ∧ x < n + s.count
  stmts : ∀ n s, (n, s) ∈ L → Done st.objs st.env n s
  fresh : ∀ n s, (n, s) ∈ L → s.IsAlias ∨ ∀ x o, n ≤ x → x < n + s.count → st.env[x]? = some o → ∀ y < x, st.env[y]? ≠ some o
  inputs : List.Forall₂ (fun (i : Nat) (x : Nat × Name × Shape) => st.env[x.1]? = some i ∧ infoOf st.objs i = ⟨x.2.1, x.2.2⟩ ∧ checkBannedChars x.2.1 = true) st.inputs (L.filterMap inputOf)
  declared : List.Forall₂ (fun (i : Nat) (x : Nat × Name × Shape) => st.env[x.1]? = some i ∧ infoOf st.objs i = ⟨x.2.1, x.2.2⟩) st.declared (L.filterMap declaredOf)
  outputs : List.Forall₂ (fun (i : Nat) (x : Nat × Name) => st.env[x.1]? = some i ∧ (infoOf st.objs i).name = x.2 ∧ checkBannedChars x.2 = true) st.outputs (L.filterMap outputOf)
  inputRole : ∀ i ∈ st.inputs, objs0.Own i ∧ ∃ p, st.objs[i]? = some p ∧ p.obj.kind = .var ∧ p.obj.role = .input
  declaredRole : ∀ i ∈ st.declared, objs0.Own i ∧ ∃ p, st.objs[i]? = some p ∧ p.obj.kind = .var ∧ p.obj.role = .declared
  outputRole : ∀ i ∈ st.outputs, objs0.Own i ∧ ∃ p, st.objs[i]? = some p ∧ p.obj.kind = .var ∧ p.obj.role = .output
  inputsNodup : st.inputs.Nodup
  outputsNodup : st.outputs.Nodup
  shapes : st.env.map (fun o => (objects st.objs o).shape) = shapesOf L
  connections : st.connections = L.foldl (fun cs s => stepConnections cs s.2) []
  subs : List.Forall₂ (fun (s : Nat × Name × Option (List Name)) (x : Name × Option (List Name)) => s.2 = x ∧ objs0.Own s.1 ∧
    ∃ p, st.objs[s.1]? = some p ∧ p.obj.kind = .model ∧ p.obj.name = x.1) st.subs S
  subNames : (S.map (·.1)).Nodup ∧ ∀ x ∈ S, checkBannedChars x.1 = true
  decomp : ∀ v o, st.decomp.get? v = some o → objs0.Own o ∧ v ∈ st.env ∧ ∃ p es, st.objs[o]? = some p ∧ p.obj.kind = .op ∧ p.op = some (.part (objects st.objs v).shape es) ∧ p.obj.deps = [v] ∧
    List.Forall₂ (fun e w => ∃ q, st.objs[w]? = some q ∧ q.obj.kind = .var ∧ q.obj.shape = npSliceShape (objects st.objs v).shape e.1) es p.obj.outs ∧ (es.map (·.1)).Nodup ∧ ∀ e ∈ es, srcIndices (objects st.objs v).shape e.1 = .ok e.2
  parts : ∀ i p sh es, st.objs[i]? = some p → objs0.Own i → p.op = some (.part sh es) → ∃ v, p.obj.deps = [v] ∧ st.decomp.get? v = some i
  concat : ∀ v c val, st.concat.get? v = some (c, val) → Asm objs0.Own L st.objs st.env v c val
  made : ∀ n name sh val, (n, Stmt.output name sh val) ∈ L → ∃ v c, st.env[n]? = some v ∧ st.concat.get? v = some (c, val) ∧ c.shape = sh ∧ v ∈ st.outputs
  asms : ∀ i p k, st.objs[i]? = some p → objs0.Own i → p.op = some k → k.IsAsm → ∃ v c val q, p.obj.outs = [v] ∧ st.concat.get? v = some (c, val) ∧ st.objs[v]? = some q ∧ q.obj.deps = [i]
  targets : ∀ n z key x, (n, Stmt.assign z key x) ∈ L → ∃ v cv, st.env[z]? = some v ∧ st.concat.get? v = some cv

/-- an object that does not exist yet was not created by another method -/
theorem Inv.own [Field K] [DecidableEq K] {objs0 : Foreign K F} {L : List (Nat × Stmt K F)} {S : List (Name × Option (List Name))} {st : St K F} (h : Inv objs0 L S st) {i : Nat} (hi : st.objs.length ≤ i) : objs0.Own i := by
  unfold Foreign.Own
  cases hp : objs0 i with
  | none => rfl
  | some p =>
    have := (List.getElem?_eq_some_iff.1 (h.base i p hp)).1
    omega

end Csdl.Prog
