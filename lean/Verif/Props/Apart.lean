import Verif.Proofs.Apart2
import Verif.Props.ValidProgram
/-
C103: a submodel of which nothing is promoted.
-/
namespace Csdl.Prog
open Csdl Csdl.Arith
variable {K F : Type}

theorem methodOk_apart [Zero K] {b : Body K F} {i : Bool} {n : Name} {sub : Body K F} (hs : ∀ L y L', b.stmts 0 = L ++ y :: L' → StmtOk L y.2) (ha : ∀ y name shape val, b.Has y (.output name shape val) → ∃ key x, b.Assigned y key x)
    (hn : (b.subs.map (·.1)).Nodup) (hw : ∀ s ∈ b.subs, Allowed s.1) (hf : NewSub b n) : MethodOk (b.addApart i n sub) where
  stmts := by rw [stmts_addApart]; exact hs
  assigned := by
    intro y name shape val h
    unfold Body.Has at h
    rw [stmts_addApart] at h
    obtain ⟨key, x, m, z, k1, k2⟩ := ha y name shape val h
    exact ⟨key, x, m, z, by unfold Body.Has; rw [stmts_addApart]; exact k1, by rw [stmts_addApart]; exact k2⟩
  subNames := by
    rw [subs_addApart, List.map_append]
    refine List.nodup_append.2 ⟨hn, by simp, ?_⟩
    rintro x hx _ hy rfl
    simp only [List.map_cons, List.map_nil, List.mem_singleton] at hy
    exact hf.newSub (hy ▸ hx)
  subAllowed := by
    intro s h
    rw [subs_addApart] at h
    rcases List.mem_append.1 h with h | h
    · exact hw s h
    · rw [List.mem_singleton] at h
      subst h
      exact hf.allowed
  nonEmpty := by
    rw [subs_addApart]
    exact Or.inr (Or.inr (by simp))

theorem apart_of_valid [Zero K] {b : Body K F} (i : Bool) {n : Name} {sub : Body K F} (hv : ValidProgram b) (hn : NewSub b n) (hs : ValidProgram sub) : Apart b i n sub where
  methods := fun path c hc _ => hv.methods path c hc
  root := by
    have h := hv.methods _ _ (.here b)
    exact methodOk_apart h.stmts h.assigned h.subNames h.subAllowed hn
  dotFree := dotFree_body hv.methods hv.names
  names := hv.names
  oneSource := hv.oneSource
  sizes := hv.sizes
  promotes := hv.promotes
  connections := hv.connections
  oneConnection := hv.oneConnection
  noChain := hv.noChain
  acyclic := hv.acyclic
  fresh := hn
  valid := hs

/-- a main model without statements has no variables -/
theorem done_promoted {path : List Name} {k : VarKind} {w : VarInfo} {p : Name} (h : PromotedAs (Body.done : Body K F).toModel path k w p) : False := by
  unfold Body.toModel at h
  cases h with
  | @here _ _ k _ hv => cases k <;> exact absurd hv (by simp [Local.vars, Local.sources, Body.locals, Body.stmts])
  | up hs => simp [Body.toSubs, Subs.toList] at hs
  | stay hs => simp [Body.toSubs, Subs.toList] at hs

theorem done_at {path : List Name} {c : Body K F} (h : BAt (Body.done : Body K F) path c) : path = [] ∧ c = .done := by
  cases h with
  | here => exact ⟨rfl, rfl⟩
  | down hs _ => simp [Body.subs] at hs

theorem apart_of_done [Zero K] (i : Bool) {n : Name} {sub : Body K F} (hn : NewSub (Body.done : Body K F) n) (hs : ValidProgram sub) : Apart (Body.done : Body K F) i n sub where
  methods := fun path c hc hp => absurd (done_at hc).1 hp
  root := methodOk_apart (by simp [Body.stmts]) (by simp [Body.Has, Body.stmts]) (by simp [Body.subs]) (by simp [Body.subs]) hn
  dotFree := by
    intro path l subs h
    cases h with
    | here => exact ⟨fun k => by cases k <;> simp [Local.vars, Local.sources, Body.locals, Body.stmts], by simp [Body.toSubs, Subs.toList], by simp [Body.toSubs, Subs.toList]⟩
    | down hs _ => simp [Body.toSubs, Subs.toList] at hs
  names := by
    constructor <;> intro path c hc <;> obtain ⟨rfl, rfl⟩ := done_at hc <;> simp [Local.sources, Body.locals, Body.stmts, Body.subs]
  oneSource := fun path c hc => by
    obtain ⟨rfl, rfl⟩ := done_at hc
    exact fun p path1 v1 path2 v2 h => (done_promoted h).elim
  sizes := fun path c hc => by
    obtain ⟨rfl, rfl⟩ := done_at hc
    exact fun p k1 path1 v1 k2 path2 v2 h => (done_promoted h).elim
  promotes := fun path c hc => by
    obtain ⟨rfl, rfl⟩ := done_at hc
    simp [Body.subs]
  connections := fun path c s t hc h => by
    obtain ⟨rfl, rfl⟩ := done_at hc
    simp [Body.locals, Body.stmts] at h
  oneConnection := by simp [Body.toModel, issuedPost, Body.toSubs, issuedPostSubs, Body.locals, Body.stmts]
  noChain := by constructor <;> simp [Body.toModel, issuedPost, Body.toSubs, issuedPostSubs, Body.locals, Body.stmts]
  acyclic := by
    rintro ⟨q, h⟩
    have : ∀ e f, Relation.TransGen (fun a c => ∃ a', Relation.EqvGen (Same (Body.done : Body K F)) a a' ∧ Feeds (Body.done : Body K F) a' c) e f → False := by
      intro e f h
      induction h with
      | single h =>
        obtain ⟨a, _, h⟩ := h
        rcases h with ⟨d, m, s, _, h2, h3, _⟩ | ⟨d, name, shape, val, key, _, h2, h3, _⟩ <;> obtain ⟨_, rfl⟩ := done_at h2 <;> simp [Body.Has, Body.stmts] at h3
      | tail _ _ ih => exact ih
    exact this q q h
  fresh := hn
  valid := hs

/-- **C103 (accepted).** If a valid program is added to a valid program as a submodel with a new name and nothing is promoted from it, the program that results is valid. -/
theorem C103_apart_valid [Zero K] (b sub : Body K F) (i : Bool) (n : Name) (hv : ValidProgram b) (hn : NewSub b n) (hs : ValidProgram sub) : ValidProgram (b.addApart i n sub) :=
  (apart_of_valid i hv hn hs).validProgram

/-- **C103 (accepted, wrapped).** A model that only contains a valid program, and promotes nothing from it, is valid. -/
theorem C103_wrapped_valid [Zero K] (sub : Body K F) (i : Bool) (n : Name) (h0 : n ≠ []) (h1 : Allowed n) (h2 : ¬ AutoLike n) (hs : ValidProgram sub) : ValidProgram ((Body.done : Body K F).addApart i n sub) :=
  (apart_of_done i ⟨h0, h1, h2, by simp [Body.subs], by simp [Local.sources, Body.locals, Body.stmts]⟩ hs).validProgram

/-- the models of the list as submodels, nothing promoted -/
def Body.addAll (b : Body K F) (l : List (Bool × Name × Body K F)) : Body K F := l.foldl (fun b x => b.addApart x.1 x.2.1 x.2.2) b

/-- **C103 (accepted, collections).** A model that contains any number of valid programs under different names, and promotes nothing from them, is valid. -/
theorem C103_collection_valid [Zero K] (l : List (Bool × Name × Body K F)) (h0 : l ≠ []) (hl : ∀ x ∈ l, x.2.1 ≠ [] ∧ Allowed x.2.1 ∧ ¬ AutoLike x.2.1 ∧ ValidProgram x.2.2) (hd : (l.map (·.2.1)).Nodup) :
    ValidProgram ((Body.done : Body K F).addAll l) := by
  have key : ∀ (l : List (Bool × Name × Body K F)) (b : Body K F), ValidProgram b → (∀ x ∈ l, NewSub b x.2.1 ∧ ValidProgram x.2.2) → (l.map (·.2.1)).Nodup → ValidProgram (b.addAll l) := by
    intro l
    induction l with
    | nil => exact fun b hb _ _ => hb
    | cons x l ih =>
      intro b hb hl hd
      rw [List.map_cons, List.nodup_cons] at hd
      refine ih (b.addApart x.1 x.2.1 x.2.2) (C103_apart_valid _ _ _ _ hb (hl x (by simp)).1 (hl x (by simp)).2) (fun y hy => ?_) hd.2
      obtain ⟨g1, g2⟩ := hl y (by simp [hy])
      refine ⟨⟨g1.nonEmpty, g1.allowed, g1.notAuto, ?_, by rw [locals_addApart]; exact g1.newVar⟩, g2⟩
      rw [subs_addApart, List.map_append, List.mem_append]
      rintro (h | h)
      · exact g1.newSub h
      · simp only [List.map_cons, List.map_nil, List.mem_singleton] at h
        exact hd.1 (h ▸ List.mem_map.2 ⟨y, hy, rfl⟩)
  cases l with
  | nil => exact absurd rfl h0
  | cons x l =>
    rw [List.map_cons, List.nodup_cons] at hd
    obtain ⟨a1, a2, a3, a4⟩ := hl x (by simp)
    refine key l ((Body.done : Body K F).addApart x.1 x.2.1 x.2.2) (C103_wrapped_valid _ _ _ a1 a2 a3 a4) (fun y hy => ?_) hd.2
    obtain ⟨g1, g2, g3, g4⟩ := hl y (by simp [hy])
    refine ⟨⟨g1, g2, g3, ?_, by rw [locals_addApart]; simp [Local.sources, Body.locals, Body.stmts]⟩, g4⟩
    rw [subs_addApart]
    simp only [Body.subs, List.nil_append, List.map_cons, List.map_nil, List.mem_singleton]
    exact fun e => hd.1 (e ▸ List.mem_map.2 ⟨y, hy, rfl⟩)

variable [Field K] [DecidableEq K]

/-- **C103.** Add a valid program to a valid program as a submodel with a new name, nothing promoted: run and compile both programs and their combination.  What must be given in the combination is what must be given in its parts, and if the
same values are given, both parts compute in the combination what they compute on their own, whatever the functions mean. -/
theorem C103_apart_same (b sub : Body K F) (i : Bool) (n : Name) (hv : ValidProgram b) (hn : NewSub b n) (hs : ValidProgram sub) (hmax : b.Assigns ∨ sub.Assigns ∨ (b.addApart i n sub).Assigns → (b.addApart i n sub).maxObjects ≤ 63 ^ 4) :
    ∃ objs1 root1 objs2 root2 objs root, runProgram b = .ok (objs1, root1) ∧ runProgram sub = .ok (objs2, root2) ∧ runProgram (b.addApart i n sub) = .ok (objs, root) ∧
      (objs1.length ≤ 63 ^ 4 → objs2.length ≤ 63 ^ 4 → objs.length ≤ 63 ^ 4 → ∀ order : List Nat → List Nat, (∀ l x, x ∈ order l ↔ x ∈ l) →
      ∀ fuel, (∀ path c, BAt (b.addApart i n sub) path c → (c.locals.outputs ++ c.locals.declared).length + max (max objs1.length objs2.length) objs.length ≤ fuel) →
      ∃ rep1 rep2 rep, compile (objects objs1) fuel order root1 = .ok rep1 ∧ compile (objects objs2) fuel order root2 = .ok rep2 ∧ compile (objects objs) fuel order root = .ok rep ∧
        ∃ (f1 f2 f : Nat → Nat) (node1 node2 node : List Name → Nat → Nat), ∀ (P : Power K) (den : F → List (Val K) → Nat → Val K) (σ1 σ2 σ : Env (Val K)),
          let value1 := fun path x => execAll rep1.graph ⟨fun i => decide ((objects objs1 i).kind = .op), fun i => (objects objs1 i).deps.map f1, opMeaning P den objs1⟩ σ1 rep1.sorted (node1 path x)
          let value2 := fun path x => execAll rep2.graph ⟨fun i => decide ((objects objs2 i).kind = .op), fun i => (objects objs2 i).deps.map f2, opMeaning P den objs2⟩ σ2 rep2.sorted (node2 path x)
          let value := fun path x => execAll rep.graph ⟨fun i => decide ((objects objs i).kind = .op), fun i => (objects objs i).deps.map f, opMeaning P den objs⟩ σ rep.sorted (node path x)
          Solution P den b value1 ∧ Solution P den sub value2 ∧ Solution P den (b.addApart i n sub) value ∧
          (∀ path x, GivenVar (b.addApart i n sub) path x ↔ GivenVar b path x ∨ ∃ q, path = n :: q ∧ GivenVar sub q x) ∧
          (∀ path x, GivenVar b path x → value1 path x = σ1 (node1 path x)) ∧ (∀ path x, GivenVar sub path x → value2 path x = σ2 (node2 path x)) ∧
          (∀ path x, GivenVar (b.addApart i n sub) path x → value path x = σ (node path x)) ∧
          ((∀ path x, GivenVar b path x → σ (node path x) = σ1 (node1 path x)) → ∀ path c, BAt b path c → ∀ x, c.Live x → value path x = value1 path x) ∧
          ((∀ path x, GivenVar sub path x → σ (node (n :: path) x) = σ2 (node2 path x)) → ∀ path c, BAt sub path c → ∀ x, c.Live x → value (n :: path) x = value2 path x)) := by
  have A := apart_of_valid i hv hn hs
  have hv' := A.validProgram
  have hm : (b.addApart i n sub).maxObjects = b.maxObjects + (1 + sub.maxObjects) := by
    simp [Body.addApart, maxObjects_append, Body.maxObjects]
  obtain ⟨objs1, root1, a1, a2⟩ := C74_valid_programs_compute b hv fun h => by have := hmax (Or.inl h); omega
  obtain ⟨objs2, root2, b1, b2⟩ := C74_valid_programs_compute sub hs fun h => by have := hmax (Or.inr (Or.inl h)); omega
  obtain ⟨objs, root, c1, c2⟩ := C74_valid_programs_compute _ hv' fun h => hmax (Or.inr (Or.inr h))
  refine ⟨objs1, root1, objs2, root2, objs, root, a1, b1, c1, fun hn1 hn2 hn3 order ho fuel hf => ?_⟩
  obtain ⟨rep1, d1, f1, node1, e1⟩ := a2 hn1 order ho fuel fun path c hc => by
    obtain ⟨c', g1, g2⟩ := A.first hc
    have := hf path c' g1
    rw [(Looks.of_stmts g2).locals]
    omega
  obtain ⟨rep2, d2, f2, node2, e2⟩ := b2 hn2 order ho fuel fun path c hc => by
    have := hf _ c (apart_second hc)
    omega
  obtain ⟨rep, d3, f, node, e3⟩ := c2 hn3 order ho fuel fun path c hc => by
    have := hf path c hc
    omega
  refine ⟨rep1, rep2, rep, d1, d2, d3, f1, f2, f, node1, node2, node, fun P den σ1 σ2 σ => ?_⟩
  obtain ⟨s1, s2, s3⟩ := e1 P den σ1
  obtain ⟨t1, t2, t3⟩ := e2 P den σ2
  obtain ⟨u1, u2, _⟩ := e3 P den σ
  refine ⟨s1, t1, u1, fun path x => A.given_iff, s2, t2, u2, fun he => ?_, fun he => ?_⟩
  · exact s3 _ (A.solution_first u1) fun path x hg => (u2 _ _ (A.given_first hg)).trans (he path x hg)
  · exact t3 _ (Solution.sub hv' (apart_second (.here sub)) u1) fun path x hg => (u2 _ _ (A.given_second hg)).trans (he path x hg)

/-! ### Example: the program `exMain` twice -/

theorem exMain_new : NewSub exMain "k".toList := by
  refine ⟨by decide, ?_, ?_, by decide +kernel, by decide +kernel⟩
  · intro c hc
    simp at hc
    subst hc
    decide
  · exact fun h => absurd h.1 (by decide)

example : ValidProgram (exMain.addApart false "k".toList exMain) ∧ ¬ (exMain.addApart false "k".toList exMain).Assigns := by
  refine ⟨C103_apart_valid _ _ _ _ exMain_valid exMain_new exMain_valid, ?_⟩
  rintro ⟨path, c, m, z, key, x, h1, h2⟩
  rcases (apart_of_valid false exMain_valid exMain_new exMain_valid).split h1 with ⟨c', g1, g2, _⟩ | ⟨q, rfl, g1⟩
  · exact exMain_plain ⟨path, c', m, z, key, x, g1, by unfold Body.Has at *; rw [← g2]; exact h2⟩
  · exact exMain_plain ⟨q, c, m, z, key, x, g1, h2⟩

end Csdl.Prog
