import Verif.Proofs.OneModel
import Verif.Props.Library
/-
C84: programs of one model.  If such a program runs, then its representation is built.
-/
namespace Csdl.Prog
open Csdl Csdl.Arith
variable {K F : Type}

theorem oneModel_at {b : Body K F} (hs : b.subs = []) {path : List Name} {b' : Body K F} (h : BAt b path b') : path = [] ∧ b' = b := by
  cases h with
  | here => exact ⟨rfl, rfl⟩
  | down h _ => rw [hs] at h; cases h

theorem toSubs_nil : ∀ {b : Body K F}, b.subs = [] → b.toSubs = .nil
  | .done, _ => rfl
  | .stmt _ rest, h => toSubs_nil (b := rest) h
  | .add _ _ _ _ _, h => by simp [Body.subs] at h

theorem oneModel_promoted {l : Local} {path : List Name} {k : VarKind} {v : VarInfo} {p : Name} (h : PromotedAs (.mk l .nil) path k v p) : path = [] ∧ v ∈ l.vars k ∧ v.name = p := by
  cases h with
  | here h => exact ⟨rfl, h, rfl⟩
  | up h _ _ => cases h
  | stay h _ _ => cases h

/-- in one model, only declared variables share names -/
theorem named_unique {b : Body K F} (hg : GoodNames b) {x y : Nat} {name : Name} (hx : b.Named x name) (hy : b.Named y name) :
    x = y ∨ (∃ s, (x, name, s) ∈ (b.stmts 0).filterMap declaredOf) ∧ ∃ s, (y, name, s) ∈ (b.stmts 0).filterMap declaredOf := by
  let l : List (Name × Nat) := ((b.stmts 0).filterMap inputOf).map (fun x => (x.2.1, x.1)) ++ ((b.stmts 0).filterMap outputOf).map (fun x => (x.2, x.1))
  have hl : l.map (·.1) = b.locals.sources.map VarInfo.name := by simp [l, Local.sources, Body.locals, Function.comp_def]
  have hnd : (l.map (·.1)).Nodup := by rw [hl]; exact hg.sources [] b (.here b)
  have hcase : ∀ {x : Nat}, b.Named x name → (name, x) ∈ l ∨ ∃ s, (x, name, s) ∈ (b.stmts 0).filterMap declaredOf := by
    rintro x (⟨s, h | h⟩ | h)
    · exact .inl (List.mem_append_left _ (List.mem_map.2 ⟨_, h, rfl⟩))
    · exact .inr ⟨s, h⟩
    · exact .inl (List.mem_append_right _ (List.mem_map.2 ⟨_, h, rfl⟩))
  have hdis : ∀ {x y : Nat} {s : Shape}, (name, x) ∈ l → (y, name, s) ∈ (b.stmts 0).filterMap declaredOf → False := by
    intro x y s h1 h2
    refine (hg.declared [] b (.here b) ⟨name, s⟩ (List.mem_map.2 ⟨_, h2, rfl⟩)).2 ?_
    rw [← hl]
    exact List.mem_map.2 ⟨_, h1, rfl⟩
  rcases hcase hx with h | ⟨s, h⟩ <;> rcases hcase hy with h' | ⟨s', h'⟩
  · exact .inl (congrArg Prod.snd (List.inj_on_of_nodup_map hnd h h' rfl))
  · exact (hdis h h').elim
  · exact (hdis h' h).elim
  · exact .inr ⟨⟨s, h⟩, s', h'⟩

theorem rank_declared {b : Body K F} {x : Nat} {name : Name} {s : Shape} (h : (x, name, s) ∈ (b.stmts 0).filterMap declaredOf) : rank b x = 0 := by
  obtain ⟨⟨n, t⟩, h1, h2⟩ := List.mem_filterMap.1 h
  cases t <;> simp only [declaredOf, reduceCtorEq, Option.some.injEq, Prod.mk.injEq] at h2
  obtain ⟨rfl, rfl, rfl⟩ := h2
  unfold rank
  rw [if_pos ⟨_, _, _, _, .refl _, h1⟩]

variable [Zero K]

/-- **C84.** A program of one model, without connections, in which outputs assembled from parts are used only when they are complete, is valid if its method is fine (C74) and its names are good: it is never circular. -/
theorem C84_one_model_valid (b : Body K F) (h : OneModel b) (hm : MethodOk b) (hg : GoodNames b) : ValidProgram b := by
  have hsub := toSubs_nil h.subs
  have hiss : issuedPost Local.connections b.toModel = [] := by simp [Body.toModel, hsub, issuedPost, issuedPostSubs, h.connections]
  have hpr : ∀ {path : List Name} {k : VarKind} {v : VarInfo} {p : Name}, PromotedAs b.toModel path k v p → path = [] ∧ v.name = p := by
    intro path k v p hp
    unfold Body.toModel at hp
    rw [hsub] at hp
    exact ⟨(oneModel_promoted hp).1, (oneModel_promoted hp).2.2⟩
  have hname : ∀ {path : List Name} {x : Nat} {p : Name}, HasName b path x p → b.Named x p := by
    rintro path x p ⟨b', name, k, w, h1, _, h3, h4, rfl⟩
    obtain ⟨rfl, rfl⟩ := oneModel_at h.subs h1
    rwa [(hpr h4).2] at h3
  have hsame : ∀ q r : List Name × Nat, Relation.EqvGen (Same b) q r → rank b q.2 = rank b r.2 := by
    intro q r hq
    induction hq with
    | rel q r hq =>
      cases hq with
      | name p h1 h2 =>
        rcases named_unique hg (hname h1) (hname h2) with e | ⟨⟨s, e1⟩, s', e2⟩
        · simp only [e]
        · simp only [rank_declared e1, rank_declared e2]
      | connection path b' s t p q hb hc =>
        obtain ⟨_, rfl⟩ := oneModel_at h.subs hb
        rw [h.connections] at hc
        cases hc
      | «alias» b' hb _ _ ha =>
        obtain ⟨_, rfl⟩ := oneModel_at h.subs hb
        exact rank_alias ha
    | refl => rfl
    | symm _ _ _ ih => exact ih.symm
    | trans _ _ _ _ _ ih1 ih2 => exact ih1.trans ih2
  have hfeeds : ∀ q r : List Name × Nat, Feeds b q r → rank b q.2 < rank b r.2 := by
    rintro ⟨path, x⟩ ⟨path', y⟩ (⟨b', n, s, _, hb, h1, h2, h3, h4, _, h5⟩ | ⟨b', name, shape, val, key, _, hb, h1, h2⟩)
    · obtain ⟨_, rfl⟩ := oneModel_at h.subs hb
      exact rank_operand hm h.complete h1 h2 h3 h4 h5
    · obtain ⟨_, rfl⟩ := oneModel_at h.subs hb
      exact rank_assigned hm h.complete h1 h2
  refine ⟨?_, hg, ?_, ?_, ?_, ?_, ?_, ⟨?_, ?_⟩, ?_⟩
  · intro path b' hb
    obtain ⟨_, rfl⟩ := oneModel_at h.subs hb
    exact hm
  · intro path b' hb p path1 v1 path2 v2 h1 h2
    obtain ⟨_, rfl⟩ := oneModel_at h.subs hb
    rw [(hpr h1).1, (hpr h2).1]
  · intro path b' hb p k1 path1 v1 k2 path2 v2 h1 h2 hne
    obtain ⟨_, rfl⟩ := oneModel_at h.subs hb
    rw [(hpr h1).1, (hpr h2).1] at hne
    exact absurd rfl hne
  · intro path b' hb n q sub hs
    obtain ⟨_, rfl⟩ := oneModel_at h.subs hb
    rw [h.subs] at hs
    cases hs
  · intro path b' a c hb hc
    obtain ⟨_, rfl⟩ := oneModel_at h.subs hb
    rw [h.connections] at hc
    cases hc
  · rw [hiss]; exact .nil
  · rw [hiss]; simp
  · rw [hiss]; exact .nil
  · rintro ⟨q, hq⟩
    have : ∀ q r : List Name × Nat, Relation.TransGen (fun a c => ∃ a', Relation.EqvGen (Same b) a a' ∧ Feeds b a' c) q r → rank b q.2 < rank b r.2 := by
      intro q r hq
      induction hq with
      | single hq => obtain ⟨a', h1, h2⟩ := hq; rw [hsame _ _ h1]; exact hfeeds _ _ h2
      | tail _ hq ih => obtain ⟨a', h1, h2⟩ := hq; exact ih.trans (by rw [hsame _ _ h1]; exact hfeeds _ _ h2)
    exact absurd (this q q hq) (Nat.lt_irrefl _)

/-! ### with custom operations, implicit operations, optimisation declarations, and the functions of the library -/

section
variable {G I : Type} {K : Type} [Field K] [DecidableEq K]

/-- The names of the constraints and of the objective are names of inputs, outputs or declared variables of the model.  (Of design variables this is checked when they are added.) -/
def DeclaredKnown (b : XBody K F G I) : Prop :=
  ∀ n s name d, (n, s) ∈ b.stmts 0 → s.constraint? = some (name, d) ∨ s.objective? = some (name, d) → ∃ v ∈ (b.low 0).locals.sources ++ (b.low 0).locals.declared, v.name = name

omit [DecidableEq K] in
theorem xtoSubs_nil : ∀ {b : XBody K F G I}, b.subs = [] → b.toSubs = .nil
  | .done, _ => rfl
  | .stmt _ rest, h => xtoSubs_nil (b := rest) h
  | .add _ _ _ _ _, h => by simp [XBody.subs] at h

/-- a list each of whose elements has a property that excludes earlier elements -/
theorem filterMap_pairwise {α β : Type} (f : α → Option β) (R : β → β → Prop) (l : List α) (h : ∀ P y P' b, l = P ++ y :: P' → f y = some b → ∀ a ∈ P.filterMap f, R a b) : (l.filterMap f).Pairwise R := by
  induction l using List.reverseRecOn with
  | nil => simp
  | append_singleton l y ih =>
    rw [List.filterMap_append, List.pairwise_append]
    refine ⟨ih fun P z P' b e hb a ha => h P z (P' ++ [y]) b (by rw [e]; simp) hb a ha, ?_, fun a ha b hb => ?_⟩
    · cases hy : f y <;> simp [hy]
    · obtain ⟨y', hy', hb'⟩ := List.mem_filterMap.1 hb
      rw [List.mem_singleton] at hy'
      subst hy'
      exact h l y' [] b (by simp) hb' a ha

omit [DecidableEq K] in
/-- the paths of other models do not matter -/
theorem oneModel_solution {b : Body K F} (hs : b.subs = []) {P : Power K} {den : F → List (Val K) → Nat → Val K} {ρ ρ' : List Name → Nat → Val K} (he : ρ [] = ρ' []) (h : Prog.Solution P den b ρ) : Prog.Solution P den b ρ' := by
  have hn : ∀ {path x p}, HasName b path x p → path = [] := by
    rintro path x p ⟨b', _, _, _, h1, _⟩
    exact (oneModel_at hs h1).1
  refine ⟨?_, ?_, ?_, ?_, ?_, ?_⟩
  · intro path b' hb n i h1 h2
    obtain ⟨rfl, rfl⟩ := oneModel_at hs hb
    rw [← he]; exact h.expr [] _ hb n i h1 h2
  · intro path b' hb n f args outs h1 j hj h2
    obtain ⟨rfl, rfl⟩ := oneModel_at hs hb
    rw [← he]; exact h.call [] _ hb n f args outs h1 j hj h2
  · intro path b' hb n x key h1 h2
    obtain ⟨rfl, rfl⟩ := oneModel_at hs hb
    rw [← he]; exact h.index [] _ hb n x key h1 h2
  · intro path b' hb y name shape val h1
    obtain ⟨rfl, rfl⟩ := oneModel_at hs hb
    rw [← he]; exact h.output [] _ hb y name shape val h1
  · intro path x path' y p h1 h2
    have e1 := hn h1
    have e2 := hn h2
    subst e1 e2
    rw [← he]; exact h.shared [] x [] y p h1 h2
  · intro path b' hb s t p q h1 h2 h3 path1 x path2 y h4 h5
    have e1 := hn h4
    have e2 := hn h5
    subst e1 e2
    rw [← he]; exact h.connected path b' hb s t p q h1 h2 h3 [] x [] y h4 h5

/-- **C84.** The same with custom operations, implicit operations and optimisation declarations, if the names of constraints and objective are known. -/
theorem C84_one_model_valid_full (b : XBody K F G I) (h : OneModel (b.low 0)) (hm : XMethodOk b) (hg : GoodNames (b.low 0)) (hk : DeclaredKnown b) : XValid b := by
  have hs : b.subs = [] := by
    have := h.subs
    rw [low_subs] at this
    exact List.map_eq_nil_iff.1 this
  have hat : ∀ {path : List Name} {b' : XBody K F G I}, XAt b path b' → path = [] ∧ b' = b := by
    intro path b' hb
    cases hb with
    | here => exact ⟨rfl, rfl⟩
    | down h _ => rw [hs] at h; cases h
  have hmod : b.toModel = .mk b.locals .nil := by unfold XBody.toModel; rw [xtoSubs_nil hs]
  have hpr : ∀ {k : VarKind} {v : VarInfo}, v ∈ b.locals.vars k → Denotes b.toModel v.name v.name := by
    intro k v hv
    exact .promoted (path := []) (k := k) (v := v) (by unfold XBody.toModel; exact .here hv)
  have hden : ∀ {x p : Name}, Denotes b.toModel x p → x = p := by
    intro x p hx
    rw [hmod] at hx
    cases hx with
    | promoted _ => rfl
    | full hp => obtain ⟨rfl, _, e⟩ := oneModel_promoted hp; exact e
  have hknown : ∀ {name : Name}, (∃ v ∈ (b.low 0).locals.sources ++ (b.low 0).locals.declared, v.name = name) → Denotes b.toModel name name := by
    rintro name ⟨v, hv, rfl⟩
    rcases List.mem_append.1 hv with hv | hv
    · exact hpr (k := .source) hv
    · exact hpr (k := .target) hv
  have hres : ∀ (sel : Local → List (Name × Nat)), (∀ k d, (k, d) ∈ sel b.locals → Denotes b.toModel k k) → NamesResolve b.toModel sel := by
    intro sel hsel path l subs k d hl hd
    obtain ⟨b', h1, h2⟩ := xat_of_at hl
    obtain ⟨rfl, rfl⟩ := hat h1
    have e : l = b'.locals := by unfold XBody.toModel at h2; cases h2; rfl
    subst e
    rw [h2]
    exact ⟨k, k, hsel k d hd, hsel k d hd⟩
  have hpw : ∀ (sel : Local → List (Name × Nat)), (sel b.locals).Pairwise (fun a c => a.1 ≠ c.1) → DeclaredOnce b.toModel sel := by
    intro sel hp
    unfold DeclaredOnce
    rw [hmod, issuedPre, issuedPreSubs, List.append_nil, List.pairwise_map]
    refine hp.imp fun {a c} hac n n' p h1 h2 h3 h4 => hac ?_
    rw [← hmod] at h1 h2 h3 h4
    have e1 := hden h1
    have e2 := hden h2
    have e3 := hden h3
    have e4 := hden h4
    simp only [fullName, List.foldr_nil] at e2 e4
    rw [e1, e2, ← e4, ← e3]
  refine ⟨?_, C84_one_model_valid (b.low 0) h hm.low hg, ⟨hres _ ?_, hpw _ ?_⟩, ⟨hres _ ?_, hpw _ ?_⟩, hres _ ?_, ?_⟩
  · intro path b' hb
    obtain ⟨_, rfl⟩ := hat hb
    exact hm.stmts
  · intro k d hd
    obtain ⟨⟨n, s⟩, h1, h2⟩ := List.mem_filterMap.1 (show (k, d) ∈ (b.stmts 0).filterMap _ from hd)
    cases s <;> simp only [XStmt.designVar?, reduceCtorEq, Option.some.injEq, Prod.mk.injEq] at h2
    obtain ⟨rfl, rfl⟩ := h2
    obtain ⟨P, P', hP⟩ := List.append_of_mem h1
    obtain ⟨⟨i, t, hi⟩, _⟩ := hm.stmts P _ P' hP
    refine hknown ⟨⟨_, t⟩, List.mem_append_left _ (List.mem_append_left _ (List.mem_map.2 ⟨(i, _, t), ?_, rfl⟩)), rfl⟩
    rw [low_stmts, hP]
    simp only [lowAll, List.flatMap_append, List.filterMap_append, List.mem_append]
    exact .inl hi
  · refine filterMap_pairwise _ _ _ ?_
    rintro P ⟨n, s⟩ P' ⟨k, d⟩ hP hy ⟨k', d'⟩ ha rfl
    cases s <;> simp only [XStmt.designVar?, reduceCtorEq, Option.some.injEq, Prod.mk.injEq] at hy
    obtain ⟨rfl, rfl⟩ := hy
    exact (hm.stmts P _ P' hP).2 d' ha
  · intro k d hd
    obtain ⟨⟨n, s⟩, h1, h2⟩ := List.mem_filterMap.1 (show (k, d) ∈ (b.stmts 0).filterMap _ from hd)
    exact hknown (hk n s k d h1 (.inl h2))
  · refine filterMap_pairwise _ _ _ ?_
    rintro P ⟨n, s⟩ P' ⟨k, d⟩ hP hy ⟨k', d'⟩ ha rfl
    cases s <;> simp only [XStmt.constraint?, reduceCtorEq, Option.some.injEq, Prod.mk.injEq] at hy
    obtain ⟨rfl, rfl⟩ := hy
    exact hm.stmts P _ P' hP d' ha
  · intro k d hd
    have hd : (k, d) ∈ ((b.stmts 0).filterMap fun y => y.2.objective?) := List.mem_of_mem_head? (by simpa [XBody.locals] using hd)
    obtain ⟨⟨n, s⟩, h1, h2⟩ := List.mem_filterMap.1 hd
    exact hknown (hk n s k d h1 (.inr h2))
  · rw [hmod, issuedPre, issuedPreSubs, List.append_nil, List.length_map]
    cases b.locals.objective <;> simp

/-- **C84.** If a program of one model, without connections, with outputs used only when they are complete, with good names and known names of constraints and objective, runs without error in a session, then its representation is built, without error,
and executing it computes the only solution with the given values of the variables that must be given. -/
theorem C84_one_model_programs_compute (pre : List (PObj K (Fun (LOp K) G I))) (b : LBody K G I) (done : List (PObj K (Fun (LOp K) G I))) (root : OModel) (hr : lrunFrom pre b = .ok (done, root)) :
    ∃ b', b.typed [] = .ok b' ∧ (OneModel (b'.low 0) → GoodNames (b'.low 0) → DeclaredKnown b' → XPlainAfter pre.length b' → ∀ objs, done <+: objs → Closed objs → objs.length ≤ 63 ^ 4 →
    ∀ order : List Nat → List Nat, (∀ l x, x ∈ order l ↔ x ∈ l) → ∀ fuel, (b'.locals.outputs ++ b'.locals.declared).length + objs.length ≤ fuel →
      ∃ rep, compile (xobjects objs) fuel order root = .ok rep ∧ ∃ (f : Nat → Nat) (node : Nat → Nat), ∀ (P : Power K) (den : Fun (LOp K) G I → List (Val K) → Nat → Val K) (σ0 : Env (Val K)),
        let value := fun x => execAll rep.graph ⟨fun i => decide ((xobjects objs i).kind = .op), fun i => (xobjects objs i).deps.map f, opMeaning P den objs⟩ σ0 rep.sorted (node x)
        Prog.Solution P den (b'.low 0) (fun _ => value) ∧ (∀ x, GivenVar (b'.low 0) [] x → value x = σ0 (node x)) ∧
        ∀ ρ : Nat → Val K, Prog.Solution P den (b'.low 0) (fun _ => ρ) → (∀ x, GivenVar (b'.low 0) [] x → ρ x = σ0 (node x)) → ∀ x, (b'.low 0).Live x → ρ x = value x) := by
  obtain ⟨b', hb, hr'⟩ := (C83_library_programs pre b _).1 hr
  refine ⟨b', hb, fun h1 hg hk hp objs hpre hcl hn order ho fuel hf => ?_⟩
  have hok := (C82_programs_run_iff pre b' hp).1 ⟨done, root, hr'⟩
  have hs : b'.subs = [] := by
    have := h1.subs
    rw [low_subs] at this
    exact List.map_eq_nil_iff.1 this
  have hv := C84_one_model_valid_full b' h1 (hok [] b' (.here _)) hg hk
  obtain ⟨done', root', e, h⟩ := C83_valid_programs_compute b b' hb hv pre hp
  rw [hr] at e
  cases e
  obtain ⟨rep, hc, f, node, h⟩ := h objs hpre hcl hn order ho fuel (by
    intro path c hc
    cases hc with
    | here => exact hf
    | down h _ => rw [hs] at h; cases h)
  refine ⟨rep, hc, f, node [], fun P den σ0 => ?_⟩
  obtain ⟨g1, g2, g3⟩ := h P den σ0
  exact ⟨oneModel_solution h1.subs (by rfl) g1, fun x hx => g2 [] x hx, fun ρ hρ hgv x hl => g3 (fun _ => ρ) hρ (fun path x hx => by
    obtain ⟨c, hc, _⟩ := hx.1
    obtain ⟨rfl, _⟩ := oneModel_at h1.subs hc
    exact hgv x hx) [] b' (.here _) x hl⟩

/-! ### Example -/

/-- `A = input (2,2)`, `v = input (2,)`, `w = solve(A, v)` (variables 2, 3, 4), `y = matvec(A, w)` (5), `n = pnorm(y)` (6), `out = create_output('out', (2,))` (7), `out[0:1] = n`, `r = out * out` (8);
a design variable and a constraint. -/
def exL : LBody ℚ Unit Unit :=
  .stmt (.base (.plain (.input "A".toList [2, 2] (fun _ => 1)))) (.stmt (.base (.plain (.input "v".toList [2] (fun _ => 1)))) (.stmt (.solve (.var 0) (.var 1)) (.stmt (.call .matvec [0, 4])
    (.stmt (.call (.pnorm 2 .none) [5]) (.stmt (.base (.plain (.output "out".toList [2] (fun _ => 7)))) (.stmt (.base (.plain (.assign 7 (.slice (some 0) (some 1) none) 6)))
      (.stmt (.base (.plain (.expr (.mul 7 7)))) (.stmt (.base (.plain (.register "r".toList 8))) (.stmt (.base (.designVar "v".toList 3)) (.stmt (.base (.constraint "out".toList 4)) .done))))))))))

/-- the same program with plain operations -/
def exLTyped : XBody ℚ (LOp ℚ) Unit Unit :=
  .stmt (.plain (.input "A".toList [2, 2] (fun _ => 1))) (.stmt (.plain (.input "v".toList [2] (fun _ => 1))) (.stmt (.plain (.call (.lib (.reshape [2, 1]) [[2]]) [1] [[2, 1]])) (.stmt (.plain (.call (.solveLinear none none [[2, 2], [2, 1]]) [0, 2] [[2, 1]]))
    (.stmt (.plain (.call (.lib (.reshape [2]) [[2, 1]]) [3] [[2]])) (.stmt (.plain (.call (.lib .matvec [[2, 2], [2]]) [0, 4] [[2]])) (.stmt (.plain (.call (.lib (.pnorm 2 .none) [[2]]) [5] [[1]]))
      (.stmt (.plain (.output "out".toList [2] (fun _ => 7))) (.stmt (.plain (.assign 7 (.slice (some 0) (some 1) none) 6)) (.stmt (.plain (.expr (.mul 7 7))) (.stmt (.plain (.register "r".toList 8))
        (.stmt (.designVar "v".toList 3) (.stmt (.constraint "out".toList 4) .done))))))))))))

theorem exL_typed : exL.typed [] = .ok exLTyped := by rfl

theorem exL_run : ∃ done root, lrunFrom [] exL = .ok (done, root) ∧ done.length = 18 := by
  obtain ⟨⟨objs, root⟩, h1, h⟩ := ok_of_check (x := lrunFrom [] exL) (P := fun q => decide (q.1.length = 18)) (by decide +kernel)
  exact ⟨objs, root, h1, by simpa using h⟩

theorem exL_plain : XPlainAfter 0 exLTyped := by
  refine ⟨by decide +kernel, fun path b' n s hb hs => ?_⟩
  have h1 : ∀ y ∈ exLTyped.stmts 0, ∀ name ∈ y.2.names y.1, ¬ AutoLike name := by decide +kernel
  cases hb with
  | here => exact h1 _ hs
  | down h _ => simp [exLTyped, XBody.subs] at h

theorem exL_good : GoodNames (exLTyped.low 0) := by
  constructor <;> intro path c hc <;> obtain ⟨rfl, rfl⟩ := oneModel_at (by rfl) hc <;> decide +kernel

/-- without unary plus and parts, every variable is only the same as itself -/
theorem alias_eq {K F : Type} {L : List (Nat × Stmt K F)} (h1 : ∀ y ∈ L, (∀ x, y.2 ≠ .expr (.pos x)) ∧ ∀ x k, y.2 ≠ .index x k) {x y : Nat} (h : Alias L x y) : x = y := by
  induction h with
  | refl => rfl
  | symm _ ih => exact ih.symm
  | trans _ _ ih1 ih2 => exact ih1.trans ih2
  | plus h => exact absurd rfl ((h1 _ h).1 _)
  | part h _ _ _ => exact absurd rfl ((h1 _ h).2 _ _)

theorem exL_stmts : (exLTyped.low 0).stmts 0 = [(0, .input "A".toList [2, 2] (fun _ => 1)), (1, .input "v".toList [2] (fun _ => 1)), (2, .call (.std (.lib (.reshape [2, 1]) [[2]])) [1] [[2, 1]]), (3, .call (.std (.solveLinear none none [[2, 2], [2, 1]])) [0, 2] [[2, 1]]),
    (4, .call (.std (.lib (.reshape [2]) [[2, 1]])) [3] [[2]]), (5, .call (.std (.lib .matvec [[2, 2], [2]])) [0, 4] [[2]]), (6, .call (.std (.lib (.pnorm 2 .none) [[2]])) [5] [[1]]), (7, .output "out".toList [2] (fun _ => 7)),
    (8, .assign 7 (.slice (some 0) (some 1) none) 6), (8, .expr (.mul 7 7)), (9, .register "r".toList 8)] := by rfl

theorem exL_one : OneModel (exLTyped.low 0) := by
  refine ⟨rfl, by decide +kernel, ?_⟩
  have hL := exL_stmts
  intro i j n m s z v a key h1 h2 h3 h4
  have e : z = a := alias_eq (by rw [hL]; simp) h4
  subst e
  rw [hL] at h1 h3
  have hj : j = 8 ∧ z = 7 := by
    have : j < 11 := (List.getElem?_eq_some_iff.1 h3).1
    interval_cases j <;> simp at h3
    exact ⟨rfl, h3.2.1.symm⟩
  obtain ⟨rfl, rfl⟩ := hj
  have : i < 11 := (List.getElem?_eq_some_iff.1 h1).1
  interval_cases i <;> simp at h1 <;> obtain ⟨_, rfl⟩ := h1 <;> simp [Stmt.operands] at h2 ⊢

theorem exL_known : DeclaredKnown exLTyped := by
  have h : ∀ y ∈ exLTyped.stmts 0, ∀ q ∈ y.2.constraint?.toList ++ y.2.objective?.toList, ∃ v ∈ (exLTyped.low 0).locals.sources ++ (exLTyped.low 0).locals.declared, v.name = q.1 := by decide +kernel
  intro n s name d hs hd
  refine h _ hs (name, d) ?_
  rcases hd with hd | hd <;> simp [hd]

/-- the hypotheses of C84 and C83 are met: the program runs, so its representation is built and has a unique solution; in it `A w = v` -/
example : ∃ done root, lrunFrom [] exL = .ok (done, root) ∧ OneModel (exLTyped.low 0) ∧ GoodNames (exLTyped.low 0) ∧ DeclaredKnown exLTyped ∧ XPlainAfter 0 exLTyped ∧ XValid exLTyped ∧
    ∃ rep, compile (xobjects done) 30 id root = .ok rep ∧ rep.designVars = [("v".toList, 3)] ∧
    ∃ (f : Nat → Nat) (node : Nat → Nat), ∀ (P : Power ℚ) (den : Fun (LOp ℚ) Unit Unit → List (Val ℚ) → Nat → Val ℚ) (σ0 : Env (Val ℚ)),
      ∃ ρ : Nat → Val ℚ, ρ = (fun x => execAll rep.graph ⟨fun i => decide ((xobjects done i).kind = .op), fun i => (xobjects done i).deps.map f, opMeaning P den done⟩ σ0 rep.sorted (node x)) ∧
        ρ 5 = den (.std (.lib .matvec [[2, 2], [2]])) [ρ 0, ρ 4] 0 ∧ ρ 7 [0] = ρ 6 [0] ∧ ρ 7 [1] = 7 := by
  obtain ⟨done, root, hr, hl⟩ := exL_run
  have hcl : Closed done := by
    obtain ⟨b', _, hr'⟩ := (C83_library_programs [] exL _).1 hr
    exact runFrom_closed (by simp [Closed]) (xrunFrom_low hr').1
  obtain ⟨b', hb, h⟩ := C84_one_model_programs_compute [] exL done root hr
  rw [exL_typed] at hb
  cases hb
  have hv : XValid exLTyped := by
    obtain ⟨b', hb, hr'⟩ := (C83_library_programs [] exL _).1 hr
    rw [exL_typed] at hb
    cases hb
    exact C84_one_model_valid_full exLTyped exL_one ((C82_programs_run_iff [] exLTyped exL_plain).1 ⟨done, root, hr'⟩ [] _ (.here _)) exL_good exL_known
  obtain ⟨rep, hc, f, node, h⟩ := h exL_one exL_good exL_known exL_plain done List.prefix_rfl hcl (by rw [hl]; decide) id (fun _ _ => Iff.rfl) 30 (by rw [hl]; decide +kernel)
  have hdv : rep.designVars = [("v".toList, 3)] := by
    have h1 : okCheck (lrunFrom [] exL) (fun q => okCheck (compile (xobjects q.1) 30 id q.2) fun rep => decide (rep.designVars = [("v".toList, 3)])) = true := by decide +kernel
    rw [hr] at h1
    simp only [okCheck, hc] at h1
    simpa using h1
  refine ⟨done, root, hr, exL_one, exL_good, exL_known, exL_plain, hv, rep, hc, hdv, f, node, fun P den σ0 => ⟨_, rfl, ?_⟩⟩
  suffices key : ∀ ρ : Nat → Val ℚ, Prog.Solution P den (exLTyped.low 0) (fun _ => ρ) → ρ 5 = den (.std (.lib .matvec [[2, 2], [2]])) [ρ 0, ρ 4] 0 ∧ ρ 7 [0] = ρ 6 [0] ∧ ρ 7 [1] = 7 from key _ (h P den σ0).1
  intro ρ sol
  have hL : (exLTyped.low 0).stmts 0 = _ := exL_stmts
  have l8 : (exLTyped.low 0).Live 8 := .output (name := "r".toList) (by rw [hL]; simp [outputOf, List.filterMap_cons])
  have l6 : (exLTyped.low 0).Live 6 := .assigned (n := 8) (z := 7) (key := .slice (some 0) (some 1) none) (by unfold Body.Has; rw [hL]; simp)
  have l5 : (exLTyped.low 0).Live 5 := .operand (n := 6) l6 (s := .call (.std (.lib (.pnorm 2 .none) [[2]])) [5] [[1]]) (by unfold Body.Has; rw [hL]; simp) (Nat.le_refl _) (by simp [Stmt.count]) (by simp [Stmt.operands])
  refine ⟨?_, ?_, ?_⟩
  · exact sol.call [] _ (.here _) 5 (.std (.lib .matvec [[2, 2], [2]])) [0, 4] [[2]] (by unfold Body.Has; rw [hL]; simp) 0 (by simp) l5
  · exact (sol.output [] _ (.here _) 7 "out".toList [2] (fun _ => 7) (by unfold Body.Has; rw [hL]; simp)).1 (.slice (some 0) (some 1) none) 6 [0] [1]
      ⟨8, 7, by unfold Body.Has; rw [hL]; simp, .refl _⟩ (by rfl) [0] 0 (by rfl)
  · refine (sol.output [] _ (.here _) 7 "out".toList [2] (fun _ => 7) (by unfold Body.Has; rw [hL]; simp)).2 [1] ?_
    rintro key x idx shp ⟨n, z, h1, _⟩ h2
    unfold Body.Has at h1
    rw [hL] at h1
    simp only [List.mem_cons, Prod.mk.injEq, reduceCtorEq, and_false, false_or, or_false, List.not_mem_nil, Stmt.assign.injEq] at h1
    obtain ⟨_, _, rfl, _⟩ := h1
    have e : tgtIndices [2] (.slice (some 0) (some 1) none) = .ok ([0], [1]) := by rfl
    rw [e] at h2
    cases h2
    decide

/-- a call with shapes that do not match is an error, also in a submodel -/
example : lrunFrom [] (.add false "s".toList none (.stmt (.base (.plain (.input "A".toList [2, 2] (fun _ => 1)))) (.stmt (.base (.plain (.input "v".toList [3] (fun _ => 1)))) (.stmt (.call .matvec [0, 1]) (.stmt (.base (.plain (.register "y".toList 2))) .done)))) .done : LBody ℚ Unit Unit)
    = .error .value := by rfl

/-! ### The hypotheses are needed -/

/-- the representation is not built, because of a cycle -/
def isSortErr : Except BuildErr Csdl.Rep → Bool
  | .error (.sort _) => true
  | _ => false

theorem of_isSortErr {x : Except BuildErr Csdl.Rep} (h : isSortErr x = true) : ∃ e, x = .error (.sort e) := by
  rcases x with e | _
  · cases e <;> first | cases h; done | exact ⟨_, rfl⟩
  · cases h

/-- **C84, outputs used before they are complete.**  `y = create_output('y', (2,)); a = y[0]; y[1] = a * 2`: the program runs, but its representation is not built: there is a cycle. -/
theorem C84_incomplete_output_circular : ∃ objs root e, runProgram (K := ℚ) (F := Unit) (.stmt (.output "y".toList [2] fun _ => 0) (.stmt (.index 0 (.int 0)) (.stmt (.expr (.mulc 1 (.num 2))) (.stmt (.assign 0 (.int 1) 2) .done)))) = .ok (objs, root) ∧
    compile (objects objs) 20 id root = .error (.sort e) := by
  obtain ⟨⟨objs, root⟩, h1, h⟩ := ok_of_check (x := runProgram (K := ℚ) (F := Unit) (.stmt (.output "y".toList [2] fun _ => 0) (.stmt (.index 0 (.int 0)) (.stmt (.expr (.mulc 1 (.num 2))) (.stmt (.assign 0 (.int 1) 2) .done)))))
    (P := fun q => isSortErr (compile (objects q.1) 20 id q.2)) (by decide +kernel)
  obtain ⟨e, he⟩ := of_isSortErr h
  exact ⟨objs, root, e, h1, he⟩

/-- **C84, connections.**  `v = declare_variable('v'); y = 2 * v; register_output('y', y); connect('y', 'v')`: the program runs, but its representation is not built. -/
theorem C84_connected_circular : ∃ objs root e, runProgram (K := ℚ) (F := Unit) (.stmt (.declare "v".toList [1] none) (.stmt (.expr (.mulc 0 (.num 2))) (.stmt (.register "y".toList 1) (.stmt (.connect "y".toList "v".toList) .done)))) = .ok (objs, root) ∧
    compile (objects objs) 20 id root = .error (.sort e) := by
  obtain ⟨⟨objs, root⟩, h1, h⟩ := ok_of_check (x := runProgram (K := ℚ) (F := Unit) (.stmt (.declare "v".toList [1] none) (.stmt (.expr (.mulc 0 (.num 2))) (.stmt (.register "y".toList 1) (.stmt (.connect "y".toList "v".toList) .done)))))
    (P := fun q => isSortErr (compile (objects q.1) 20 id q.2)) (by decide +kernel)
  obtain ⟨e, he⟩ := of_isSortErr h
  exact ⟨objs, root, e, h1, he⟩

end

end Csdl.Prog
