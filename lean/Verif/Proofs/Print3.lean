import Verif.Proofs.Print2
/-
Adding an output to a valid program.
-/
namespace Csdl.Prog
open Csdl
variable {K F : Type}

/-! ### the method -/
section method
variable [Zero K] {f : F} {args : List Nat} {sh : Shape} {nm : Name} {c c' : Body K F}

/-- variables that are one and the same were created -/
theorem MethodOk.alias_lt (hm : MethodOk c) {y z : Nat} (h : Alias (c.stmts 0) y z) : y = z ∨ (y < numVars (c.stmts 0) ∧ z < numVars (c.stmts 0)) := by
  induction h with
  | refl => exact Or.inl rfl
  | symm _ ih => rcases ih with rfl | ⟨h1, h2⟩ <;> [exact Or.inl rfl; exact Or.inr ⟨h2, h1⟩]
  | trans _ _ h1 h2 =>
    rcases h1 with rfl | h1
    · exact h2
    · rcases h2 with rfl | h2
      · exact Or.inr h1
      · exact Or.inr ⟨h1.1, h2.2⟩
  | @plus x y h =>
    have h' : c.Has x (.expr (.pos y)) := h
    have := hm.operand_lt h' (y := y) (by simp [Stmt.operands, Arith.Instr.first])
    have := has_bound h'
    simp only [Stmt.count] at this
    exact Or.inr ⟨by omega, by omega⟩
  | @part x y u v k l h1 h2 _ _ _ =>
    have h1' : c.Has x (.index u k) := h1
    have h2' : c.Has y (.index v l) := h2
    have := has_bound h1'
    have := has_bound h2'
    simp only [Stmt.count] at *
    exact Or.inr ⟨by omega, by omega⟩

theorem alias_call {L : List (Nat × Stmt K F)} {N : Nat} (hN : ∀ {n u : Nat} {k : Key}, (n, Stmt.index u k) ∈ L → u < numVars L) {y z : Nat} (h : Alias (L ++ [(N, .call f args [sh])]) y z) : Alias L y z := by
  have hsh : ∀ {n u : Nat} {k : Key}, (n, Stmt.index u k) ∈ L → (shapesOf (L ++ [(N, .call f args [sh])])).getD u [] = (shapesOf L).getD u [] := by
    intro n u k h
    have e : shapesOf (L ++ [(N, .call f args [sh])]) = shapesOf L ++ [sh] := by simp [shapesOf, List.foldl_append, stepShapes]
    rw [e, List.getD_eq_getElem?_getD, List.getD_eq_getElem?_getD, List.getElem?_append_left (by rw [Elem.shapes_length]; exact hN h)]
  induction h with
  | refl => exact .refl _
  | symm _ ih => exact ih.symm
  | trans _ _ h1 h2 => exact h1.trans h2
  | plus h =>
    simp only [List.mem_append, List.mem_singleton, Prod.mk.injEq, reduceCtorEq, and_false, or_false] at h
    exact .plus h
  | part h1 h2 _ h4 ih =>
    simp only [List.mem_append, List.mem_singleton, Prod.mk.injEq, reduceCtorEq, and_false, or_false] at h1 h2
    rw [hsh h1, hsh h2] at h4
    exact .part h1 h2 ih h4

theorem split_two {α : Type} {A L L' : List α} {u v y : α} (h : A ++ [u, v] = L ++ y :: L') : (∃ M, A = L ++ y :: M) ∨ (L = A ∧ y = u) ∨ (L = A ++ [u] ∧ y = v) := by
  rcases List.append_eq_append_iff.1 h with ⟨M, h1, h2⟩ | ⟨M, h1, h2⟩
  · cases M with
    | nil => simp only [List.append_nil, List.nil_append, List.cons.injEq] at h1 h2; exact Or.inr (Or.inl ⟨h1, h2.1.symm⟩)
    | cons m M =>
      simp only [List.cons_append, List.cons.injEq] at h2
      obtain ⟨rfl, h2⟩ := h2
      cases M with
      | nil => simp only [List.nil_append, List.cons.injEq] at h2; exact Or.inr (Or.inr ⟨h1, h2.1.symm⟩)
      | cons m' M => 
        simp only [List.cons_append, List.cons.injEq] at h2
        simp at h2
  · cases M with
    | nil => simp only [List.append_nil, List.nil_append, List.cons.injEq] at h1 h2; exact Or.inr (Or.inl ⟨h1.symm, h2.1⟩)
    | cons m M =>
      simp only [List.cons_append, List.cons.injEq] at h2
      obtain ⟨rfl, h2⟩ := h2
      exact Or.inl ⟨M, h1⟩

theorem Grew.methodOk (g : Grew f args sh nm c c') (hm : MethodOk c) (ha : ∀ a ∈ args, c.Live a) (hal : Allowed nm) (hf : ∀ n s, c.Has n s → s.defines ≠ some nm) : MethodOk c' where
  stmts := by
    intro L y L' he
    rw [g.stmts] at he
    rcases split_two he with ⟨M, e⟩ | ⟨rfl, rfl⟩ | ⟨rfl, rfl⟩
    · exact hm.stmts L y M e
    · exact fun x hx => hm.live_lt (ha x hx)
    · have hi : ∀ {n u : Nat} {k : Key}, (n, Stmt.index u k) ∈ c.stmts 0 → u < numVars (c.stmts 0) := fun {n u k} h => by
        have h' : c.Has n (.index u k) := h
        have := hm.operand_lt h' (y := u) (by simp [Stmt.operands])
        have := has_bound h'
        omega
      refine ⟨hal, by simp [numVars, Stmt.count], ⟨_, .call f args [sh], numVars (c.stmts 0), by simp, trivial, le_refl _, by simp [Stmt.count], .refl _⟩, ?_, ?_⟩
      · intro x' name' h' h
        simp only [List.filterMap_append, List.mem_append] at h'
        rcases h' with h' | h'
        · have hlt := hm.named_lt (Or.inr h')
          rcases hm.alias_lt (alias_call hi h) with rfl | h
          · omega
          · omega
        · simp [outputOf] at h'
      · intro y hy
        simp only [List.mem_append, List.mem_singleton] at hy
        rcases hy with hy | rfl
        · exact hf y.1 y.2 hy
        · simp [Stmt.defines]
  assigned := by
    intro y name shape val hy
    rcases g.has' hy with hy | ⟨_, h⟩ | ⟨_, h⟩
    · obtain ⟨key, x, h⟩ := hm.assigned y name shape val hy
      exact ⟨key, x, (g.assigned hm).2 h⟩
    · cases h
    · cases h
  subNames := g.subs ▸ hm.subNames
  subAllowed := g.subs ▸ hm.subAllowed
  nonEmpty := by rw [g.localOutputs hm]; simp

theorem Grew.vars (g : Grew f args sh nm c c') (hm : MethodOk c) {k : VarKind} {w : VarInfo} : w ∈ c'.locals.vars k ↔ w ∈ c.locals.vars k ∨ (k = .source ∧ w = ⟨nm, sh⟩) := by
  cases k with
  | source =>
    simp only [Local.vars, Local.sources, g.localInputs, g.localOutputs hm, List.mem_append, List.mem_singleton, true_and]
    exact or_assoc.symm
  | target => simp [Local.vars, g.localDeclared]

/-- no variable of the method has the new name -/
theorem MethodOk.not_var (hm : MethodOk c) (hf : ∀ n s, c.Has n s → s.defines ≠ some nm) : ∀ w ∈ c.locals.sources ++ c.locals.declared, w.name ≠ nm := by
  rintro w hw rfl
  have : ∃ y, c.Named y w.name := by
    simp only [Local.sources, Body.locals, List.mem_append, List.mem_map] at hw
    rcases hw with (⟨x, hx, rfl⟩ | ⟨x, hx, rfl⟩) | ⟨x, hx, rfl⟩
    · exact ⟨x.1, Or.inl ⟨x.2.2, Or.inl hx⟩⟩
    · exact ⟨x.1, Or.inr hx⟩
    · exact ⟨x.1, Or.inl ⟨x.2.2, Or.inr hx⟩⟩
  obtain ⟨y, hy⟩ := this
  rcases hy with ⟨s, h | h⟩ | h
  · obtain ⟨⟨n, t⟩, h1, h2⟩ := List.mem_filterMap.1 h
    cases t <;> simp only [inputOf, Option.some.injEq, Prod.mk.injEq, reduceCtorEq] at h2
    exact hf n _ h1 (by simp [Stmt.defines, h2.2.1])
  · obtain ⟨⟨n, t⟩, h1, h2⟩ := List.mem_filterMap.1 h
    cases t <;> simp only [declaredOf, Option.some.injEq, Prod.mk.injEq, reduceCtorEq] at h2
    exact hf n _ h1 (by simp [Stmt.defines, h2.2.1])
  · obtain ⟨⟨n, t⟩, h1, h2⟩ := List.mem_filterMap.1 h
    cases t <;> simp only [outputOf, Option.some.injEq, Prod.mk.injEq, reduceCtorEq] at h2
    · exact hf n _ h1 (by simp [Stmt.defines, h2.2])
    · exact hf n _ h1 (by simp [Stmt.defines, h2.2])

end method

/-! ### the program -/

/-- an output is added to a valid program -/
structure Adding [Zero K] (f : F) (args : List Nat) (sh : Shape) (nm : Name) (c0 c0' b : Body K F) (path0 : List Name) (b' : Body K F) : Prop where
  valid : ValidProgram b
  rep : Replaced c0 c0' b path0 b'
  grew : Grew f args sh nm c0 c0'
  live : ∀ a ∈ args, c0.Live a
  new : NewOutput b b' path0 c0 nm

section adding
variable [Zero K] {f : F} {args : List Nat} {sh : Shape} {nm : Name} {c0 c0' b b' : Body K F} {path0 : List Name} (A : Adding f args sh nm c0 c0' b path0 b')
include A

theorem Adding.ok0 : MethodOk c0 := A.valid.methods path0 c0 A.rep.bat

theorem Adding.at {path : List Name} {c : Body K F} (hc : BAt b path c) : (∃ rest c', path0 = path ++ rest ∧ BAt b' path c' ∧ Replaced c0 c0' c rest c') ∨ (BAt b' path c ∧ ¬ path <+: path0) :=
  Replaced.at hc A.rep (fun path c hc => (A.valid.methods path c hc).subNames) A.grew.subs.symm

theorem Adding.nodup {path : List Name} {c : Body K F} (hc : BAt b' path c) : (c.subs.map (·.1)).Nodup := by
  have key : ∀ {b : Body K F} {path : List Name} {c : Body K F}, BAt b path c → ∀ {b1 : Body K F} {path0 : List Name}, Replaced c0' c0 b path0 b1 → (∀ path c, BAt b1 path c → (c.subs.map (·.1)).Nodup) → (c.subs.map (·.1)).Nodup := by
    intro b path c hc
    induction hc with
    | here b =>
      intro b1 path0 h hn
      cases path0 with
      | nil => obtain ⟨rfl, rfl⟩ := h.nil; rw [A.grew.subs]; exact hn [] _ (.here _)
      | cons n p =>
        obtain ⟨_, L1, L2, p', s, s', h1, h2, _⟩ := h.above rfl
        have := hn [] _ (.here _)
        rw [h2] at this
        rw [h1]
        simpa using this
    | @down b n p sub path c hm hc ih =>
      intro b1 path0 h hn
      rcases h.subs A.grew.subs hm with h1 | ⟨path', sub', rfl, h2, h3⟩
      · exact hn _ _ (.down h1 hc)
      · exact ih h3 fun path c hc => hn _ _ (.down h2 hc)
  exact key hc A.rep.symm fun path c hc => (A.valid.methods path c hc).subNames

theorem Adding.at' {path : List Name} {c' : Body K F} (hc : BAt b' path c') : (∃ rest c, path0 = path ++ rest ∧ BAt b path c ∧ Replaced c0 c0' c rest c') ∨ (BAt b path c' ∧ ¬ path <+: path0) := by
  rcases Replaced.at hc A.rep.symm (fun path c hc => A.nodup hc) A.grew.subs with ⟨rest, c, h1, h2, h3⟩ | h
  · exact Or.inl ⟨rest, c, h1, h2, h3.symm⟩
  · exact Or.inr h

/-- the method of a model is the same, or has grown -/
theorem Adding.method {path : List Name} {c : Body K F} (hc : BAt b path c) : ∃ c', BAt b' path c' ∧ ((path = path0 ∧ c = c0 ∧ c' = c0') ∨ (path ≠ path0 ∧ c'.stmts 0 = c.stmts 0 ∧ c'.locals = c.locals)) := by
  rcases A.at hc with ⟨rest, c', rfl, h1, h2⟩ | ⟨h1, h2⟩
  · cases rest with
    | nil => obtain ⟨rfl, rfl⟩ := h2.nil; exact ⟨c', h1, Or.inl ⟨by simp, rfl, rfl⟩⟩
    | cons n rest => exact ⟨c', h1, Or.inr ⟨by simp, (h2.above rfl).1 0, h2.locals⟩⟩
  · exact ⟨c, h1, Or.inr ⟨by rintro rfl; exact h2 List.prefix_rfl, rfl, rfl⟩⟩

theorem Adding.method' {path : List Name} {c' : Body K F} (hc : BAt b' path c') : ∃ c, BAt b path c ∧ ((path = path0 ∧ c = c0 ∧ c' = c0') ∨ (path ≠ path0 ∧ c'.stmts 0 = c.stmts 0 ∧ c'.locals = c.locals)) := by
  rcases A.at' hc with ⟨rest, c, rfl, h1, h2⟩ | ⟨h1, h2⟩
  · cases rest with
    | nil => obtain ⟨rfl, rfl⟩ := h2.nil; exact ⟨c, h1, Or.inl ⟨by simp, rfl, rfl⟩⟩
    | cons n rest => exact ⟨c, h1, Or.inr ⟨by simp, (h2.above rfl).1 0, h2.locals⟩⟩
  · exact ⟨c', h1, Or.inr ⟨by rintro rfl; exact h2 List.prefix_rfl, rfl, rfl⟩⟩

/-- promoted names, in a model that contains the grown one -/
theorem Adding.promotedIn {d d' : Body K F} {rest : List Name} (h : Replaced c0 c0' d rest d') {path : List Name} {k : VarKind} {w : VarInfo} {p : Name} (hp : PromotedAs d.toModel path k w p) : PromotedAs d'.toModel path k w p := by
  rcases promotedAs_replaced hp h A.grew.subs.symm rfl with h | ⟨_, h1, h2⟩
  · exact h
  · exact absurd ((A.grew.vars A.ok0).2 (Or.inl h1)) h2

theorem Adding.promotedIn' {d d' : Body K F} {rest : List Name} (h : Replaced c0 c0' d rest d') {path : List Name} {k : VarKind} {w : VarInfo} {p : Name} (hp : PromotedAs d'.toModel path k w p) :
    PromotedAs d.toModel path k w p ∨ (path = rest ∧ k = .source ∧ w = ⟨nm, sh⟩) := by
  rcases promotedAs_replaced hp h.symm A.grew.subs rfl with h | ⟨h0, h1, h2⟩
  · exact Or.inl h
  · rcases (A.grew.vars A.ok0).1 h1 with h1 | h1
    · exact absurd h1 h2
    · exact Or.inr ⟨h0, h1⟩

theorem Adding.promoted {path : List Name} {k : VarKind} {w : VarInfo} {p : Name} (hp : PromotedAs b.toModel path k w p) : PromotedAs b'.toModel path k w p := A.promotedIn A.rep hp

theorem Adding.promoted' {path : List Name} {k : VarKind} {w : VarInfo} {p : Name} (hp : PromotedAs b'.toModel path k w p) : PromotedAs b.toModel path k w p ∨ (path = path0 ∧ k = .source ∧ w = ⟨nm, sh⟩) :=
  A.promotedIn' A.rep hp

/-- the promoted name of the new output is not the promoted name of another variable -/
theorem Adding.clash {path1 path2 : List Name} {d d' : Body K F} (e : path0 = path1 ++ path2) (h1 : BAt b path1 d) (h2 : BAt b' path1 d') {p : Name} (hp : PromotedAs d'.toModel path2 .source ⟨nm, sh⟩ p)
    {path3 : List Name} {k : VarKind} {v : VarInfo} : ¬ PromotedAs d.toModel path3 k v p := A.new.promoted path1 path2 d d' e h1 h2 _ p rfl hp path3 k v

theorem Adding.clash0 {p : Name} (hp : PromotedAs b'.toModel path0 .source ⟨nm, sh⟩ p) {path3 : List Name} {k : VarKind} {v : VarInfo} : ¬ PromotedAs b.toModel path3 k v p :=
  A.clash (path1 := []) rfl (.here _) (.here _) hp

theorem Adding.methods : ∀ path c', BAt b' path c' → MethodOk c' := by
  intro path c' hc
  rcases A.at' hc with ⟨rest, c, rfl, h1, h2⟩ | ⟨h1, _⟩
  · cases rest with
    | nil => obtain ⟨rfl, rfl⟩ := h2.nil; exact A.grew.methodOk A.ok0 A.live A.new.allowed A.new.fresh.1
    | cons n rest =>
      have hm := A.valid.methods path c h1
      obtain ⟨e, L1, L2, p, s, s', e1, e2, _⟩ := h2.above rfl
      exact ⟨fun L y L' he => hm.stmts L y L' (by rw [← e]; exact he), fun y name shape val hy => by
          have hy' : c.Has y (.output name shape val) := by unfold Body.Has at *; rw [← e]; exact hy
          obtain ⟨key, x, n', z, k1, k2⟩ := hm.assigned y name shape val hy'
          exact ⟨key, x, n', z, by unfold Body.Has at *; rw [e]; exact k1, by rw [e]; exact k2⟩, by have := hm.subNames; rw [e1] at this; rw [e2]; simpa using this,
        fun t hs => by
          rw [e2] at hs
          simp only [List.mem_append, List.mem_cons] at hs
          rcases hs with hs | rfl | hs
          · exact hm.subAllowed t (by rw [e1]; simp [hs])
          · exact hm.subAllowed (n, p, s) (by rw [e1]; simp)
          · exact hm.subAllowed t (by rw [e1]; simp [hs]), Or.inr (Or.inr (by rw [e2]; simp))⟩
  · exact A.valid.methods path c' h1

theorem Adding.names : GoodNames b' where
  sources := by
    intro path c' hc
    obtain ⟨c, h1, ⟨rfl, rfl, rfl⟩ | ⟨_, _, e⟩⟩ := A.method' hc
    · have := A.valid.names.sources _ _ h1
      have hn := A.ok0.not_var A.new.fresh.1
      simp only [Local.sources, A.grew.localInputs, A.grew.localOutputs A.ok0] at this hn ⊢
      rw [← List.append_assoc, List.map_append, List.nodup_append]
      refine ⟨this, by simp, ?_⟩
      rintro x hx y hy rfl
      obtain ⟨w, hw, rfl⟩ := List.mem_map.1 hx
      simp only [List.map_cons, List.map_nil, List.mem_singleton] at hy
      exact hn w (List.mem_append_left _ hw) hy
    · rw [e]; exact A.valid.names.sources _ _ h1
  declared := by
    intro path c' hc
    obtain ⟨c, h1, ⟨rfl, rfl, rfl⟩ | ⟨_, _, e⟩⟩ := A.method' hc
    · have := A.valid.names.declared _ _ h1
      have hn := A.ok0.not_var A.new.fresh.1
      intro w hw
      rw [A.grew.localDeclared] at hw
      obtain ⟨h2, h3⟩ := this w hw
      refine ⟨h2, ?_⟩
      simp only [Local.sources, A.grew.localInputs, A.grew.localOutputs A.ok0] at h3 hn ⊢
      rw [← List.append_assoc, List.map_append, List.mem_append]
      rintro (h | h)
      · exact h3 h
      · simp only [List.map_cons, List.map_nil, List.mem_singleton] at h
        exact hn w (List.mem_append_right _ hw) h
    · rw [e]; exact A.valid.names.declared _ _ h1
  notAuto := by
    intro path c' hc
    obtain ⟨c, h1, ⟨rfl, rfl, rfl⟩ | ⟨_, _, e⟩⟩ := A.method' hc
    · have := A.valid.names.notAuto _ _ h1
      intro w hw
      simp only [Local.sources, A.grew.localInputs, A.grew.localDeclared, A.grew.localOutputs A.ok0, List.mem_append, List.mem_singleton] at this hw
      rcases hw with (hw | hw | rfl) | hw
      · exact this w (Or.inl (Or.inl hw))
      · exact this w (Or.inl (Or.inr hw))
      · exact A.new.notAuto
      · exact this w (Or.inr hw)
    · rw [e]; exact A.valid.names.notAuto _ _ h1
  subs := by
    rintro path c' hc ⟨n, p, sub⟩ hs
    rcases A.at' hc with ⟨rest, c, rfl, h1, h2⟩ | ⟨h1, _⟩
    · cases rest with
      | nil =>
        obtain ⟨rfl, rfl⟩ := h2.nil
        rw [A.grew.subs] at hs
        obtain ⟨g1, g2, g3⟩ := A.valid.names.subs _ _ h1 _ hs
        refine ⟨g1, g2, ?_⟩
        simp only [Local.sources, A.grew.localInputs, A.grew.localDeclared, A.grew.localOutputs A.ok0, List.map_append, List.mem_append, List.map_cons, List.map_nil, List.mem_singleton] at g3 ⊢
        rintro ((h | h | rfl) | h)
        · exact g3 (Or.inl (Or.inl h))
        · exact g3 (Or.inl (Or.inr h))
        · exact A.new.fresh.2 (List.mem_map.2 ⟨_, hs, rfl⟩)
        · exact g3 (Or.inr h)
      | cons m rest =>
        rw [h2.locals]
        rcases h2.symm.subs A.grew.subs hs with h3 | ⟨_, sub', _, h3, _⟩
        · exact A.valid.names.subs _ _ h1 _ h3
        · exact A.valid.names.subs _ _ h1 (n, p, sub') h3
    · exact A.valid.names.subs _ _ h1 _ hs

theorem Adding.oneSource : ∀ path d', BAt b' path d' → ∀ p path1 v1 path2 v2, PromotedAs d'.toModel path1 .source v1 p → PromotedAs d'.toModel path2 .source v2 p → path1 = path2 := by
  intro path d' hc p path1 v1 path2 v2 g1 g2
  rcases A.at' hc with ⟨rest, d, e, h1, h2⟩ | ⟨h1, _⟩
  · rcases A.promotedIn' h2 g1 with k1 | ⟨rfl, _, rfl⟩ <;> rcases A.promotedIn' h2 g2 with k2 | ⟨rfl, _, rfl⟩
    · exact A.valid.oneSource path d h1 p _ _ _ _ k1 k2
    · exact absurd k1 (A.clash e h1 hc g2)
    · exact absurd k2 (A.clash e h1 hc g1)
    · rfl
  · exact A.valid.oneSource path d' h1 p _ _ _ _ g1 g2

theorem Adding.sizes : ∀ path d', BAt b' path d' → ∀ p k1 path1 v1 k2 path2 v2, PromotedAs d'.toModel path1 k1 v1 p → PromotedAs d'.toModel path2 k2 v2 p → path1 ≠ path2 → v1.shape.size = v2.shape.size := by
  intro path d' hc p k1 path1 v1 k2 path2 v2 g1 g2 hne
  rcases A.at' hc with ⟨rest, d, e, h1, h2⟩ | ⟨h1, _⟩
  · rcases A.promotedIn' h2 g1 with j1 | ⟨rfl, rfl, rfl⟩ <;> rcases A.promotedIn' h2 g2 with j2 | ⟨rfl, rfl, rfl⟩
    · exact A.valid.sizes path d h1 p _ _ _ _ _ _ j1 j2 hne
    · exact absurd j1 (A.clash e h1 hc g2)
    · exact absurd j2 (A.clash e h1 hc g1)
    · exact absurd rfl hne
  · exact A.valid.sizes path d' h1 p _ _ _ _ _ _ g1 g2 hne

theorem Adding.promotes : ∀ path d', BAt b' path d' → ∀ n q sub, (n, some q, sub) ∈ d'.subs → ∀ x ∈ q, '.' ∉ x ∧ ∃ path' k v, PromotedAs sub.toModel path' k v x := by
  intro path d' hc n q sub hs x hx
  rcases A.at' hc with ⟨rest, d, e, h1, h2⟩ | ⟨h1, _⟩
  · rcases h2.symm.subs A.grew.subs hs with h3 | ⟨_, sub', _, h3, h4⟩
    · exact A.valid.promotes path d h1 n q sub h3 x hx
    · obtain ⟨g1, path', k, v, g2⟩ := A.valid.promotes path d h1 n q sub' h3 x hx
      exact ⟨g1, path', k, v, A.promotedIn h4.symm g2⟩
  · exact A.valid.promotes path d' h1 n q sub hs x hx

theorem Adding.unique {x p q : Name} (h1 : Denotes b'.toModel x p) (h2 : Denotes b'.toModel x q) : p = q := by
  obtain ⟨r, hr⟩ := resolves_body A.methods A.names A.oneSource A.sizes A.promotes
  exact denotes_unique (dotFree_body A.methods A.names) hr h1 h2

theorem Adding.denotes {x p : Name} (h : Denotes b.toModel x p) : Denotes b'.toModel x p := by
  cases h with
  | promoted hp => exact .promoted (A.promoted hp)
  | full hp => exact .full (A.promoted hp)

/-- a name that denoted something denotes the same -/
theorem Adding.denotes' {x p q : Name} (h : Denotes b.toModel x p) (h' : Denotes b'.toModel x q) : Denotes b.toModel x q := A.unique (A.denotes h) h' ▸ h

omit [Zero K] A in
theorem denotes_isPromoted {m : Model} {x p : Name} (h : Denotes m x p) : ∃ path k v, PromotedAs m path k v p := by
  cases h with
  | promoted hp => exact ⟨_, _, _, hp⟩
  | full hp => exact ⟨_, _, _, hp⟩

theorem Adding.mono {path : List Name} {c : Body K F} (hc : BAt b path c) : ∃ c', BAt b' path c' ∧ (∀ {n s}, c.Has n s → c'.Has n s) ∧ (∀ {x}, c.Live x → c'.Live x) ∧ (∀ {x name}, c.Named x name → c'.Named x name) ∧
    c'.locals.connections = c.locals.connections ∧ (∀ {x y key}, c'.Assigned y key x ↔ c.Assigned y key x) ∧ (∀ {x y}, Alias (c'.stmts 0) x y ↔ Alias (c.stmts 0) x y) ∧
    (∀ {x}, x < numVars (c.stmts 0) → c'.shapes.getD x [] = c.shapes.getD x []) := by
  obtain ⟨c', h1, ⟨rfl, rfl, rfl⟩ | ⟨_, e, el⟩⟩ := A.method hc
  · exact ⟨c', h1, A.grew.has, A.grew.live A.ok0, fun h => A.grew.named.2 (Or.inl h), A.grew.connections, A.grew.assigned A.ok0, A.grew.alias A.ok0, A.grew.shape⟩
  · refine ⟨c', h1, fun h => ?_, fun h => ?_, fun h => ?_, by rw [el], ?_, ?_, fun _ => ?_⟩
    · unfold Body.Has at *; rw [e]; exact h
    · induction h with
      | input h => exact .input (by rw [e]; exact h)
      | output h => exact .output (by rw [e]; exact h)
      | operand _ h1 h2 h3 h4 ih => exact .operand ih (by unfold Body.Has at *; rw [e]; exact h1) h2 h3 h4
      | result _ h1 h2 h3 h4 h5 ih => exact .result ih (by unfold Body.Has at *; rw [e]; exact h1) h2 h3 h4 h5
      | part _ h1 h2 h3 ih => exact .part ih (by unfold Body.Has at *; rw [e]; exact h1) (by unfold Body.Has at *; rw [e]; exact h2) (by rw [e]; exact h3)
      | assigned h => exact .assigned (by unfold Body.Has at *; rw [e]; exact h)
      | same _ h1 h2 ih => exact .same ih (by unfold Body.Named at *; rw [e]; exact h1) (by unfold Body.Named at *; rw [e]; exact h2)
    · unfold Body.Named at *; rw [e]; exact h
    · intro x y key; unfold Body.Assigned Body.Has; rw [e]
    · intro x y; rw [e]
    · unfold Body.shapes; rw [e]

end adding

end Csdl.Prog
