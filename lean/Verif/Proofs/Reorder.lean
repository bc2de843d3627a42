import Verif.Spec.Reorder
import Verif.Proofs.Program9
/-
Proofs for C91: what a program means does not depend on the places of submodels and connections.
-/
namespace Csdl.Prog
open Csdl Csdl.Arith
variable {K F : Type}

theorem Reordered.symm {b b' : Body K F} (h : Reordered b b') : Reordered b' b := by
  induction h with
  | refl b => exact .refl b
  | trans _ _ h1 h2 => exact .trans h2 h1
  | stmt s _ ih => exact .stmt s ih
  | add i j n p _ _ h1 h2 => exact .add j i n p h1 h2
  | swapAdds i j n m p q sub sub' r => exact .swapAdds j i m n q p sub' sub r
  | addLater i n p sub s r => exact .addEarlier i n p sub s r
  | addEarlier i n p sub s r => exact .addLater i n p sub s r
  | connectLater a c s r => exact .connectEarlier a c s r
  | connectEarlier a c s r => exact .connectLater a c s r

/-- not a connection -/
def Stmt.plain : Stmt K F → Bool
  | .connect _ _ => false
  | _ => true

/-- the statements other than connections -/
def plainOf (L : List (Nat × Stmt K F)) : List (Nat × Stmt K F) := L.filter fun s => s.2.plain

theorem mem_plainOf {L : List (Nat × Stmt K F)} {s : Nat × Stmt K F} : s ∈ plainOf L ↔ s ∈ L ∧ s.2.plain = true := by simp [plainOf]

theorem plainOf_cons (n : Nat) (s : Stmt K F) (L : List (Nat × Stmt K F)) : plainOf ((n, s) :: L) = if s.plain then (n, s) :: plainOf L else plainOf L := by simp [plainOf, List.filter_cons]

theorem not_plain {s : Stmt K F} (h : ¬ s.plain = true) : ∃ a c, s = .connect a c := by cases s <;> simp [Stmt.plain] at h ⊢

theorem Reordered.plain {b b' : Body K F} (h : Reordered b b') : ∀ n, plainOf (b.stmts n) = plainOf (b'.stmts n) := by
  induction h with
  | refl b => intro n; rfl
  | trans _ _ h1 h2 => intro n; rw [h1, h2]
  | stmt s _ ih =>
    intro n
    simp only [Body.stmts, plainOf, List.filter_cons]
    have := ih (n + s.count)
    simp only [plainOf] at this
    rw [this]
  | add i j n p _ _ h1 h2 => intro k; exact h2 k
  | swapAdds => intro n; rfl
  | addLater => intro n; rfl
  | addEarlier => intro n; rfl
  | connectLater a c s r => intro n; cases s <;> simp [Body.stmts, plainOf, List.filter_cons, Stmt.plain, Stmt.count]
  | connectEarlier a c s r => intro n; cases s <;> simp [Body.stmts, plainOf, List.filter_cons, Stmt.plain, Stmt.count]

/-- the body contains the connection -/
def Body.Connects (b : Body K F) (a c : Name) : Prop := ∃ n k, (n, Stmt.connect a c) ∈ b.stmts k

theorem mem_stmts_any {b : Body K F} {s : Stmt K F} : ∀ {n k : Nat}, (n, s) ∈ b.stmts k → ∀ k', ∃ n', (n', s) ∈ b.stmts k' := by
  induction b with
  | done => intro n k h; simp [Body.stmts] at h
  | stmt t rest ih =>
    intro n k h k'
    simp only [Body.stmts, List.mem_cons, Prod.mk.injEq] at h ⊢
    rcases h with ⟨_, rfl⟩ | h
    · exact ⟨k', Or.inl ⟨rfl, rfl⟩⟩
    · obtain ⟨n', h'⟩ := ih h (k' + t.count)
      exact ⟨n', Or.inr h'⟩
  | add i m p sub rest _ ih => intro n k h k'; exact ih h k'

theorem Body.connects_iff {b : Body K F} {a c : Name} (k : Nat) : b.Connects a c ↔ ∃ n, (n, Stmt.connect a c) ∈ b.stmts k :=
  ⟨fun ⟨_, _, h⟩ => mem_stmts_any h k, fun ⟨n, h⟩ => ⟨n, k, h⟩⟩

theorem connects_stmt {s : Stmt K F} {r : Body K F} {a c : Name} : (Body.stmt s r).Connects a c ↔ s = .connect a c ∨ r.Connects a c := by
  rw [Body.connects_iff 0, Body.connects_iff (0 + s.count)]
  constructor
  · rintro ⟨n, h⟩
    simp only [Body.stmts, List.mem_cons, Prod.mk.injEq] at h
    rcases h with ⟨_, h⟩ | h
    · exact Or.inl h.symm
    · exact Or.inr ⟨n, h⟩
  · rintro (rfl | ⟨n, h⟩)
    · exact ⟨0, by simp [Body.stmts]⟩
    · exact ⟨n, by simp only [Body.stmts, List.mem_cons]; exact Or.inr h⟩

theorem connects_add {i : Bool} {n : Name} {p : Option (List Name)} {sub r : Body K F} {a c : Name} : (Body.add i n p sub r).Connects a c ↔ r.Connects a c := Iff.rfl

theorem Reordered.connects {b b' : Body K F} (h : Reordered b b') (a c : Name) : b.Connects a c ↔ b'.Connects a c := by
  induction h with
  | refl b => exact Iff.rfl
  | trans _ _ h1 h2 => exact h1.trans h2
  | stmt s _ ih => rw [connects_stmt, connects_stmt, ih]
  | add i j n p _ _ h1 h2 => rw [connects_add, connects_add, h2]
  | swapAdds => simp only [connects_add]
  | addLater => simp only [connects_add, connects_stmt]
  | addEarlier => simp only [connects_add, connects_stmt]
  | connectLater a c s r => simp only [connects_stmt]; tauto
  | connectEarlier a c s r => simp only [connects_stmt]; tauto

theorem Reordered.subs {b b' : Body K F} (h : Reordered b b') : ∀ n p sub, (n, p, sub) ∈ b.subs → ∃ sub', (n, p, sub') ∈ b'.subs ∧ Reordered sub sub' := by
  induction h with
  | refl b => intro n p sub h; exact ⟨sub, h, .refl _⟩
  | trans _ _ h1 h2 =>
    intro n p sub h
    obtain ⟨s1, a1, a2⟩ := h1 n p sub h
    obtain ⟨s2, b1, b2⟩ := h2 n p s1 a1
    exact ⟨s2, b1, .trans a2 b2⟩
  | stmt s _ ih => exact ih
  | add i j n p h1 _ _ h2 =>
    intro m q s h
    simp only [Body.subs, List.mem_cons, Prod.mk.injEq] at h ⊢
    rcases h with ⟨rfl, rfl, rfl⟩ | h
    · exact ⟨_, Or.inl ⟨rfl, rfl, rfl⟩, h1⟩
    · obtain ⟨s', a1, a2⟩ := h2 m q s h
      exact ⟨s', Or.inr a1, a2⟩
  | swapAdds i j n m p q sub sub' r =>
    intro n' p' s h
    refine ⟨s, ?_, .refl _⟩
    simp only [Body.subs, List.mem_cons] at h ⊢
    tauto
  | addLater => intro n p s h; exact ⟨s, h, .refl _⟩
  | addEarlier => intro n p s h; exact ⟨s, h, .refl _⟩
  | connectLater => intro n p s h; exact ⟨s, h, .refl _⟩
  | connectEarlier => intro n p s h; exact ⟨s, h, .refl _⟩

theorem Reordered.subNames {b b' : Body K F} (h : Reordered b b') : (b.subs.map (·.1)).Perm (b'.subs.map (·.1)) := by
  induction h with
  | refl b => exact .refl _
  | trans _ _ h1 h2 => exact h1.trans h2
  | stmt s _ ih => exact ih
  | add i j n p _ _ _ h2 => exact h2.cons n
  | swapAdds i j n m p q sub sub' r => exact .swap _ _ _
  | addLater => exact .refl _
  | addEarlier => exact .refl _
  | connectLater => exact .refl _
  | connectEarlier => exact .refl _

theorem Reordered.at {b b' : Body K F} (h : Reordered b b') {path : List Name} {c : Body K F} (hc : BAt b path c) : ∃ c', BAt b' path c' ∧ Reordered c c' := by
  induction hc generalizing b' with
  | here b => exact ⟨b', .here _, h⟩
  | down hs _ ih =>
    obtain ⟨sub', h1, h2⟩ := h.subs _ _ _ hs
    obtain ⟨c', h3, h4⟩ := ih h2
    exact ⟨c', .down h1 h3, h4⟩

/-! ### what depends on the statements other than connections -/

theorem shapesOf_plain (L : List (Nat × Stmt K F)) : shapesOf (plainOf L) = shapesOf L := by
  unfold shapesOf
  suffices h : ∀ ss : List Shape, (plainOf L).foldl (fun ss s => stepShapes ss s.2) ss = L.foldl (fun ss s => stepShapes ss s.2) ss from h []
  induction L with
  | nil => intro ss; rfl
  | cons x L ih =>
    intro ss
    obtain ⟨n, s⟩ := x
    rw [plainOf_cons]
    split
    · rw [List.foldl_cons, List.foldl_cons, ih]
    · rename_i h
      obtain ⟨a, c, rfl⟩ := not_plain h
      exact ih ss

theorem numVars_plain (L : List (Nat × Stmt K F)) : numVars (plainOf L) = numVars L := by
  induction L with
  | nil => rfl
  | cons x L ih =>
    obtain ⟨n, s⟩ := x
    rw [plainOf_cons]
    unfold numVars at ih ⊢
    split
    · rw [List.map_cons, List.map_cons, List.sum_cons, List.sum_cons, ih]
    · rename_i h
      obtain ⟨a, c, rfl⟩ := not_plain h
      rw [ih, List.map_cons, List.sum_cons]
      exact (Nat.zero_add _).symm

theorem filterMap_plain {α : Type} (f : Nat × Stmt K F → Option α) (hf : ∀ n a c, f (n, .connect a c) = none) (L : List (Nat × Stmt K F)) : (plainOf L).filterMap f = L.filterMap f := by
  induction L with
  | nil => rfl
  | cons x L ih =>
    obtain ⟨n, s⟩ := x
    rw [plainOf_cons]
    split
    · rw [List.filterMap_cons, List.filterMap_cons, ih]
    · rename_i h
      obtain ⟨a, c, rfl⟩ := not_plain h
      rw [ih, List.filterMap_cons, hf]

theorem Alias.plain {L L' : List (Nat × Stmt K F)} (h : plainOf L = plainOf L') {x y : Nat} (ha : Alias L x y) : Alias L' x y := by
  have mem : ∀ s : Nat × Stmt K F, s.2.plain = true → s ∈ L → s ∈ L' := fun s hs hm => (mem_plainOf.1 (h ▸ mem_plainOf.2 ⟨hm, hs⟩)).1
  have hsh : shapesOf L = shapesOf L' := by rw [← shapesOf_plain L, h, shapesOf_plain]
  induction ha with
  | refl x => exact .refl x
  | symm _ ih => exact .symm ih
  | trans _ _ h1 h2 => exact .trans h1 h2
  | plus hx => exact .plus (mem _ rfl hx)
  | part h1 h2 _ h3 ih => exact .part (mem _ rfl h1) (mem _ rfl h2) ih (hsh ▸ h3)

theorem alias_plain_iff {L L' : List (Nat × Stmt K F)} (h : plainOf L = plainOf L') {x y : Nat} : Alias L x y ↔ Alias L' x y := ⟨.plain h, .plain h.symm⟩

section one
variable {b b' : Body K F} (h : Reordered b b')
include h

theorem Reordered.has {n : Nat} {s : Stmt K F} (hs : s.plain = true) (hh : b.Has n s) : b'.Has n s := (mem_plainOf.1 (h.plain 0 ▸ mem_plainOf.2 ⟨hh, hs⟩)).1

theorem Reordered.shapes : b.shapes = b'.shapes := by rw [Body.shapes, ← shapesOf_plain, h.plain 0, shapesOf_plain]; rfl

theorem Reordered.inputs : (b.stmts 0).filterMap inputOf = (b'.stmts 0).filterMap inputOf := by
  rw [← filterMap_plain inputOf (fun _ _ _ => rfl), h.plain 0, filterMap_plain inputOf (fun _ _ _ => rfl)]

theorem Reordered.declareds : (b.stmts 0).filterMap declaredOf = (b'.stmts 0).filterMap declaredOf := by
  rw [← filterMap_plain declaredOf (fun _ _ _ => rfl), h.plain 0, filterMap_plain declaredOf (fun _ _ _ => rfl)]

theorem Reordered.outputs : (b.stmts 0).filterMap outputOf = (b'.stmts 0).filterMap outputOf := by
  rw [← filterMap_plain outputOf (fun _ _ _ => rfl), h.plain 0, filterMap_plain outputOf (fun _ _ _ => rfl)]

theorem Reordered.named {x : Nat} {name : Name} : b.Named x name ↔ b'.Named x name := by
  unfold Body.Named
  rw [h.inputs, h.declareds, h.outputs]

theorem Reordered.alias {x y : Nat} : Alias (b.stmts 0) x y ↔ Alias (b'.stmts 0) x y := alias_plain_iff (h.plain 0)

theorem Reordered.assigned {y x : Nat} {key : Key} (ha : b.Assigned y key x) : b'.Assigned y key x := by
  obtain ⟨n, z, h1, h2⟩ := ha
  exact ⟨n, z, h.has rfl h1, h.alias.1 h2⟩

theorem Reordered.live {x : Nat} (hl : b.Live x) : b'.Live x := by
  induction hl with
  | input h1 => exact .input (h.inputs ▸ h1)
  | output h1 => exact .output (h.outputs ▸ h1)
  | operand _ h1 h2 h3 h4 ih =>
    refine .operand ih (h.has ?_ h1) h2 h3 h4
    rename_i s _; cases s <;> simp_all [Stmt.plain, Stmt.operands]
  | result _ h1 h2 h3 h4 h5 ih =>
    refine .result ih (h.has ?_ h1) h2 h3 h4 h5
    rename_i s _
    cases s <;> first | rfl | (simp only [Stmt.count] at h3; omega)
  | part _ h1 h2 h3 ih => exact .part ih (h.has rfl h1) (h.has rfl h2) (h.alias.1 h3)
  | assigned h1 => exact .assigned (h.has rfl h1)
  | same _ h1 h2 ih => exact .same ih (h.named.1 h1) (h.named.1 h2)

theorem Reordered.localVars (k : VarKind) : b.locals.vars k = b'.locals.vars k := by
  cases k <;> simp [Local.vars, Local.sources, Body.locals, h.inputs, h.outputs, h.declareds, h.shapes]

theorem Reordered.localOutputs : b.locals.outputs = b'.locals.outputs := by simp [Body.locals, h.outputs, h.shapes]
theorem Reordered.localInputs : b.locals.inputs = b'.locals.inputs := by simp [Body.locals, h.inputs]
theorem Reordered.localDeclared : b.locals.declared = b'.locals.declared := by simp [Body.locals, h.declareds]
theorem Reordered.localSources : b.locals.sources = b'.locals.sources := h.localVars .source

end one

theorem foldl_connections (L : List (Nat × Stmt K F)) : ∀ cs : List (Name × Name), cs.Nodup → (L.foldl (fun cs s => stepConnections cs s.2) cs).Nodup ∧
    ∀ a c, (a, c) ∈ L.foldl (fun cs s => stepConnections cs s.2) cs ↔ (a, c) ∈ cs ∨ ∃ n, (n, Stmt.connect a c) ∈ L := by
  induction L with
  | nil => intro cs h; exact ⟨h, fun a c => by simp⟩
  | cons x L ih =>
    intro cs h
    obtain ⟨n, s⟩ := x
    simp only [List.foldl_cons, List.mem_cons, Prod.mk.injEq]
    have step : (stepConnections cs s).Nodup ∧ ∀ a c, (a, c) ∈ stepConnections cs s ↔ (a, c) ∈ cs ∨ s = .connect a c := by
      cases s <;> simp only [stepConnections, reduceCtorEq, or_false, implies_true, and_true] <;> try exact h
      rename_i a b
      split
      · rename_i hm
        refine ⟨h, fun a' c' => ⟨Or.inl, ?_⟩⟩
        rintro (h | h)
        · exact h
        · cases h; exact hm
      · rename_i hm
        refine ⟨List.nodup_append.2 ⟨h, by simp, ?_⟩, fun a' c' => ?_⟩
        · intro u hu v hv e
          rw [List.mem_singleton] at hv
          subst hv e
          exact hm hu
        · simp only [List.mem_append, List.mem_singleton, Prod.mk.injEq, Stmt.connect.injEq]
          constructor <;> (rintro (h | ⟨rfl, rfl⟩); exacts [Or.inl h, Or.inr ⟨rfl, rfl⟩])
    obtain ⟨h1, h2⟩ := ih _ step.1
    refine ⟨h1, fun a c => ?_⟩
    rw [h2, step.2]
    constructor
    · rintro ((h | h) | ⟨n', h⟩)
      · exact Or.inl h
      · exact Or.inr ⟨n, Or.inl ⟨rfl, h.symm⟩⟩
      · exact Or.inr ⟨n', Or.inr h⟩
    · rintro (h | ⟨n', ⟨_, h⟩ | h⟩)
      · exact Or.inl (Or.inl h)
      · exact Or.inl (Or.inr h.symm)
      · exact Or.inr ⟨n', h⟩

theorem mem_connections {b : Body K F} {a c : Name} : (a, c) ∈ b.locals.connections ↔ b.Connects a c := by
  rw [Body.connects_iff 0]
  show (a, c) ∈ (b.stmts 0).foldl _ [] ↔ _
  rw [(foldl_connections (b.stmts 0) [] List.nodup_nil).2]
  simp

theorem Reordered.connections {b b' : Body K F} (h : Reordered b b') : b.locals.connections.Perm b'.locals.connections :=
  (List.perm_ext_iff_of_nodup (foldl_connections _ [] List.nodup_nil).1 (foldl_connections _ [] List.nodup_nil).1).2 fun ⟨a, c⟩ => by
    show (a, c) ∈ b.locals.connections ↔ (a, c) ∈ b'.locals.connections
    rw [mem_connections, mem_connections, h.connects]

theorem mem_toSubs {b : Body K F} {s : Subgraph} : s ∈ b.toSubs.toList ↔ ∃ sub, (s.name, s.promotes, sub) ∈ b.subs ∧ s.model = sub.toModel := by
  obtain ⟨n, p, m⟩ := s
  induction b with
  | done => simp [Body.toSubs, Subs.toList, Body.subs]
  | stmt t r ih => exact ih
  | add i n' p' sub r _ ih =>
    simp only [Body.toSubs, Subs.toList, List.mem_cons, Subgraph.mk.injEq, Body.subs, Prod.mk.injEq]
    rw [ih]
    constructor
    · rintro (⟨rfl, rfl, rfl⟩ | ⟨s, h1, h2⟩)
      · exact ⟨sub, Or.inl ⟨rfl, rfl, rfl⟩, rfl⟩
      · exact ⟨s, Or.inr h1, h2⟩
    · rintro ⟨s, ⟨rfl, rfl, rfl⟩ | h1, h2⟩
      · exact Or.inl ⟨rfl, rfl, h2⟩
      · exact Or.inr ⟨s, h1, h2⟩

theorem promotedAs_reordered {m : Model} {path : List Name} {k : VarKind} {w : VarInfo} {p : Name} (hp : PromotedAs m path k w p) :
    ∀ {b b' : Body K F}, Reordered b b' → m = b.toModel → PromotedAs b'.toModel path k w p := by
  induction hp with
  | here hv =>
    intro b b' h e
    cases e
    exact .here (h.localVars _ ▸ hv)
  | up hs _ hpr ih =>
    intro b b' h e
    cases e
    obtain ⟨sub, h1, h2⟩ := mem_toSubs.1 hs
    obtain ⟨sub', h3, h4⟩ := h.subs _ _ _ h1
    exact .up (s := ⟨_, _, sub'.toModel⟩) (mem_toSubs.2 ⟨sub', h3, rfl⟩) (ih h4 h2) hpr
  | stay hs _ hpr ih =>
    intro b b' h e
    cases e
    obtain ⟨sub, h1, h2⟩ := mem_toSubs.1 hs
    obtain ⟨sub', h3, h4⟩ := h.subs _ _ _ h1
    exact .stay (s := ⟨_, _, sub'.toModel⟩) (mem_toSubs.2 ⟨sub', h3, rfl⟩) (ih h4 h2) hpr

section two
variable {b b' : Body K F} (h : Reordered b b')
include h

theorem Reordered.promoted {path : List Name} {k : VarKind} {w : VarInfo} {p : Name} : PromotedAs b.toModel path k w p ↔ PromotedAs b'.toModel path k w p :=
  ⟨fun hp => promotedAs_reordered hp h rfl, fun hp => promotedAs_reordered hp h.symm rfl⟩

theorem Reordered.denotes' {x p : Name} (hd : Denotes b.toModel x p) : Denotes b'.toModel x p := by
  cases hd with
  | promoted hp => exact .promoted (h.promoted.1 hp)
  | full hp => exact .full (h.promoted.1 hp)

theorem Reordered.hasName {path : List Name} {x : Nat} {p : Name} (hn : HasName b path x p) : HasName b' path x p := by
  obtain ⟨c, name, k, w, h1, h2, h3, h4, h5⟩ := hn
  obtain ⟨c', h6, h7⟩ := h.at h1
  exact ⟨c', name, k, w, h6, h7.live h2, h7.named.1 h3, h.promoted.1 h4, h5⟩

end two

theorem Reordered.denotes {b b' : Body K F} (h : Reordered b b') {x p : Name} : Denotes b.toModel x p ↔ Denotes b'.toModel x p := ⟨h.denotes', h.symm.denotes'⟩

theorem Reordered.solution [Field K] {P : Power K} {den : F → List (Val K) → Nat → Val K} {ρ : List Name → Nat → Val K} {b b' : Body K F} (h : Reordered b b') (hs : Solution P den b ρ) : Solution P den b' ρ where
  expr := by
    intro path c hc n i hn hl
    obtain ⟨c', h1, h2⟩ := h.symm.at hc
    exact hs.expr path c' h1 n i (h2.has rfl hn) (h2.live hl)
  call := by
    intro path c hc n f args outs hn j hj hl
    obtain ⟨c', h1, h2⟩ := h.symm.at hc
    exact hs.call path c' h1 n f args outs (h2.has rfl hn) j hj (h2.live hl)
  index := by
    intro path c hc n x key hn hl
    obtain ⟨c', h1, h2⟩ := h.symm.at hc
    rw [h2.shapes]
    exact hs.index path c' h1 n x key (h2.has rfl hn) (h2.live hl)
  output := by
    intro path c hc y name shape val hn
    obtain ⟨c', h1, h2⟩ := h.symm.at hc
    obtain ⟨h3, h4⟩ := hs.output path c' h1 y name shape val (h2.has rfl hn)
    exact ⟨fun key x idx shp ha => h3 key x idx shp (h2.assigned ha), fun i hi => h4 i fun key x idx shp ha => hi key x idx shp (h2.symm.assigned ha)⟩
  shared := fun path x path' y p h1 h2 => hs.shared path x path' y p (h.symm.hasName h1) (h.symm.hasName h2)
  connected := by
    intro path c hc s t p q hst hp hq path1 x path2 y h1 h2
    obtain ⟨c', h3, h4⟩ := h.symm.at hc
    exact hs.connected path c' h3 s t p q (h4.connections.mem_iff.1 hst) (h.denotes.2 hp) (h.denotes.2 hq) path1 x path2 y (h.symm.hasName h1) (h.symm.hasName h2)

theorem Reordered.same {b b' : Body K F} (h : Reordered b b') {u v : List Name × Nat} (hs : Same b u v) : Same b' u v := by
  cases hs with
  | name p h1 h2 => exact .name p (h.hasName h1) (h.hasName h2)
  | connection path c s t p q h1 h2 h3 h4 h5 h6 =>
    obtain ⟨c', h7, h8⟩ := h.at h1
    exact .connection path c' s t p q h7 (h8.connections.mem_iff.1 h2) (h.denotes.1 h3) (h.denotes.1 h4) (h.hasName h5) (h.hasName h6)
  | «alias» c h1 h2 h3 h4 =>
    obtain ⟨c', h7, h8⟩ := h.at h1
    exact .alias c' h7 (h8.live h2) (h8.live h3) (h8.alias.1 h4)

theorem Reordered.sameAll {b b' : Body K F} (h : Reordered b b') {u v : List Name × Nat} (hs : Relation.EqvGen (Same b) u v) : Relation.EqvGen (Same b') u v := hs.mono fun _ _ => h.same

theorem Stmt.Computes.plain {s : Stmt K F} (h : s.Computes) : s.plain = true := by cases s <;> first | rfl | exact h.elim

theorem Reordered.given {b b' : Body K F} (h : Reordered b b') {path : List Name} {x : Nat} (hg : GivenVar b path x) : GivenVar b' path x := by
  obtain ⟨⟨c, h1, h2⟩, h3⟩ := hg
  obtain ⟨c', h4, h5⟩ := h.at h1
  refine ⟨⟨c', h4, h5.live h2⟩, fun path' d n s y hd hn hcm h6 h7 hl he => ?_⟩
  obtain ⟨d', h8, h9⟩ := h.symm.at hd
  exact h3 path' d' n s y h8 (h9.has hcm.plain hn) hcm h6 h7 (h9.live hl) (h.symm.sameAll he)

end Csdl.Prog
