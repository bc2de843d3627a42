import Verif.Spec.Rename
import Verif.Proofs.Refactor3
/-
For C101: renaming.
-/
namespace Csdl.Prog
open Csdl Csdl.Arith
variable {K F : Type}

theorem Renaming.symm {r : Name ≃ Name} (h : Renaming r) : Renaming r.symm where
  empty := by rw [Equiv.symm_apply_eq, h.empty]
  dotted := fun a b => by rw [Equiv.symm_apply_eq, h.dotted]; simp
  undotted := fun n => by rw [h.undotted (r.symm n)]; simp
  allowed := fun n => by rw [h.allowed (r.symm n)]; simp
  auto := fun n hn => by rw [h.auto (r.symm n) (by rw [h.undotted (r.symm n)]; simpa using hn)]; simp

theorem Renaming.ne {r : Name ≃ Name} (h : Renaming r) {n : Name} : n = [] ↔ r n = [] := by
  constructor
  · rintro rfl; exact h.empty
  · intro e; exact r.injective (e.trans h.empty.symm)

theorem Renaming.prepend {r : Name ≃ Name} (h : Renaming r) (a b : Name) : r (prependNamespace a b) = prependNamespace (r a) (r b) := by
  unfold prependNamespace
  by_cases ha : a = []
  · rw [if_pos ha, if_pos (h.ne.1 ha)]
  · rw [if_neg ha, if_neg fun e => ha (h.ne.2 e), h.dotted]

theorem Renaming.full {r : Name ≃ Name} (h : Renaming r) (path : List Name) (x : Name) : r (fullName path x) = fullName (path.map r) (r x) := by
  induction path with
  | nil => rfl
  | cons n path ih => simp only [fullName, List.foldr_cons, List.map_cons] at ih ⊢; rw [h.prepend, ih]

theorem Stmt.rename_symm (r : Name ≃ Name) (s : Stmt K F) : (s.rename r).rename r.symm = s := by cases s <;> simp [Stmt.rename]

theorem Body.rename_symm (r : Name ≃ Name) (b : Body K F) : (b.rename r).rename r.symm = b := by
  induction b with
  | done => rfl
  | stmt s rest ih => simp [Body.rename, ih, Stmt.rename_symm]
  | add i n p sub rest ih1 ih2 => cases p <;> simp [Body.rename, ih1, ih2, Function.comp_def]

theorem Stmt.rename_count (r : Name → Name) (s : Stmt K F) : (s.rename r).count = s.count := by cases s <;> rfl
theorem Stmt.rename_operands (r : Name → Name) (s : Stmt K F) : (s.rename r).operands = s.operands := by cases s <;> rfl
theorem Stmt.rename_computes (r : Name → Name) (s : Stmt K F) : (s.rename r).Computes ↔ s.Computes := by cases s <;> exact Iff.rfl
theorem Stmt.rename_defines (r : Name → Name) (s : Stmt K F) : (s.rename r).defines = s.defines.map r := by cases s <;> rfl

/-- the renamed statements -/
abbrev renS (r : Name → Name) (L : List (Nat × Stmt K F)) : List (Nat × Stmt K F) := L.map fun s => (s.1, s.2.rename r)

theorem Body.rename_stmts (r : Name → Name) (b : Body K F) : ∀ n, (b.rename r).stmts n = renS r (b.stmts n) := by
  induction b with
  | done => intro n; rfl
  | stmt s rest ih => intro n; simp [Body.rename, Body.stmts, ih, Stmt.rename_count]
  | add i m p sub rest _ ih => intro n; simp [Body.rename, Body.stmts, ih]

theorem Body.rename_subs (r : Name → Name) (b : Body K F) : (b.rename r).subs = b.subs.map fun s => (r s.1, s.2.1.map (·.map r), s.2.2.rename r) := by
  induction b with
  | done => rfl
  | stmt s rest ih => simp [Body.rename, Body.subs, ih]
  | add i m p sub rest _ ih => simp [Body.rename, Body.subs, ih]

theorem stepShapes_rename (r : Name → Name) (ss : List Shape) (s : Stmt K F) : stepShapes ss (s.rename r) = stepShapes ss s := by cases s <;> rfl

theorem shapesOf_rename (r : Name → Name) (L : List (Nat × Stmt K F)) : shapesOf (renS r L) = shapesOf L := by
  unfold shapesOf
  rw [List.foldl_map]
  simp only [stepShapes_rename]

theorem numVars_rename (r : Name → Name) (L : List (Nat × Stmt K F)) : numVars (renS r L) = numVars L := by
  unfold numVars
  rw [List.map_map]
  congr 1
  exact List.map_congr_left fun s _ => Stmt.rename_count r s.2

theorem alias_rename (r : Name → Name) {L : List (Nat × Stmt K F)} {x y : Nat} (h : Alias L x y) : Alias (renS r L) x y := by
  induction h with
  | refl x => exact .refl x
  | symm _ ih => exact .symm ih
  | trans _ _ ih1 ih2 => exact .trans ih1 ih2
  | @plus x y h => exact .plus (List.mem_map.2 ⟨_, h, rfl⟩)
  | @part x y u v k l h1 h2 _ h3 ih => exact .part (List.mem_map.2 ⟨_, h1, rfl⟩) (List.mem_map.2 ⟨_, h2, rfl⟩) ih (by rw [shapesOf_rename]; exact h3)

theorem renS_symm (r : Name ≃ Name) (L : List (Nat × Stmt K F)) : renS r.symm (renS r L) = L := by
  simp [renS, Function.comp_def, Stmt.rename_symm]

theorem alias_rename_iff (r : Name ≃ Name) {L : List (Nat × Stmt K F)} {x y : Nat} : Alias (renS r L) x y ↔ Alias L x y :=
  ⟨fun h => by have := alias_rename r.symm h; rwa [renS_symm] at this, alias_rename r⟩

theorem inputs_rename (r : Name → Name) (L : List (Nat × Stmt K F)) : (renS r L).filterMap inputOf = (L.filterMap inputOf).map fun x => (x.1, r x.2.1, x.2.2) := by
  rw [List.filterMap_map, List.map_filterMap]
  refine List.filterMap_congr fun s _ => ?_
  obtain ⟨n, s⟩ := s
  cases s <;> rfl

theorem declareds_rename (r : Name → Name) (L : List (Nat × Stmt K F)) : (renS r L).filterMap declaredOf = (L.filterMap declaredOf).map fun x => (x.1, r x.2.1, x.2.2) := by
  rw [List.filterMap_map, List.map_filterMap]
  refine List.filterMap_congr fun s _ => ?_
  obtain ⟨n, s⟩ := s
  cases s <;> rfl

theorem outputs_rename (r : Name → Name) (L : List (Nat × Stmt K F)) : (renS r L).filterMap outputOf = (L.filterMap outputOf).map fun x => (x.1, r x.2) := by
  rw [List.filterMap_map, List.map_filterMap]
  refine List.filterMap_congr fun s _ => ?_
  obtain ⟨n, s⟩ := s
  cases s <;> rfl

section
variable (r : Name ≃ Name) (b : Body K F)

theorem named_rename {x : Nat} {name : Name} (h : b.Named x name) : (b.rename r).Named x (r name) := by
  unfold Body.Named at *
  rw [Body.rename_stmts, inputs_rename, declareds_rename, outputs_rename]
  rcases h with ⟨s, h | h⟩ | h
  · exact Or.inl ⟨s, Or.inl (List.mem_map.2 ⟨_, h, rfl⟩)⟩
  · exact Or.inl ⟨s, Or.inr (List.mem_map.2 ⟨_, h, rfl⟩)⟩
  · exact Or.inr (List.mem_map.2 ⟨_, h, rfl⟩)

theorem has_rename {n : Nat} {s : Stmt K F} (h : b.Has n s) : (b.rename r).Has n (s.rename r) := by
  unfold Body.Has at *
  rw [Body.rename_stmts]
  exact List.mem_map.2 ⟨_, h, rfl⟩

theorem assigned_rename {y x : Nat} {key : Key} (h : b.Assigned y key x) : (b.rename r).Assigned y key x := by
  obtain ⟨n, z, h1, h2⟩ := h
  exact ⟨n, z, has_rename r b h1, by rw [Body.rename_stmts]; exact alias_rename r h2⟩

theorem live_rename {x : Nat} (h : b.Live x) : (b.rename r).Live x := by
  induction h with
  | input h => exact .input (name := r _) (by rw [Body.rename_stmts, inputs_rename]; exact List.mem_map.2 ⟨_, h, rfl⟩)
  | output h => exact .output (name := r _) (by rw [Body.rename_stmts, outputs_rename]; exact List.mem_map.2 ⟨_, h, rfl⟩)
  | operand _ h1 h2 h3 h4 ih => exact .operand ih (has_rename r b h1) h2 (by rw [Stmt.rename_count]; exact h3) (by rw [Stmt.rename_operands]; exact h4)
  | result _ h1 h2 h3 h4 h5 ih => exact .result ih (has_rename r b h1) h2 (by rw [Stmt.rename_count]; exact h3) h4 (by rw [Stmt.rename_count]; exact h5)
  | part _ h1 h2 h3 ih => exact .part ih (has_rename r b h1) (has_rename r b h2) (by rw [Body.rename_stmts]; exact alias_rename r h3)
  | assigned h => exact .assigned (has_rename r b h)
  | same _ h1 h2 ih => exact .same ih (named_rename r b h1) (named_rename r b h2)

theorem shapes_rename : (b.rename r).shapes = b.shapes := by
  unfold Body.shapes
  rw [Body.rename_stmts]
  exact shapesOf_rename r _

/-- a variable with another name -/
def renV (r : Name → Name) (v : VarInfo) : VarInfo := ⟨r v.name, v.shape⟩

theorem connections_rename (L : List (Nat × Stmt K F)) (cs : List (Name × Name)) :
    (renS r L).foldl (fun cs s => stepConnections cs s.2) (cs.map fun c => (r c.1, r c.2)) = (L.foldl (fun cs s => stepConnections cs s.2) cs).map fun c => (r c.1, r c.2) := by
  induction L generalizing cs with
  | nil => rfl
  | cons s L ih =>
    have hstep : stepConnections (cs.map fun c => (r c.1, r c.2)) (s.2.rename r) = (stepConnections cs s.2).map fun c => (r c.1, r c.2) := by
      cases s.2 with
      | connect a c =>
        have : (r a, r c) ∈ cs.map (fun c => (r c.1, r c.2)) ↔ (a, c) ∈ cs := by
          rw [List.mem_map]
          constructor
          · rintro ⟨⟨a', c'⟩, h, e⟩
            simp only [Prod.mk.injEq, EmbeddingLike.apply_eq_iff_eq] at e
            obtain ⟨rfl, rfl⟩ := e
            exact h
          · intro h; exact ⟨_, h, rfl⟩
        simp only [stepConnections, Stmt.rename, this]
        split <;> simp
      | _ => rfl
    simp only [renS, List.map_cons, List.foldl_cons] at ih ⊢
    rw [hstep]
    exact ih _

theorem locals_rename : (b.rename r).locals = { inputs := b.locals.inputs.map (renV r), outputs := b.locals.outputs.map (renV r), declared := b.locals.declared.map (renV r), connections := b.locals.connections.map fun c => (r c.1, r c.2) } := by
  unfold Body.locals
  rw [Body.rename_stmts, inputs_rename, declareds_rename, outputs_rename, shapes_rename]
  have := connections_rename r (b.stmts 0) []
  simp only [List.map_nil] at this
  simp [renV, Function.comp_def, this]

theorem vars_rename (k : VarKind) : (b.rename r).locals.vars k = (b.locals.vars k).map (renV r) := by
  rw [locals_rename]
  cases k <;> simp [Local.vars, Local.sources]

theorem bat_rename {path : List Name} {c : Body K F} (h : BAt b path c) : BAt (b.rename r) (path.map r) (c.rename r) := by
  induction h with
  | here b => exact .here _
  | @down b n p sub path c h1 _ ih => exact .down (p := p.map (·.map r)) (by rw [Body.rename_subs]; exact List.mem_map.2 ⟨_, h1, rfl⟩) ih

end

end Csdl.Prog
