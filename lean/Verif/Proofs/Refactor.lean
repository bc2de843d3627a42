import Verif.Spec.Refactor
import Verif.Proofs.Modular
import Verif.Proofs.Join
import Verif.Proofs.OneModel
/-
For C99: replacing the method of one model by another one that computes the same.
-/
namespace Csdl.Prog
open Csdl Csdl.Arith
variable {K F : Type}

/-! ### one method -/

theorem stepShapes_append (ss : List Shape) (s : Stmt K F) : ∃ e, stepShapes ss s = ss ++ e ∧ e.length = s.count := by
  cases s <;> simp [stepShapes, Stmt.count]

theorem shapes_fold (L : List (Nat × Stmt K F)) : ∀ ss : List Shape, ∃ e, L.foldl (fun ss s => stepShapes ss s.2) ss = ss ++ e ∧ e.length = numVars L := by
  induction L with
  | nil => intro ss; exact ⟨[], by simp, by simp [numVars]⟩
  | cons s L ih =>
    intro ss
    obtain ⟨e, h1, h2⟩ := stepShapes_append ss s.2
    obtain ⟨e', h3, h4⟩ := ih (ss ++ e)
    refine ⟨e ++ e', by rw [List.foldl_cons, h1, h3, List.append_assoc], ?_⟩
    rw [List.length_append, h2, h4]
    simp [numVars]

theorem alias_mono {L L' : List (Nat × Stmt K F)} (hL : ∀ n u k, (n, Stmt.index u k) ∈ L → u < numVars L) {x y : Nat} (h : Alias L x y) : Alias (L ++ L') x y := by
  have hsh : ∀ u < numVars L, (shapesOf (L ++ L')).getD u [] = (shapesOf L).getD u [] := by
    intro u hu
    unfold shapesOf
    rw [List.foldl_append]
    obtain ⟨e, h1, _⟩ := shapes_fold L' (L.foldl (fun ss s => stepShapes ss s.2) [])
    obtain ⟨e', h2, h3⟩ := shapes_fold L []
    rw [h1, h2]
    simp only [List.nil_append]
    rw [List.getD_eq_getElem?_getD, List.getD_eq_getElem?_getD, List.getElem?_append_left (by omega)]
  induction h with
  | refl x => exact .refl x
  | symm _ ih => exact .symm ih
  | trans _ _ ih1 ih2 => exact .trans ih1 ih2
  | plus h => exact .plus (List.mem_append_left _ h)
  | part h1 h2 _ h3 ih => exact .part (List.mem_append_left _ h1) (List.mem_append_left _ h2) ih (by rw [hsh _ (hL _ _ _ h1), hsh _ (hL _ _ _ h2)]; exact h3)

/-- a registered output is the same as a result of a statement -/
theorem output_computed [Zero K] {c : Body K F} (hm : MethodOk c) {x : Nat} {name : Name} (h : (x, name) ∈ (c.stmts 0).filterMap outputOf) :
    ∃ n s y, c.Has n s ∧ s.Computes ∧ n ≤ y ∧ y < n + s.count ∧ Alias (c.stmts 0) x y := by
  rcases mem_outputOf.1 h with ⟨n, hn⟩ | ⟨shape, val, hn⟩
  · obtain ⟨L1, L2, hL⟩ := List.append_of_mem hn
    obtain ⟨_, _, ⟨n', s, y, h1, h2, h3, h4, h5⟩, _⟩ := hm.stmts L1 _ L2 hL
    refine ⟨n', s, y, by unfold Body.Has; rw [hL]; simp [h1], h2, h3, h4, ?_⟩
    rw [hL]
    refine alias_mono (fun m u k hk => ?_) h5
    obtain ⟨M1, M2, hM⟩ := List.append_of_mem hk
    have := hm.stmts M1 (m, .index u k) (M2 ++ (n, .register name x) :: L2) (by rw [hL, hM]; simp)
    have h6 := this.1
    rw [hM, numVars_append]
    omega
  · exact ⟨x, _, x, hn, trivial, Nat.le_refl _, by simp [Stmt.count], .refl _⟩

/-- a variable with a name that is the same as a result of a statement is an output -/
theorem named_output [Zero K] {c : Body K F} (hm : MethodOk c) {n z v : Nat} {s : Stmt K F} {name : Name} (hs : c.Has n s) (hc : s.Computes) (h1 : n ≤ z) (h2 : z < n + s.count) (ha : Alias (c.stmts 0) z v)
    (hv : c.Named v name) : (v, name) ∈ (c.stmts 0).filterMap outputOf := by
  rcases hv with ⟨sh, hv⟩ | hv
  · exfalso
    have key : ∀ t : Stmt K F, c.Has v t → (∀ y, t ≠ .expr (.pos y)) → (∀ u k, t ≠ .index u k) → t.count = 1 → t = s := by
      intro t ht e1 e2 e3
      have hz := core_self hs (by rintro y rfl; exact hc) h1 h2
      have hv := core_self ht e1 (Nat.le_refl _) (by omega)
      rcases alias_core hm ha z v hz hv with rfl | ⟨_, _, _, _, _, h4, _⟩
      · exact (stmts_unique c 0 _ _ _ _ z ht hs (Nat.le_refl _) (by omega) h1 h2).2
      · exact absurd (stmts_unique c 0 _ _ _ _ v ht h4 (Nat.le_refl _) (by omega) (Nat.le_refl _) (by simp [Stmt.count])).2 (e2 _ _)
    rcases hv with hv | hv
    · obtain ⟨w, hw⟩ := mem_inputOf.1 hv
      have := key _ hw (by simp) (by simp) rfl
      subst this
      exact hc
    · obtain ⟨w, hw⟩ := mem_declaredOf.1 hv
      have := key _ hw (by simp) (by simp) rfl
      subst this
      exact hc
  · exact hv

/-! ### the whole program -/

/-- what is known about the two programs -/
structure Refactored [Zero K] (c c' b : Body K F) (q : List Name) (b' : Body K F) : Prop where
  valid : NamesValid b
  valid' : NamesValid b'
  step : Replaced c c' b q b'
  iface : SameInterface c c'

theorem SameInterface.symm {c c' : Body K F} (h : SameInterface c c') : SameInterface c' c := ⟨h.locals.symm, h.subs.symm, fun name => (h.matters name).symm⟩

theorem Refactored.symm [Zero K] {c c' b b' : Body K F} {q : List Name} (h : Refactored c c' b q b') : Refactored c' c b' q b := ⟨h.valid', h.valid, h.step.symm, h.iface.symm⟩

theorem Replaced.toSubs {c c' b b' : Body K F} {q : List Name} (h : Replaced c c' b q b') (hl : c.locals = c'.locals) (hs : c.toSubs = c'.toSubs) : b.toSubs = b'.toSubs := by
  induction h with
  | here => exact hs
  | stmt s _ ih => exact ih
  | @sub i n p s s' r path h ih =>
    have : s.locals = s'.locals := by
      cases path with
      | nil => obtain ⟨rfl, rfl⟩ := h.nil; exact hl
      | cons m path => exact h.locals.symm
    simp only [Body.toSubs, this, ih]
  | rest i n p s _ ih => simp only [Body.toSubs, ih]

theorem Replaced.localsEq {c c' b b' : Body K F} {q : List Name} (h : Replaced c c' b q b') (hl : c.locals = c'.locals) : b.locals = b'.locals := by
  cases q with
  | nil => obtain ⟨rfl, rfl⟩ := h.nil; exact hl
  | cons m path => exact h.locals.symm

section refactored
variable [Zero K] {c c' b b' : Body K F} {q : List Name} (R : Refactored c c' b q b')
include R

theorem Refactored.toModel : b.toModel = b'.toModel := by
  unfold Body.toModel
  rw [R.step.localsEq R.iface.locals, R.step.toSubs R.iface.locals (by rw [toSubs_of_subs, toSubs_of_subs, R.iface.subs])]

/-- the method at `q` -/
theorem Refactored.atq {d : Body K F} (h : BAt b q d) : d = c := by
  rcases Replaced.at h R.step (fun path c hc => (R.valid.methods path c hc).subNames) R.iface.subs with ⟨rest, d', h1, _, h2⟩ | ⟨_, h1⟩
  · obtain rfl : rest = [] := by simpa using h1
    exact h2.nil.1
  · exact absurd (List.prefix_refl _) h1

/-- the other methods -/
theorem Refactored.other {path : List Name} {d : Body K F} (h : BAt b path d) (hp : path ≠ q) : ∃ d', BAt b' path d' ∧ d.stmts 0 = d'.stmts 0 := by
  rcases Replaced.at h R.step (fun path c hc => (R.valid.methods path c hc).subNames) R.iface.subs with ⟨rest, d', h1, h2, h3⟩ | ⟨h1, _⟩
  · cases rest with
    | nil => exact absurd (by simpa using h1.symm) hp
    | cons n rest => exact ⟨d', h2, ((h3.above rfl).1 0).symm⟩
  · exact ⟨d, h1, rfl⟩

omit [Zero K] R in
theorem sameStatements_of_stmts {d d' : Body K F} (h : d.stmts 0 = d'.stmts 0) : SameStatements d d' := by unfold SameStatements; rw [h]

/-- what names the model at a path defines -/
theorem Refactored.locals {path : List Name} {d : Body K F} (h : BAt b path d) : ∃ d', BAt b' path d' ∧ d.locals = d'.locals := by
  by_cases hp : path = q
  · subst hp
    rw [R.atq h]
    exact ⟨c', R.step.symm.bat, R.iface.locals⟩
  · obtain ⟨d', h1, h2⟩ := R.other h hp
    exact ⟨d', h1, by simp only [Body.locals, Body.shapes, h2]⟩

/-- elsewhere, names are the same -/
theorem Refactored.hasName {path : List Name} (hp : path ≠ q) {x : Nat} {p : Name} (h : HasName b path x p) : HasName b' path x p := by
  obtain ⟨d, name, k, w, h1, h2, h3, h4, h5⟩ := h
  obtain ⟨d', g1, g2⟩ := R.other h1 hp
  have s := sameStatements_of_stmts g2
  exact ⟨d', name, k, w, g1, s.live h2, s.named.1 h3, R.toModel ▸ h4, h5⟩

/-- a variable of the replaced method that has a name has a counterpart -/
theorem Refactored.counterpart {x : Nat} {p : Name} (h : HasName b q x p) : ∃ y name, c.Live x ∧ c.Named x name ∧ c'.Live y ∧ c'.Named y name ∧ HasName b' q y p := by
  obtain ⟨d, name, k, w, h1, h2, h3, h4, h5⟩ := h
  rw [R.atq h1] at h2 h3
  obtain ⟨y, g1, g2⟩ := (R.iface.matters name).1 ⟨x, h2, h3⟩
  exact ⟨y, name, h2, h3, g1, g2, c', name, k, w, R.step.symm.bat, g1, g2, R.toModel ▸ h4, h5⟩

omit R in
/-- variables with a name have a promoted name -/
theorem hasName_of_named {b c : Body K F} {q : List Name} (hb : NamesValid b) (hq : BAt b q c) {x : Nat} {name : Name} (hl : c.Live x) (hn : c.Named x name) : ∃ k w p, w.name = name ∧ PromotedAs b.toModel q k w p ∧ HasName b q x p := by
  obtain ⟨L, l⟩ := exists_lifts hb hq
  have : ∃ k w, w ∈ c.locals.vars k ∧ w.name = name := by
    rcases hn with ⟨sh, h | h⟩ | h
    · exact ⟨.source, ⟨name, sh⟩, by simp only [Local.vars, Local.sources, Body.locals]; exact List.mem_append_left _ (List.mem_map.2 ⟨_, h, rfl⟩), rfl⟩
    · exact ⟨.target, ⟨name, sh⟩, by simp only [Local.vars, Body.locals]; exact List.mem_map.2 ⟨_, h, rfl⟩, rfl⟩
    · exact ⟨.source, ⟨name, _⟩, by simp only [Local.vars, Local.sources, Body.locals]; exact List.mem_append_right _ (List.mem_map.2 ⟨_, h, rfl⟩), rfl⟩
  obtain ⟨k, w, hw, rfl⟩ := this
  have := l.promoted (.here (l := c.locals) (subs := c.toSubs) hw : PromotedAs c.toModel [] k w w.name)
  rw [List.append_nil] at this
  exact ⟨k, w, _, rfl, this, c, w.name, k, w, hq, hl, hn, this, rfl⟩

/-- variables with the same name in one method are the same -/
theorem Refactored.same_named {x y : Nat} {name : Name} (h1 : c.Live x) (h2 : c.Named x name) (h3 : c.Live y) (h4 : c.Named y name) : Same b (q, x) (q, y) := by
  obtain ⟨k, w, p, e, hp, hx⟩ := hasName_of_named R.valid R.step.bat h1 h2
  exact .name p hx ⟨c, name, k, w, R.step.bat, h3, h4, hp, e⟩

end refactored

section fields
variable [Field K] {c c' b b' : Body K F} {q : List Name} {P : Power K} {den : F → List (Val K) → Nat → Val K} (R : Refactored c c' b q b')
include R

theorem Refactored.methodSolution {ρ : List Name → Nat → Val K} (h : Solution P den b ρ) : MethodSolution P den c (ρ q) where
  expr := h.expr q c R.step.bat
  call := h.call q c R.step.bat
  index := h.index q c R.step.bat
  output := h.output q c R.step.bat
  named := fun x y name h1 h2 h3 h4 => by
    obtain ⟨k, w, p, e, hp, hx⟩ := hasName_of_named R.valid R.step.bat h1 h2
    exact h.shared _ _ _ _ p hx ⟨c, name, k, w, R.step.bat, h3, h4, hp, e⟩

open Classical in
/-- a solution of the other program with suitable values at `q` is a solution -/
theorem Refactored.solution {ρ' : List Name → Nat → Val K} (h : Solution P den b' ρ') {ρc : Nat → Val K} (hc : MethodSolution P den c ρc)
    (ha : ∀ name x y, c.Live x → c.Named x name → c'.Live y → c'.Named y name → ρc x = ρ' q y) : Solution P den b fun path => if path = q then ρc else ρ' path := by
  have hn : ∀ {path x p}, HasName b path x p → ∃ y, HasName b' path y p ∧ (if path = q then ρc else ρ' path) x = ρ' path y := by
    intro path x p hx
    by_cases hp : path = q
    · subst hp
      obtain ⟨y, name, h1, h2, h3, h4, h5⟩ := R.counterpart hx
      exact ⟨y, h5, by rw [if_pos rfl]; exact ha name x y h1 h2 h3 h4⟩
    · exact ⟨x, R.hasName hp hx, by rw [if_neg hp]⟩
  constructor
  · intro path d hd
    by_cases hp : path = q
    · subst hp; rw [R.atq hd]; simpa using hc.expr
    · obtain ⟨d', g1, g2⟩ := R.other hd hp
      have s := sameStatements_of_stmts g2
      intro n i h1 h2
      simp only [if_neg hp]
      exact h.expr path d' g1 n i (s.has rfl h1) (s.live h2)
  · intro path d hd
    by_cases hp : path = q
    · subst hp; rw [R.atq hd]; simpa using hc.call
    · obtain ⟨d', g1, g2⟩ := R.other hd hp
      have s := sameStatements_of_stmts g2
      intro n f args outs h1 j hj h2
      simp only [if_neg hp]
      exact h.call path d' g1 n f args outs (s.has rfl h1) j hj (s.live h2)
  · intro path d hd
    by_cases hp : path = q
    · subst hp; rw [R.atq hd]; simpa using hc.index
    · obtain ⟨d', g1, g2⟩ := R.other hd hp
      have s := sameStatements_of_stmts g2
      intro n x key h1 h2
      simp only [if_neg hp]
      rw [s.shapes]
      exact h.index path d' g1 n x key (s.has rfl h1) (s.live h2)
  · intro path d hd
    by_cases hp : path = q
    · subst hp; rw [R.atq hd]; simpa using hc.output
    · obtain ⟨d', g1, g2⟩ := R.other hd hp
      have s := sameStatements_of_stmts g2
      intro y name shape val h1
      simp only [if_neg hp]
      obtain ⟨h3, h4⟩ := h.output path d' g1 y name shape val (s.has rfl h1)
      exact ⟨fun key x idx shp ha => h3 key x idx shp (s.assigned ha), fun i hi => h4 i fun key x idx shp ha => hi key x idx shp (s.symm.assigned ha)⟩
  · intro path x path' y p h1 h2
    obtain ⟨x', g1, g2⟩ := hn h1
    obtain ⟨y', g3, g4⟩ := hn h2
    rw [g2, g4]
    exact h.shared _ _ _ _ p g1 g3
  · intro path d hd s t p p2 hst hp hp2 path1 x path2 y h1 h2
    obtain ⟨x', g1, g2⟩ := hn h1
    obtain ⟨y', g3, g4⟩ := hn h2
    obtain ⟨d', g5, g6⟩ := R.locals hd
    rw [g2, g4]
    exact h.connected path d' g5 s t p p2 (g6 ▸ hst) (R.toModel ▸ hp) (R.toModel ▸ hp2) _ _ _ _ g1 g3

end fields

end Csdl.Prog
