import Verif.Proofs.Exact
/-!
# C72: valid hierarchies are accepted
-/
namespace Csdl

theorem ValidHierarchy.wellBuilt {H : Objs} {n : Nat} {root : OModel} (hv : ValidHierarchy H n root) : WellBuilt H n root := ⟨hv.objects, hv.oneOperation⟩

theorem ValidHierarchy.acceptable {H : Objs} {n : Nat} {root : OModel} (hv : ValidHierarchy H n root) : Acceptable H root where
  oneSource := hv.oneSource
  sizes := fun path m hat p k1 path1 v1 k2 path2 v2 h1 h2 hne _ => hv.sizes path m hat p k1 path1 v1 k2 path2 v2 h1 h2 hne
  promotes := by
    intro path l subs hat s hs q hq x hx
    obtain ⟨h1, path', k, v, h2⟩ := hv.promotes path l subs hat s hs q hq x hx
    exact ⟨h1, s.name :: path', k, v, .up hs h2 (by rw [hq]; exact hx)⟩
  connections := by
    intro path m a b hm hab
    obtain ⟨p, q, h1, h2, h3, h4, h5, h6⟩ := hv.connections path m a b hm hab
    exact ⟨p, q, h1, h2, h3, h4, h5, fun x y hx hy => h6 x y hx.1 hy.1⟩
  oneConnection := hv.oneConnection
  designVars := hv.designVars
  constraints := hv.constraints
  objective := hv.objective
  acyclic := hv.acyclic

/-- **C72.** The representation of a valid hierarchy of model objects is built: for every order in which sets are iterated, and enough steps for the loops, there is no error. -/
theorem C72_valid_accepted (H : Objs) (n fuel : Nat) (root : OModel) (hv : ValidHierarchy H n root) (hf : ∀ path m, OAt H root path m → (m.outputs ++ m.declared).length + n ≤ fuel)
    (order : List Nat → List Nat) (ho : ∀ l x, x ∈ order l ↔ x ∈ l) : ∃ rep, compile H fuel order root = .ok rep :=
  acceptable_accepted H n fuel root hv.wellBuilt hv.noChain hv.acceptable hf order ho

/-! The hierarchy of C70 is valid. -/

theorem exEndA_promoted {path k w p} (h : PromotedAs exEndA path k w p) :
    (path = [] ∧ k = .source ∧ w = ⟨"w".toList, [1]⟩ ∧ p = "w".toList) ∨ (path = [] ∧ k = .target ∧ w = ⟨"x".toList, [1]⟩ ∧ p = "x".toList) := by
  cases h with
  | @here _ _ k v hv => cases k <;> simp [Local.vars, Local.sources] at hv <;> subst hv <;> simp
  | @up _ _ path k v p s hs hp hpr => simp [Subs.toList] at hs
  | @stay _ _ path k v p s hs hp hpr => simp [Subs.toList] at hs

theorem exEnd_promoted {path k w p} (h : PromotedAs exEndModel path k w p) :
    (path = [] ∧ k = .source ∧ w = ⟨"a".toList, [1]⟩ ∧ p = "a".toList) ∨ (path = [] ∧ k = .source ∧ w = ⟨"y".toList, [1]⟩ ∧ p = "y".toList) ∨
    (path = [] ∧ k = .target ∧ w = ⟨"w".toList, [1]⟩ ∧ p = "w".toList) ∨ (path = ["A".toList] ∧ k = .source ∧ w = ⟨"w".toList, [1]⟩ ∧ p = "w".toList) ∨
    (path = ["A".toList] ∧ k = .target ∧ w = ⟨"x".toList, [1]⟩ ∧ p = "A.x".toList) := by
  cases h with
  | @here _ _ k v hv =>
    cases k <;> simp [Local.vars, Local.sources] at hv
    · rcases hv with rfl | rfl <;> simp
    · subst hv; simp
  | @up _ _ path k v p s hs hp hpr =>
    simp only [Subs.toList, List.mem_singleton] at hs
    subst hs
    rcases exEndA_promoted hp with ⟨rfl, rfl, rfl, rfl⟩ | ⟨rfl, rfl, rfl, rfl⟩
    · simp
    · simp [IsPromoted] at hpr
  | @stay _ _ path k v p s hs hp hpr =>
    simp only [Subs.toList, List.mem_singleton] at hs
    subst hs
    rcases exEndA_promoted hp with ⟨rfl, rfl, rfl, rfl⟩ | ⟨rfl, rfl, rfl, rfl⟩
    · simp [IsPromoted] at hpr
    · refine Or.inr (Or.inr (Or.inr (Or.inr ⟨rfl, rfl, rfl, by decide⟩)))

theorem exEnd_at {path m} (h : At exEndModel path m) : (path = [] ∧ m = exEndModel) ∨ (path = ["A".toList] ∧ m = exEndA) := by
  cases h with
  | here => exact Or.inl ⟨rfl, rfl⟩
  | @down _ _ path m' s hs h =>
    simp only [Subs.toList, List.mem_singleton] at hs
    subst hs
    cases h with
    | here => exact Or.inr ⟨rfl, rfl⟩
    | @down _ _ path m' s hs h => simp [Subs.toList] at hs

theorem exEnd_named {x p} (h : NamedVar exObj exObjRoot x p) (hp : p = "A.x".toList) : x = 5 := by
  obtain ⟨path, m, k, w, h1, h2, h3, h4, h5⟩ := h
  rw [exObj_model] at h4
  rcases exEnd_promoted h4 with ⟨rfl, rfl, rfl, rfl⟩ | ⟨rfl, rfl, rfl, rfl⟩ | ⟨rfl, rfl, rfl, rfl⟩ | ⟨rfl, rfl, rfl, rfl⟩ | ⟨rfl, rfl, rfl, rfl⟩ <;> first | exact absurd hp (by decide) | skip
  rcases exObj_oat h1 with ⟨e, rfl⟩ | ⟨_, rfl⟩
  · simp at e
  · have : ∀ x ∈ exObjA.vars, (exObj x).name = "x".toList → x = 5 := by decide
    exact this x h2 h5.symm

theorem exObj_valid : ValidHierarchy exObj 8 exObjRoot := by
  have hne : ∀ {x p}, NamedVar exObj exObjRoot x p → (exObj x).shape = [1] := by
    rintro x p ⟨path, m, k, w, h1, h2, _⟩
    rcases exObj_oat h1 with ⟨_, rfl⟩ | ⟨_, rfl⟩
    · have : ∀ x ∈ exObjRoot.vars, (exObj x).shape = [1] := by decide
      exact this x h2
    · have : ∀ x ∈ exObjA.vars, (exObj x).shape = [1] := by decide
      exact this x h2
  have hops : ∀ path m op, OAt exObj exObjRoot path m → m.Needs exObj op → op ∈ [1, 2, 3, 5, 6, 7] := by
    intro path m op h1 h2
    rcases exObj_oat h1 with ⟨_, rfl⟩ | ⟨_, rfl⟩
    · have := exObj_needs h2; simp at this ⊢; omega
    · have := exObjA_needs h2; simp at this ⊢; omega
  refine ⟨exObj_ok, ?_, ?_, ?_, ?_, ?_, ?_, ?_, ?_, ?_, ?_, ?_⟩
  · intro path m path' m' op op' v h1 h2 h3 h4 _ _ h5 h6
    have key : ∀ op ∈ [1, 2, 3, 5, 6, 7], ∀ op' ∈ [1, 2, 3, 5, 6, 7], ∀ v ∈ (exObj op).outs, v ∈ (exObj op').outs → op = op' := by decide
    exact key op (hops _ _ _ h1 h3) op' (hops _ _ _ h2 h4) v h5 h6
  · intro path m hat p p1 v1 p2 v2 h1 h2
    rw [exObj_model] at hat
    rcases exEnd_at hat with ⟨_, rfl⟩ | ⟨_, rfl⟩
    · rcases exEnd_promoted h1 with ⟨rfl, e, rfl, rfl⟩ | ⟨rfl, e, rfl, rfl⟩ | ⟨rfl, e, rfl, rfl⟩ | ⟨rfl, e, rfl, rfl⟩ | ⟨rfl, e, rfl, rfl⟩ <;>
      rcases exEnd_promoted h2 with ⟨rfl, e', rfl, q⟩ | ⟨rfl, e', rfl, q⟩ | ⟨rfl, e', rfl, q⟩ | ⟨rfl, e', rfl, q⟩ | ⟨rfl, e', rfl, q⟩ <;> first | rfl | (cases e; done) | (cases e'; done) | exact absurd q (by decide)
    · rcases exEndA_promoted h1 with ⟨rfl, _⟩ | ⟨rfl, _⟩ <;> rcases exEndA_promoted h2 with ⟨rfl, _⟩ | ⟨rfl, _⟩ <;> rfl
  · intro path m hat p k1 p1 v1 k2 p2 v2 h1 h2 _
    rw [exObj_model] at hat
    have hsz : ∀ {path k v p}, PromotedAs m path k v p → v.shape = [1] := by
      intro path k v p h
      rcases exEnd_at hat with ⟨_, rfl⟩ | ⟨_, rfl⟩
      · rcases exEnd_promoted h with ⟨_, _, rfl, _⟩ | ⟨_, _, rfl, _⟩ | ⟨_, _, rfl, _⟩ | ⟨_, _, rfl, _⟩ | ⟨_, _, rfl, _⟩ <;> rfl
      · rcases exEndA_promoted h with ⟨_, _, rfl, _⟩ | ⟨_, _, rfl, _⟩ <;> rfl
    rw [hsz h1, hsz h2]
  · intro path l subs hat s hs q hq x hx
    rw [exObj_model] at hat
    rcases exEnd_at hat with ⟨_, e⟩ | ⟨_, e⟩
    · cases e
      simp only [Subs.toList, List.mem_singleton] at hs
      subst hs
      cases hq
      simp only [List.mem_singleton] at hx
      subst hx
      exact ⟨by decide, [], .source, ⟨"w".toList, [1]⟩, .here (v := ⟨"w".toList, [1]⟩) (by simp [Local.vars, Local.sources])⟩
    · cases e
      simp [Subs.toList] at hs
  · intro path m a b h1 hab
    rcases exObj_oat h1 with ⟨rfl, rfl⟩ | ⟨rfl, rfl⟩
    · simp only [exObjRoot, OModel.connections, List.mem_singleton, Prod.mk.injEq] at hab
      obtain ⟨rfl, rfl⟩ := hab
      have pa : PromotedAs exEndModel [] .source ⟨"a".toList, [1]⟩ "a".toList := .here (v := ⟨"a".toList, [1]⟩) (by simp [Local.vars, Local.sources])
      have n7 : exObjA.Needs exObj 7 := .leaf 7 (by decide)
      have n6 : exObjA.Needs exObj 6 := .dep 7 6 n7 (by decide)
      have n5 : exObjA.Needs exObj 5 := .leaf 5 (by decide)
      have oA : OAt exObj exObjRoot ["A".toList] exObjA := OAt.down (m := exObjRoot) (s := ⟨4, some ["w".toList], exObjA⟩) (by simp [exObjRoot, OModel.subs, OSubs.toList]) (.here _)
      refine ⟨"a".toList, "A.x".toList, by rw [exObj_model]; exact .promoted pa, by rw [exObj_model]; exact .promoted exEnd_ax, ⟨0, ⟨[], exObjRoot, _, _, .here _, by decide, Or.inl (by decide), by rw [exObj_model]; exact pa, rfl⟩, by decide⟩,
        ⟨5, ["A".toList], exObjA, _, _, oA, by decide, Or.inr ⟨n5, 5, ⟨n5, 6, n6, Or.inr (Or.inl (by decide))⟩, rfl⟩, by rw [exObj_model]; exact exEnd_ax, rfl⟩, ?_, ?_⟩
      · intro y hy path m op h2 h3 _
        have := exEnd_named hy rfl
        subst this
        have key : ∀ op ∈ [1, 2, 3, 5, 6, 7], 5 ∉ (exObj op).outs := by decide
        exact key op (hops _ _ _ h2 h3)
      · intro x y hx hy
        rw [hne hx, hne hy]
    · simp [exObjA, OModel.connections] at hab
  · rw [exObj_model]
    have hiss : issuedPost Local.connections exEndModel = [([], "a".toList, "A.x".toList)] := by decide
    rw [hiss]; exact List.pairwise_singleton _ _
  · rw [exObj_model]; exact exEnd_noChain
  · constructor
    · intro path l subs k d hat hk
      rw [exObj_model] at hat
      rcases exEnd_at hat with ⟨_, e⟩ | ⟨_, e⟩ <;> cases e <;> cases hk
    · rw [exObj_model]; exact List.Pairwise.nil
  · constructor
    · intro path l subs k d hat hk
      rw [exObj_model] at hat
      rcases exEnd_at hat with ⟨_, e⟩ | ⟨_, e⟩ <;> cases e <;> cases hk
    · rw [exObj_model]; exact List.Pairwise.nil
  · constructor
    · intro path l subs k d hat hk
      rw [exObj_model] at hat
      rcases exEnd_at hat with ⟨_, e⟩ | ⟨_, e⟩ <;> cases e <;> cases hk
    · rw [exObj_model]; decide
  · obtain ⟨rep, hrep, _⟩ := ok_of_check (x := compile exObj 10 id exObjRoot) (P := fun _ => true) (by decide)
    refine (C71_cycle_reported exObj 8 10 exObjRoot exObj_ok ?_ id (by simp) (by rw [exObj_model]; exact exEnd_noChain)).1 rep hrep
    intro path m h
    rcases exObj_oat h with ⟨_, rfl⟩ | ⟨_, rfl⟩ <;> decide

/-! One model with an input `a` (0), of which operation 2 computes the output `y` (3), a declared variable `w` (1) that nothing reads, and the connection of `a` to `w`. -/

def exUnused : Objs := fun i => match i with
  | 0 => { kind := .var, name := "a".toList, auto := "_0000".toList, role := .input }
  | 1 => { kind := .var, name := "w".toList, auto := "_0001".toList }
  | 2 => { kind := .op, name := "_0002".toList, deps := [0], outs := [3] }
  | 3 => { kind := .var, name := "y".toList, auto := "_0003".toList, role := .output, deps := [2] }
  | _ => { kind := .var, name := "_0009".toList }

def exUnusedRoot (c : List (Name × Name)) : OModel := .mk [0] [3] [1] c [] [] none .nil

/-- The requirement that the ends of connections are in use is not met by all programs that look valid: a connection to a declared variable that no operation reads is rejected (KeyError), although
without the connection the model is accepted and the name is a name of the model. -/
theorem C72_unused_target_rejected : (∃ rep, compile exUnused 10 id (exUnusedRoot []) = .ok rep ∧ rep.p2u.get? "w".toList = some ["w".toList]) ∧
    ∃ e, compile exUnused 10 id (exUnusedRoot [("a".toList, "w".toList)]) = .error (.flat e) := by
  constructor
  · obtain ⟨rep, h1, h2⟩ := ok_of_check (x := compile exUnused 10 id (exUnusedRoot [])) (P := fun rep => decide (rep.p2u.get? "w".toList = some ["w".toList])) (by decide)
    exact ⟨rep, h1, of_decide_eq_true h2⟩
  · have : (match compile exUnused 10 id (exUnusedRoot [("a".toList, "w".toList)]) with | .error (.flat _) => true | _ => false) = true := by decide
    revert this
    cases compile exUnused 10 id (exUnusedRoot [("a".toList, "w".toList)]) with
    | ok a => intro h; cases h
    | error e => cases e <;> intro h <;> first | cases h; done | exact ⟨_, rfl⟩

end Csdl
